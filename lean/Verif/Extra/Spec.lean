import Verif.Extra.Model

/-!
# What an extrapolation starts from and what it reports: specification
-/

namespace Edyn.Extra

variable {V : Type}

/-- The snapshot of a request gives the value `v` to the component `c` of the
entity `m` of the main registry. -/
def Run.Gives (x : Run V) (m c : ℕ) (v : V) : Prop :=
  ∃ p ∈ x.pools, p.type = c ∧ ∃ i, (i, v) ∈ p.cells ∧ x.entities[i]? = some m

/-- The value which the snapshot of a request gives to a component of an entity
of the main registry; the last one counts. -/
def Run.given (x : Run V) (m c : ℕ) : Option V :=
  x.pools.foldl (fun old p =>
    p.cells.foldl (fun old cell =>
      if p.type = c ∧ x.entities[cell.1]? = some m then some cell.2 else old) old) none

/-- What one message changes about the last known value of a component: the
value comes with the creation of the entity, or with a snapshot. Snapshots say
nothing about components which the entity does not have. -/
def learn (m c : ℕ) (old : Option V) : Op V → Option V
  | .create es _ =>
    match es.find? fun p => p.1 = m with
    | some p => p.2 c
    | none => old
  | .destroy ms => if m ∈ ms then none else old
  | .context _ => old
  | .extrapolate x => old.map fun v => (x.given m c).getD v

/-- The last value of a component of an entity of the main registry which the
worker was sent. -/
def sent (m c : ℕ) (h : List (Op V)) : Option V := h.foldl (learn m c) none

/-- The entities which take part in an extrapolation: what is reached from the
snapshot. -/
def involved (w : World V) (x : Run V) : List ℕ :=
  x.reach ((x.entities.filterMap w.localOf).filter x.connecting)

/-- The inputs of a request are inputs, and so is what is emplaced while it is
served. -/
def Run.Tame (E : Env) (x : Run V) : Prop :=
  (∀ i ∈ x.latest, E.isInput i.2.1 = true) ∧
    ∀ e c v, Write.emplace e c v ∈ x.writes → E.isInput c = true

/-- Messages which do not disturb the worker: the component types are not
registered anew, the entities of a snapshot are known and take part in the
extrapolation. -/
def Fine (E : Env) (w : World V) : Op V → Prop
  | .context _ => False
  | .extrapolate x =>
    (∀ m ∈ x.entities, ∃ l, w.localOf m = some l ∧ l ∈ involved w x) ∧ x.Tame E
  | _ => True

/-- A history of messages without disturbance. -/
inductive Orderly (E : Env) (k : ℕ) : List (Op V) → World V → Prop
  | nil : Orderly E k [] { kind := k }
  | snoc {h w op w'} : Orderly E k h w → Fine E w op → exec E w op = some w' →
      Orderly E k (h ++ [op]) w'

/-- While the request is served the component `c` of the entity which is `m` in
the main registry and `l` in the worker is replaced through the registry: by the
snapshot, or by an input, a callback or any other code which patches it. `w1` is
the state when the simulation starts. -/
def Run.Replaces (x : Run V) (w1 : World V) (m l c : ℕ) : Prop :=
  ((∃ v, x.Gives m c v) ∧ (w1.comp l c).isSome) ∨ ∃ v, Write.patch l c v ∈ x.writes

end Edyn.Extra
