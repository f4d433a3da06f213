import Mathlib.Data.List.Basic
import Mathlib.Data.Option.Basic

/-!
# Extrapolation: initial state, tracking of changes, result

Model of the part of the extrapolation worker which decides from which state an
extrapolation starts and which components its result carries back.

Simplifications, for the whole file:
* A component is a pair of an entity and a component type, with a value in an
  arbitrary type `V`. Component types are numbers; only the non-empty types are
  considered (`if constexpr(!std::is_empty_v<Component>)` in
  extrapolation_modified_comp.hpp 88, 107, 122).
* Child entities inside of component values are not translated.
* `merge_component` is an assignment (merge_component.hpp 13-16); the only
  specialization is for a component which is not networked.
* The simulation and the user's callbacks are an arbitrary list of writes.
  Entities are created and destroyed by messages only.
* Islands enter only through the set of entities reached from the snapshot.
* `should_remap` is true, as in the only place where a request is made
  (client_side.cpp 801). Contact manifolds of the result are not modelled.
* `none` stands for a failed assertion or undefined behaviour.
-/

namespace Edyn.Extra

variable {V : Type}

/-- What is fixed at compile time: for each registration of networked
components (`make_extrapolation_modified_comp`, networking_external.hpp 44-49;
a registration is a number) its component types, and which of all component
types are network inputs (or the `action_history`), see
extrapolation_modified_comp.hpp 146. -/
structure Env where
  sets : ℕ → List ℕ
  isInput : ℕ → Bool

/-- The state of the worker between messages (extrapolation_worker.hpp
members `m_registry`, `m_entity_map`, `m_owned_entities`, `m_modified_comp`).
`emap` holds pairs of an entity of the main registry and one of the worker;
`next` is the next fresh entity; `comp` the components; `mods k e` is the
component `modified_components` of registration `k` (each instance of the class
template has its own such struct, extrapolation_modified_comp.hpp 61-64) as the
list of its first `count` indices, where an index is replaced by the component
type it stands for; `remote` is `remote_state_pools` (212). -/
structure World (V : Type) where
  emap : List (ℕ × ℕ) := []
  next : ℕ := 0
  comp : ℕ → ℕ → Option V := fun _ _ => none
  mods : ℕ → ℕ → Option (List ℕ) := fun _ _ => none
  kind : ℕ := 0
  remote : ℕ → ℕ → Option V := fun _ _ => none
  owned : List ℕ := []

/-- `m_entity_map.contains` and `at`: the entity of the worker. -/
def World.localOf (w : World V) (m : ℕ) : Option ℕ :=
  (w.emap.find? fun p => p.1 = m).map (·.2)

/-- `contains` and `at` of the swapped `m_entity_map`
(extrapolation_worker.cpp 464-466): the entity of the main registry. -/
def World.mainOf (w : World V) (l : ℕ) : Option ℕ :=
  (w.emap.find? fun p => p.2 = l).map (·.1)

/-- Assignment of a component value. -/
def World.setComp (w : World V) (e c : ℕ) (v : V) : World V :=
  { w with comp := fun e' c' => if e' = e ∧ c' = c then some v else w.comp e' c' }

/-- Assignment of the `modified_components` of the current registration. -/
def World.setMods (w : World V) (e : ℕ) (l : Option (List ℕ)) : World V :=
  { w with mods := fun k' e' => if k' = w.kind ∧ e' = e then l else w.mods k' e' }

/-- extrapolation_modified_comp.hpp 66-84 (`on_update`). The array of indices
has room for as many as there are component types (62). -/
def onUpdate (E : Env) (w : World V) (e c : ℕ) : Option (World V) :=
  match w.mods w.kind e with
  | none => some w
  | some l =>
    if c ∈ l then some w
    else if l.length < (E.sets w.kind).length then some (w.setMods e (some (l ++ [c])))
    else none

/-- `registry.patch<Component>(entity, ...)`: the component must exist. The
signal reaches `on_update` while changes are observed
(extrapolation_modified_comp.hpp 86-91, 149-155). -/
def patch (E : Env) (observing : Bool) (w : World V) (e c : ℕ) (v : V) : Option (World V) :=
  if (w.comp e c).isNone then none
  else if observing && c ∈ E.sets w.kind then onUpdate E (w.setComp e c v) e c
  else some (w.setComp e c v)

/-- extrapolation_modified_comp.hpp 105-118, 171-173 (`import_remote_state`):
plain assignments, which emit no signal. -/
def importRemote (E : Env) (w : World V) (es : List ℕ) : World V :=
  { w with
    comp := fun e c =>
      if e ∈ es ∧ c ∈ E.sets w.kind ∧ (w.comp e c).isSome ∧ (w.remote e c).isSome then
        w.remote e c
      else w.comp e c }

/-- extrapolation_modified_comp.hpp 120-138, 177-179 (`export_remote_state`). -/
def exportRemote (E : Env) (w : World V) (es : List ℕ) : World V :=
  { w with
    remote := fun e c =>
      if e ∈ es ∧ c ∈ E.sets w.kind ∧ (w.comp e c).isSome then w.comp e c
      else w.remote e c }

/-- extrapolation_modified_comp.hpp 157-159 (`add_entity`); `emplace` asserts
that the component does not exist. -/
def addEntity (w : World V) (e : ℕ) : Option (World V) :=
  match w.mods w.kind e with
  | none => some (w.setMods e (some []))
  | some _ => none

/-- registry_operation.hpp 57-62 (`operation_create::execute`) followed by the
callback, extrapolation_worker.cpp 219-225. -/
def createOne (w : World V) (m : ℕ) : Option (World V) :=
  match w.localOf m with
  | some l => addEntity w l
  | none => addEntity { w with emap := w.emap ++ [(m, w.next)], next := w.next + 1 } w.next

/-- registry_operation.hpp 144-162 (`operation_emplace::execute`), for all
components of one entity. They are given as a function of the component type, as
`emplace_all` makes at most one operation of each type. -/
def emplaceAll (w : World V) (p : ℕ × (ℕ → Option V)) : World V :=
  match w.localOf p.1 with
  | none => w
  | some l => { w with comp := fun e c => if e = l then (w.comp e c).or (p.2 c) else w.comp e c }

/-- extrapolation_worker.cpp 243-247: one owned entity. `at` requires it to be
in the map and `push` to be new. -/
def ownOne (w : World V) (m : ℕ) : Option (World V) :=
  match w.localOf m with
  | none => none
  | some l => if l ∈ w.owned then none else some { w with owned := w.owned ++ [l] }

/-- extrapolation_worker.cpp 178-248 (`on_extrapolation_operation_create`) with
the operation made by client_side.cpp 189-213: all entities are created first,
then the components are emplaced. -/
def create (E : Env) (w : World V) (es : List (ℕ × (ℕ → Option V))) (owned : List ℕ) :
    Option (World V) :=
  ((es.map (·.1)).foldlM createOne w).bind fun w =>
    let w := es.foldl emplaceAll w
    let w := exportRemote E w ((es.map (·.1)).filterMap w.localOf)
    owned.foldlM ownOne w

/-- extrapolation_worker.cpp 155-169 (`on_extrapolation_operation_destroy`, one
entity) with extrapolation_modified_comp.hpp 161-166 (`remove_entity`); `erase`
asserts that the component exists. `registry.destroy` removes all components. -/
def destroyOne (E : Env) (w : World V) (m : ℕ) : Option (World V) :=
  match w.localOf m with
  | none => some w
  | some l =>
    match w.mods w.kind l with
    | none => none
    | some _ => some { w with
        emap := w.emap.filter fun p => p.1 ≠ m
        owned := w.owned.filter (· ≠ l)
        mods := fun k e => if e = l then none else w.mods k e
        remote := fun e c => if e = l ∧ c ∈ E.sets w.kind then none else w.remote e c
        comp := fun e c => if e = l then none else w.comp e c }

/-- extrapolation_worker.cpp 272-275 (`on_set_extrapolator_context_settings`):
a new object is made, whose storages are empty. The components in the registry
stay. -/
def context (w : World V) (k : ℕ) : World V :=
  { w with kind := k, remote := fun _ _ => none }

/-- A pool of a snapshot: a component type, and values with the index of their
entity (pool_snapshot_data.hpp 24-46). -/
structure Pool (V : Type) where
  type : ℕ
  cells : List (ℕ × V)

/-- pool_snapshot_data.hpp 96-111 (`replace_into_registry`), one cell. -/
def replaceCell (E : Env) (entities : List ℕ) (c : ℕ) (w : World V) (cell : ℕ × V) :
    Option (World V) :=
  match entities[cell.1]? with
  | none => none
  | some m =>
    match w.localOf m with
    | none => some w
    | some l => if (w.comp l c).isSome then patch E true w l c cell.2 else some w

/-- pool_snapshot_data.hpp 90-113 (`replace_into_registry`). -/
def replaceInto (E : Env) (entities : List ℕ) (w : World V) (p : Pool V) : Option (World V) :=
  p.cells.foldlM (replaceCell E entities p.type) w

/-- input_state_history.hpp 234-256 (`import_component`): an input of an entity
of the main registry. -/
def importInput (E : Env) (w : World V) (i : ℕ × ℕ × V) : Option (World V) :=
  match w.localOf i.1 with
  | none => some w
  | some l =>
    if (w.comp l i.2.1).isSome then patch E false w l i.2.1 i.2.2
    else some (w.setComp l i.2.1 i.2.2)

/-- A write during the extrapolation: `raw` assigns through a view, as the
solver does (island_solver.cpp 369, 393-410), `patch` and `emplace` go through
the registry, as inputs (input_state_history.hpp 249-255) and user code do. -/
inductive Write (V : Type)
  | raw (e c : ℕ) (v : V)
  | patch (e c : ℕ) (v : V)
  | emplace (e c : ℕ) (v : V)

/-- The effect of a write while changes are observed. Emplacing emits another
signal, which is not observed; the entity must be valid. -/
def Write.apply (E : Env) (w : World V) : Write V → Option (World V)
  | .raw e c v => if (w.comp e c).isSome then some (w.setComp e c v) else none
  | .patch e c v => Extra.patch E true w e c v
  | .emplace e c v =>
    if (w.comp e c).isSome || (w.mainOf e).isNone then none else some (w.setComp e c v)

/-- A request, with what happens while it is served: `entities` and `pools` of
the snapshot (main registry), `connecting` tells the connecting nodes of the
graph of entities and `reach` what a traversal from given entities visits (both
in terms of the worker's entities), `latest` the inputs before the start time,
`writes` what the steps and the callbacks write. -/
structure Run (V : Type) where
  entities : List ℕ
  pools : List (Pool V)
  connecting : ℕ → Bool
  reach : List ℕ → List ℕ
  latest : List (ℕ × ℕ × V)
  writes : List (Write V)

/-- extrapolation_worker.cpp 312-328: the entities of the snapshot, `some none`
if one of them is unknown. -/
def collect (w : World V) : List ℕ → List ℕ → Option (Option (List ℕ))
  | [], acc => some (some acc)
  | m :: ms, acc =>
    match w.localOf m with
    | none => some none
    | some l => if l ∈ acc then none else collect w ms (acc ++ [l])

/-- extrapolation_worker.cpp 291-397 (`begin_extrapolation`): `some none` if it
is aborted. The recalculation of derived components (388-394), which are not
networked, is left out; the begin callback is part of the writes. -/
def start (E : Env) (w : World V) (x : Run V) : Option (Option (World V)) :=
  (collect w x.entities []).bind fun
    | none => some none
    | some snap =>
      let w := importRemote E w (x.reach (snap.filter x.connecting))
      (x.latest.foldlM (importInput E) w).bind fun w =>
        (x.pools.foldlM (replaceInto E x.entities) w).map fun w =>
          some (exportRemote E w snap)

/-- extrapolation_modified_comp.hpp 185-201, one entity of `export_to_builder`,
with the translation of the entity (extrapolation_worker.cpp 461-467). -/
def opsOf (E : Env) (w : World V) (e : ℕ) : Option (List (ℕ × ℕ × V)) :=
  match w.mods w.kind e with
  | none => some []
  | some l => (l.filter fun c => !(decide (e ∈ w.owned) && E.isInput c)).mapM fun c =>
      (w.comp e c).bind fun v => (w.mainOf e).map fun m => (m, c, v)

/-- extrapolation_modified_comp.hpp 204-208 (`clear_modified`). -/
def clearModified (w : World V) : World V :=
  { w with mods := fun k e => if k = w.kind then (w.mods k e).map fun _ => [] else w.mods k e }

/-- extrapolation_worker.cpp 399-473 (`finish_extrapolation`): the operations of
the result, each an entity of the main registry, a component type and a value.
There must be at least one (430). The order of the entities is not that of the
program. -/
def finish (E : Env) (w : World V) : Option (World V × List (ℕ × ℕ × V)) :=
  ((List.range w.next).mapM (opsOf E w)).bind fun ops =>
    if ops.flatten.isEmpty then none else some (clearModified w, ops.flatten)

/-- extrapolation_worker.cpp 525-543 (`extrapolate`): the result, or `none` if
the extrapolation was aborted. -/
def extrapolate (E : Env) (w : World V) (x : Run V) :
    Option (World V × Option (List (ℕ × ℕ × V))) :=
  (start E w x).bind fun
    | none => some (w, none)
    | some w1 =>
      (x.writes.foldlM (Write.apply E) w1).bind fun w2 =>
        (finish E w2).map fun r => (r.1, some r.2)

/-- The messages of the worker (extrapolation_worker.cpp 75-81); those which
concern other settings are left out. -/
inductive Op (V : Type)
  | create (es : List (ℕ × (ℕ → Option V))) (owned : List ℕ)
  | destroy (ms : List ℕ)
  | context (k : ℕ)
  | extrapolate (x : Run V)

/-- extrapolation_worker.cpp 154-275, 525-543: one message. -/
def exec (E : Env) (w : World V) : Op V → Option (World V)
  | .create es owned => create E w es owned
  | .destroy ms => ms.foldlM (destroyOne E) w
  | .context k => some (context w k)
  | .extrapolate x => (extrapolate E w x).map (·.1)

/-- A history of messages, from a new worker with the given registration. -/
def run (E : Env) (k : ℕ) (ops : List (Op V)) : Option (World V) :=
  ops.foldlM (exec E) { kind := k }

end Edyn.Extra
