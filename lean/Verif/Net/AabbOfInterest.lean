import Mathlib.Data.List.Perm.Basic
import Mathlib.Data.List.Nodup
import Mathlib.Data.List.Induction
import Mathlib.Logic.Function.Basic

/-!
# AABBs of interest (C29)

Models `include/edyn/networking/comp/aabb_of_interest.hpp`,
`src/edyn/networking/sys/update_aabbs_of_interest.cpp` and the reporting functions of
`src/edyn/networking/sys/server_side.cpp`.

Simplifications: entities are numbers; the results of the broadphase queries are arguments (they are
exact by C01); the contents of the packets other than the entity lists are dropped; `asset` gives the
`asset_entry` component of an entity, which does not change; the erasures from the client's entity
map are dropped (they do not influence the reports).
-/

namespace Edyn.Net.AabbOfInterest

/-- `aabb_of_interest`, `aabb_of_interest.hpp` lines 17-34, without the box.  A `sparse_set` is the
list of its elements in the order of insertion; it is iterated backwards. -/
structure Aoi where
  entities : List Nat := []
  entered : List Nat := []
  exited : List Nat := []
  assetEntityCount : Nat → Option Nat := fun _ => none

/-- Insertion into a `sparse_set` guarded by `contains`. -/
def pushNew (s : List Nat) (e : Nat) : List Nat := if e ∈ s then s else s ++ [e]

/-- Insertion of the networked ones. -/
def pushNetworked (networked : Nat → Bool) (s : List Nat) (e : Nat) : List Nat :=
  if networked e then pushNew s e else s

/-- Collection of the contained entities in `update_aabbs_of_interest_seq`, lines 39-62: `islands`
are the node and edge lists of the islands reported by `query_islands`, `np` the entities reported
by `query_non_procedural`. -/
def collect (networked : Nat → Bool) (islands : List (List Nat × List Nat)) (np : List Nat) :
    List Nat :=
  let s := islands.foldl (fun s isl =>
    isl.2.foldl (pushNetworked networked) (isl.1.foldl (pushNetworked networked) s)) []
  np.foldl (pushNetworked networked) s

/-- Comparison with the previous contents, `update_aabbs_of_interest.cpp` lines 64-79 and 145-161:
the same code in sequential and asynchronous mode. -/
def result (a : Aoi) (contained : List Nat) : Aoi :=
  { a with
    exited := a.exited ++ a.entities.reverse.filter fun e => decide (e ∉ contained)
    entered := a.entered ++ contained.reverse.filter fun e => decide (e ∉ a.entities)
    entities := contained }

/-- The packets published by the reporting functions. -/
inductive Packet where
  | entityExited (assets : List Nat)
  | destroyEntity (entities : List Nat)
  | entityEntered (assets : List Nat)
  | createEntity (entities : List Nat)
deriving DecidableEq

/-- `--asset_entity_count[asset]` on `unsigned`: inserts a zero if absent, wraps around. -/
def decrement (c : Nat → Option Nat) (k : Nat) : Nat → Option Nat :=
  Function.update c k (some (match c k with
    | some (n + 1) => n
    | _ => 4294967295))

/-- Lines 430-434: insert a zero if absent, then increment. -/
def increment (c : Nat → Option Nat) (k : Nat) : Nat → Option Nat :=
  Function.update c k (some (match c k with
    | some n => n + 1
    | none => 1))

/-- Accumulator of the two loops. -/
structure Acc where
  count : Nat → Option Nat
  assets : List Nat := []
  entities : List Nat := []

/-- Loop body of `process_aabb_of_interest_entities_exited`, lines 365-384. -/
def exitedStep (asset : Nat → Option Nat) (acc : Acc) (e : Nat) : Acc :=
  match asset e with
  | some k => { acc with count := decrement acc.count k, assets := pushNew acc.assets k }
  | none => { acc with entities := acc.entities ++ [e] }

/-- `assets.remove` of those still present, lines 386-392; `at` throws if there is no count. -/
def gone (count : Nat → Option Nat) : List Nat → Option (List Nat)
  | [] => some []
  | k :: ks =>
    match count k, gone count ks with
    | some n, some r => some (if n > 0 then r else k :: r)
    | _, _ => none

/-- A packet if there is something to put into it. -/
def packetIf (f : List Nat → Packet) (l : List Nat) : List Packet := if l = [] then [] else [f l]

/-- `process_aabb_of_interest_entities_exited`, lines 348-413. -/
def processExited (asset : Nat → Option Nat) (a : Aoi) : Option (Aoi × List Packet) :=
  if a.exited = [] then some (a, [])
  else
    let acc := a.exited.foldl (exitedStep asset) { count := a.assetEntityCount }
    match gone acc.count acc.assets with
    | none => none
    | some assets =>
      some ({ a with exited := [], assetEntityCount := acc.count },
        packetIf .entityExited assets ++ packetIf .destroyEntity acc.entities)

/-- Loop body of `process_aabb_of_interest_entities_entered`, lines 426-443. -/
def enteredStep (asset : Nat → Option Nat) (acc : Acc) (e : Nat) : Acc :=
  match asset e with
  | some k => { acc with count := increment acc.count k, assets := pushNew acc.assets k }
  | none => { acc with entities := acc.entities ++ [e] }

/-- `process_aabb_of_interest_entities_entered`, lines 415-490. -/
def processEntered (asset : Nat → Option Nat) (a : Aoi) : Aoi × List Packet :=
  if a.entered = [] then (a, [])
  else
    let acc := a.entered.foldl (enteredStep asset) { count := a.assetEntityCount }
    ({ a with entered := [], assetEntityCount := acc.count },
      packetIf .entityEntered acc.assets ++ packetIf .createEntity acc.entities)

/-- `process_aabbs_of_interest` for one client, lines 547-552. -/
def process (asset : Nat → Option Nat) (a : Aoi) : Option (Aoi × List Packet) :=
  match processExited asset a with
  | none => none
  | some (a, ps) =>
    let r := processEntered asset a
    some (r.1, ps ++ r.2)

/-- `process_packet(destroy_entity)`, lines 177-200: the client destroys an entity it owns. -/
def destroyOwned (a : Aoi) (e : Nat) : Aoi :=
  { a with entities := a.entities.filter fun x => decide (x ≠ e) }

/-! ## Specification: what the client has been told -/

/-- What the client knows of from the reports. -/
structure Told where
  assets : List Nat := []
  entities : List Nat := []

/-- Accounting of one packet. -/
def Told.receive (t : Told) : Packet → Told
  | .entityExited l => { t with assets := t.assets.filter fun x => decide (x ∉ l) }
  | .destroyEntity l => { t with entities := t.entities.filter fun x => decide (x ∉ l) }
  | .entityEntered l => { t with assets := t.assets ++ l }
  | .createEntity l => { t with entities := t.entities ++ l }

/-- The server side of one client together with what the client was told. -/
structure Sys where
  aoi : Aoi := {}
  told : Told := {}

/-- Operations.  `update` is one server update in sequential mode: a query and the processing of
its result; `query` and `process` are the two halves, which asynchronous mode performs
independently; `destroy`: the client destroys an entity and requests the same from the server. -/
inductive Op where
  | update (contained : List Nat)
  | query (contained : List Nat)
  | process
  | destroy (e : Nat)

/-- One operation. -/
def step (asset : Nat → Option Nat) (s : Sys) : Op → Option Sys
  | .update c => (process asset (result s.aoi c)).map fun r => ⟨r.1, r.2.foldl Told.receive s.told⟩
  | .query c => some { s with aoi := result s.aoi c }
  | .process => (process asset s.aoi).map fun r => ⟨r.1, r.2.foldl Told.receive s.told⟩
  | .destroy e => some
      { aoi := destroyOwned s.aoi e
        told := { s.told with entities := s.told.entities.filter fun x => decide (x ≠ e) } }

/-- A history. -/
def run (asset : Nat → Option Nat) : Sys → List Op → Option Sys
  | s, [] => some s
  | s, op :: ops =>
    match step asset s op with
    | none => none
    | some s => run asset s ops

/-- The client knows exactly the assets and the loose entities within its AABB. -/
def Sys.Exact (asset : Nat → Option Nat) (s : Sys) : Prop :=
  (∀ e, e ∈ s.told.entities ↔ e ∈ s.aoi.entities ∧ asset e = none) ∧
  (∀ k, k ∈ s.told.assets ↔ ∃ e ∈ s.aoi.entities, asset e = some k)

/-- A report is due (asynchronous mode only). -/
def Sys.Idle (s : Sys) : Prop := s.aoi.entered = [] ∧ s.aoi.exited = []

/-- Operations of sequential mode; contents have no repetitions (C29 `collect_exact`) and the
client destroys loose entities only. -/
def SeqOp (asset : Nat → Option Nat) : Op → Prop
  | .update c => c.Nodup
  | .query _ => False
  | .process => True
  | .destroy e => asset e = none

/-- **C29 in full**: after every report the client knows exactly what is in its AABB, in all
execution modes. -/
def FullStatement : Prop :=
  ∀ (asset : Nat → Option Nat) (ops : List Op) (s : Sys),
    (∀ op ∈ ops, ∀ c, op = .update c ∨ op = .query c → c.Nodup) →
    run asset {} (ops ++ [.process]) = some s → s.Exact asset

/-! ## Collection -/

theorem mem_pushNew {s : List Nat} {e x : Nat} : x ∈ pushNew s e ↔ x ∈ s ∨ x = e := by
  unfold pushNew
  split
  · rename_i h
    constructor
    · exact Or.inl
    · rintro (hx | rfl)
      · exact hx
      · exact h
  · simp

theorem nodup_pushNew {s : List Nat} (h : s.Nodup) (e : Nat) : (pushNew s e).Nodup := by
  unfold pushNew
  split
  · exact h
  · rename_i hn
    rw [List.nodup_append]
    refine ⟨h, by simp, ?_⟩
    intro a ha b hb hab
    rw [List.mem_singleton.1 hb] at hab
    exact hn (hab ▸ ha)

theorem pushNetworked_foldl (networked : Nat → Bool) (l s : List Nat) (hs : s.Nodup) :
    (l.foldl (pushNetworked networked) s).Nodup ∧
    ∀ x, x ∈ l.foldl (pushNetworked networked) s ↔ x ∈ s ∨ (x ∈ l ∧ networked x = true) := by
  induction l generalizing s with
  | nil => exact ⟨hs, fun x => by simp⟩
  | cons y l ih =>
    have hs' : (pushNetworked networked s y).Nodup := by
      unfold pushNetworked
      split
      · exact nodup_pushNew hs y
      · exact hs
    obtain ⟨i1, i2⟩ := ih _ hs'
    refine ⟨i1, fun x => ?_⟩
    rw [List.foldl_cons, i2]
    unfold pushNetworked
    split
    · rename_i hy
      rw [mem_pushNew, List.mem_cons]
      constructor
      · rintro ((h | rfl) | h)
        · exact Or.inl h
        · exact Or.inr ⟨Or.inl rfl, hy⟩
        · exact Or.inr ⟨Or.inr h.1, h.2⟩
      · rintro (h | ⟨rfl | h, h'⟩)
        · exact Or.inl (Or.inl h)
        · exact Or.inl (Or.inr rfl)
        · exact Or.inr ⟨h, h'⟩
    · rename_i hy
      rw [List.mem_cons]
      constructor
      · rintro (h | h)
        · exact Or.inl h
        · exact Or.inr ⟨Or.inr h.1, h.2⟩
      · rintro (h | ⟨rfl | h, h'⟩)
        · exact Or.inl h
        · exact absurd h' hy
        · exact Or.inr ⟨h, h'⟩

/-- **C29, contents.** The contained entities are exactly the networked nodes and edges of the
intersecting islands and the networked intersecting non-procedural entities, each once. -/
theorem collect_exact (networked : Nat → Bool) (islands : List (List Nat × List Nat))
    (np : List Nat) :
    (collect networked islands np).Nodup ∧
    ∀ x, x ∈ collect networked islands np ↔ networked x = true ∧
      ((∃ isl ∈ islands, x ∈ isl.1 ∨ x ∈ isl.2) ∨ x ∈ np) := by
  have key : ∀ (islands : List (List Nat × List Nat)) (s : List Nat), s.Nodup →
      (islands.foldl (fun s isl =>
        isl.2.foldl (pushNetworked networked) (isl.1.foldl (pushNetworked networked) s)) s).Nodup ∧
      ∀ x, x ∈ islands.foldl (fun s isl =>
        isl.2.foldl (pushNetworked networked) (isl.1.foldl (pushNetworked networked) s)) s ↔
        x ∈ s ∨ (networked x = true ∧ ∃ isl ∈ islands, x ∈ isl.1 ∨ x ∈ isl.2) := by
    intro islands
    induction islands with
    | nil => intro s hs; exact ⟨hs, fun x => by simp⟩
    | cons isl islands ih =>
      intro s hs
      obtain ⟨a1, a2⟩ := pushNetworked_foldl networked isl.1 s hs
      obtain ⟨b1, b2⟩ := pushNetworked_foldl networked isl.2 _ a1
      obtain ⟨c1, c2⟩ := ih _ b1
      refine ⟨c1, fun x => ?_⟩
      rw [List.foldl_cons, c2, b2, a2]
      simp only [List.mem_cons, exists_eq_or_imp]
      generalize (∃ isl, isl ∈ islands ∧ (x ∈ isl.1 ∨ x ∈ isl.2)) = P
      grind
  obtain ⟨a1, a2⟩ := key islands [] List.nodup_nil
  obtain ⟨b1, b2⟩ := pushNetworked_foldl networked np _ a1
  refine ⟨b1, fun x => ?_⟩
  unfold collect
  simp only
  rw [b2, a2]
  simp only [List.not_mem_nil, false_or]
  generalize (∃ isl, isl ∈ islands ∧ (x ∈ isl.1 ∨ x ∈ isl.2)) = P
  grind

/-! ## Folds -/

/-- Entities of an asset in a list. -/
abbrev cnt (asset : Nat → Option Nat) (k : Nat) (l : List Nat) : Nat :=
  l.countP fun e => asset e == some k

theorem exited_fold (asset : Nat → Option Nat) (l : List Nat) (acc : Acc) :
    let r := l.foldl (exitedStep asset) acc
    r.entities = acc.entities ++ l.filter (fun e => asset e == none) ∧
    (∀ k, k ∈ r.assets ↔ k ∈ acc.assets ∨ ∃ e ∈ l, asset e = some k) ∧
    (∀ k n, (acc.count k).getD 0 = n + cnt asset k l → (r.count k).getD 0 = n ∧
      (acc.count k ≠ none → r.count k ≠ none) ∧
      ((∃ e ∈ l, asset e = some k) → r.count k ≠ none)) := by
  induction l generalizing acc with
  | nil => simp [cnt]
  | cons e l ih =>
    obtain ⟨i1, i2, i3⟩ := ih (exitedStep asset acc e)
    simp only [List.foldl_cons]
    refine ⟨?_, ?_, ?_⟩
    · rw [i1]
      unfold exitedStep
      cases h : asset e <;> simp [h, List.filter_cons]
    · intro k
      rw [i2]
      unfold exitedStep
      cases h : asset e with
      | none => simp [h]
      | some q =>
        simp only [mem_pushNew, List.mem_cons, exists_eq_or_imp, h, Option.some.injEq]
        constructor
        · rintro ((h | rfl) | h) <;> tauto
        · rintro (h | rfl | h) <;> tauto
    · intro k n hn
      unfold exitedStep at i3 ⊢
      cases h : asset e with
      | none =>
        have hc : cnt asset k (e :: l) = cnt asset k l := by
          simp [cnt, List.countP_cons, h]
        rw [hc] at hn
        simp only [h] at i3 ⊢
        obtain ⟨j1, j2, j3⟩ := i3 k n hn
        refine ⟨j1, j2, ?_⟩
        rintro ⟨x, hx, hxk⟩
        rcases List.mem_cons.1 hx with rfl | hx
        · rw [h] at hxk; cases hxk
        · exact j3 ⟨x, hx, hxk⟩
      | some q =>
        simp only [h] at i3 ⊢
        by_cases hq : q = k
        · subst hq
          have hc : cnt asset q (e :: l) = cnt asset q l + 1 := by
            simp [cnt, List.countP_cons, h]
          rw [hc] at hn
          have hdec : decrement acc.count q q = some (n + cnt asset q l) := by
            unfold decrement
            rw [Function.update_self]
            cases hq : acc.count q with
            | none => rw [hq] at hn; simp at hn
            | some m =>
              rw [hq] at hn
              simp only [Option.getD_some] at hn
              cases m with
              | zero => omega
              | succ m =>
                simp only [Option.some.injEq]
                omega
          obtain ⟨j1, j2, j3⟩ := i3 q n (by rw [hdec]; rfl)
          have hne : decrement acc.count q q ≠ none := by rw [hdec]; simp
          exact ⟨j1, fun _ => j2 hne, fun _ => j2 hne⟩
        · have hc : cnt asset k (e :: l) = cnt asset k l := by
            simp [cnt, List.countP_cons, h, hq]
          rw [hc] at hn
          have hdec : decrement acc.count q k = acc.count k := by
            unfold decrement
            exact Function.update_of_ne (fun x => hq x.symm) _ _
          obtain ⟨j1, j2, j3⟩ := i3 k n (by rw [hdec]; exact hn)
          rw [hdec] at j2
          refine ⟨j1, j2, ?_⟩
          rintro ⟨x, hx, hxk⟩
          rcases List.mem_cons.1 hx with rfl | hx
          · rw [h] at hxk; exact absurd (Option.some.inj hxk) hq
          · exact j3 ⟨x, hx, hxk⟩

theorem entered_fold (asset : Nat → Option Nat) (l : List Nat) (acc : Acc) :
    let r := l.foldl (enteredStep asset) acc
    r.entities = acc.entities ++ l.filter (fun e => asset e == none) ∧
    (∀ k, k ∈ r.assets ↔ k ∈ acc.assets ∨ ∃ e ∈ l, asset e = some k) ∧
    (∀ k, (r.count k).getD 0 = (acc.count k).getD 0 + cnt asset k l) := by
  induction l generalizing acc with
  | nil => simp [cnt]
  | cons e l ih =>
    obtain ⟨i1, i2, i3⟩ := ih (enteredStep asset acc e)
    simp only [List.foldl_cons]
    refine ⟨?_, ?_, ?_⟩
    · rw [i1]
      unfold enteredStep
      cases h : asset e <;> simp [h, List.filter_cons]
    · intro k
      rw [i2]
      unfold enteredStep
      cases h : asset e with
      | none => simp [h]
      | some q =>
        simp only [mem_pushNew, List.mem_cons, exists_eq_or_imp, h, Option.some.injEq]
        constructor
        · rintro ((h | rfl) | h) <;> tauto
        · rintro (h | rfl | h) <;> tauto
    · intro k
      rw [i3]
      unfold enteredStep
      cases h : asset e with
      | none => simp [cnt, List.countP_cons, h]
      | some q =>
        by_cases hq : q = k
        · subst hq
          simp only [cnt, List.countP_cons, h, increment, Function.update_self, Option.getD_some,
            beq_self_eq_true, if_true]
          cases acc.count q <;> simp <;> omega
        · have : increment acc.count q k = acc.count k := by
            unfold increment
            exact Function.update_of_ne (fun x => hq x.symm) _ _
          simp [cnt, List.countP_cons, h, hq, this]

theorem gone_spec (count : Nat → Option Nat) (l : List Nat) (h : ∀ k ∈ l, count k ≠ none) :
    ∃ r, gone count l = some r ∧ ∀ k, k ∈ r ↔ k ∈ l ∧ count k = some 0 := by
  induction l with
  | nil => exact ⟨[], rfl, by simp⟩
  | cons q l ih =>
    obtain ⟨r, h1, h2⟩ := ih fun k hk => h k (List.mem_cons_of_mem _ hk)
    cases hq : count q with
    | none => exact absurd hq (h q (by simp))
    | some n =>
      unfold gone
      simp only [hq, h1]
      refine ⟨_, rfl, fun k => ?_⟩
      split
      · rename_i hn
        rw [h2, List.mem_cons]
        constructor
        · exact fun h => ⟨Or.inr h.1, h.2⟩
        · rintro ⟨rfl | h, h0⟩
          · rw [hq] at h0; cases h0; omega
          · exact ⟨h, h0⟩
      · rename_i hn
        have : n = 0 := by omega
        subst this
        rw [List.mem_cons, List.mem_cons, h2]
        constructor
        · rintro (rfl | h)
          · exact ⟨Or.inl rfl, hq⟩
          · exact ⟨Or.inr h.1, h.2⟩
        · rintro ⟨rfl | h, h0⟩
          · exact Or.inl rfl
          · exact Or.inr ⟨h, h0⟩

/-! ## Invariant -/

structure Inv (asset : Nat → Option Nat) (s : Sys) : Prop where
  idle : s.Idle
  exact : s.Exact asset
  nodup : s.aoi.entities.Nodup
  count : ∀ k, (s.aoi.assetEntityCount k).getD 0 = cnt asset k s.aoi.entities

theorem packetIf_entityExited (t : Told) (l : List Nat) :
    (packetIf .entityExited l).foldl Told.receive t =
      { t with assets := t.assets.filter fun x => decide (x ∉ l) } := by
  unfold packetIf
  split
  · rename_i h; subst h; simp
  · rfl

theorem packetIf_destroyEntity (t : Told) (l : List Nat) :
    (packetIf .destroyEntity l).foldl Told.receive t =
      { t with entities := t.entities.filter fun x => decide (x ∉ l) } := by
  unfold packetIf
  split
  · rename_i h; subst h; simp
  · rfl

theorem packetIf_entityEntered (t : Told) (l : List Nat) :
    (packetIf .entityEntered l).foldl Told.receive t = { t with assets := t.assets ++ l } := by
  unfold packetIf
  split
  · rename_i h; subst h; simp
  · rfl

theorem packetIf_createEntity (t : Told) (l : List Nat) :
    (packetIf .createEntity l).foldl Told.receive t = { t with entities := t.entities ++ l } := by
  unfold packetIf
  split
  · rename_i h; subst h; simp
  · rfl

/-- Effect of reporting the exits, given enough counts. -/
theorem processExited_spec {asset : Nat → Option Nat} {a : Aoi} {rest : Nat → Nat}
    (hc : ∀ k, (a.assetEntityCount k).getD 0 = rest k + cnt asset k a.exited) (t : Told) :
    ∃ a' ps, processExited asset a = some (a', ps) ∧ a'.entities = a.entities ∧
      a'.entered = a.entered ∧ a'.exited = [] ∧
      (∀ k, (a'.assetEntityCount k).getD 0 = rest k) ∧
      (∀ e, e ∈ (ps.foldl Told.receive t).entities ↔
        e ∈ t.entities ∧ ¬ (e ∈ a.exited ∧ asset e = none)) ∧
      (∀ k, k ∈ (ps.foldl Told.receive t).assets ↔
        k ∈ t.assets ∧ ¬ ((∃ e ∈ a.exited, asset e = some k) ∧ rest k = 0)) := by
  unfold processExited
  by_cases he : a.exited = []
  · rw [if_pos he]
    refine ⟨a, [], rfl, rfl, rfl, he, ?_, by simp [he], by simp [he]⟩
    intro k
    have := hc k
    rw [he] at this
    simpa [cnt] using this
  · rw [if_neg he]
    obtain ⟨f1, f2, f3⟩ := exited_fold asset a.exited { count := a.assetEntityCount }
    set acc := a.exited.foldl (exitedStep asset) { count := a.assetEntityCount } with hacc
    obtain ⟨r, g1, g2⟩ := gone_spec acc.count acc.assets (by
      intro k hk
      have hk' := (f2 k).1 hk
      simp only [List.not_mem_nil, false_or] at hk'
      exact (f3 k (rest k) (hc k)).2.2 hk')
    simp only [g1]
    refine ⟨_, _, rfl, rfl, rfl, rfl, ?_, ?_, ?_⟩
    · exact fun k => (f3 k (rest k) (hc k)).1
    · intro e
      rw [List.foldl_append, packetIf_entityExited, packetIf_destroyEntity]
      simp only [List.mem_filter, decide_eq_true_eq, f1, List.nil_append, beq_iff_eq]
    · intro k
      rw [List.foldl_append, packetIf_entityExited, packetIf_destroyEntity]
      simp only [List.mem_filter, decide_eq_true_eq, g2, f2, List.not_mem_nil, false_or]
      obtain ⟨j1, j2, j3⟩ := f3 k (rest k) (hc k)
      constructor
      · rintro ⟨h1, h2⟩
        refine ⟨h1, fun ⟨h3, h4⟩ => h2 ⟨h3, ?_⟩⟩
        have hne := j3 h3
        cases hck : acc.count k with
        | none => exact absurd hck hne
        | some n =>
          rw [hck] at j1
          simp only [Option.getD_some] at j1
          rw [j1, h4]
      · rintro ⟨h1, h2⟩
        refine ⟨h1, fun ⟨h3, h4⟩ => h2 ⟨h3, ?_⟩⟩
        rw [h4] at j1
        simpa using j1.symm

/-- Effect of reporting the entries. -/
theorem processEntered_spec (asset : Nat → Option Nat) (a : Aoi) (t : Told) :
    let r := processEntered asset a
    r.1.entities = a.entities ∧ r.1.entered = [] ∧ r.1.exited = a.exited ∧
      (∀ k, (r.1.assetEntityCount k).getD 0 =
        (a.assetEntityCount k).getD 0 + cnt asset k a.entered) ∧
      (∀ e, e ∈ (r.2.foldl Told.receive t).entities ↔
        e ∈ t.entities ∨ (e ∈ a.entered ∧ asset e = none)) ∧
      (∀ k, k ∈ (r.2.foldl Told.receive t).assets ↔
        k ∈ t.assets ∨ ∃ e ∈ a.entered, asset e = some k) := by
  unfold processEntered
  by_cases he : a.entered = []
  · simp [he, cnt]
  · simp only [he, if_false]
    obtain ⟨f1, f2, f3⟩ := entered_fold asset a.entered { count := a.assetEntityCount }
    refine ⟨trivial, trivial, trivial, f3, ?_, ?_⟩
    · intro e
      rw [List.foldl_append, packetIf_entityEntered, packetIf_createEntity]
      simp only [List.mem_append, f1, List.nil_append, List.mem_filter, beq_iff_eq]
    · intro k
      rw [List.foldl_append, packetIf_entityEntered, packetIf_createEntity]
      simp only [List.mem_append, f2, List.not_mem_nil, false_or]

theorem process_inv {asset : Nat → Option Nat} {s : Sys} (h : Inv asset s) {c : List Nat}
    (hc : c.Nodup) :
    ∃ a' ps, process asset (result s.aoi c) = some (a', ps) ∧
      a'.entities = c ∧ Inv asset ⟨a', ps.foldl Told.receive s.told⟩ := by
  obtain ⟨hidle, hexact, hnd, hcount⟩ := h
  set old := s.aoi.entities with hold
  have hex : (result s.aoi c).exited = old.reverse.filter fun e => decide (e ∉ c) := by
    simp [result, hidle.2, hold]
  have hen : (result s.aoi c).entered = c.reverse.filter fun e => decide (e ∉ old) := by
    simp [result, hidle.1, hold]
  have hsplit : ∀ k, cnt asset k old =
      cnt asset k (old.filter fun e => decide (e ∈ c)) + cnt asset k (result s.aoi c).exited := by
    intro k
    have hp : (old.filter (fun e => decide (e ∈ c)) ++ (result s.aoi c).exited).Perm old := by
      rw [hex]
      refine List.Perm.trans (List.Perm.append_left _
        ((List.reverse_perm old).filter _)) ?_
      have := List.filter_append_perm (fun e => decide (e ∈ c)) old
      simpa using this
    exact (hp.countP_eq _).symm.trans List.countP_append
  have hsplit2 : ∀ k, cnt asset k c =
      cnt asset k (old.filter fun e => decide (e ∈ c)) + cnt asset k (result s.aoi c).entered := by
    intro k
    have hp1 : (c.filter fun e => decide (e ∈ old)).Perm (old.filter fun e => decide (e ∈ c)) := by
      rw [List.perm_ext_iff_of_nodup (hc.filter _) (hnd.filter _)]
      intro x
      simp only [List.mem_filter, decide_eq_true_eq]
      exact And.comm
    have hp : (old.filter (fun e => decide (e ∈ c)) ++ (result s.aoi c).entered).Perm c := by
      rw [hen]
      refine List.Perm.trans (List.Perm.append hp1.symm
        ((List.reverse_perm c).filter _)) ?_
      have := List.filter_append_perm (fun e => decide (e ∈ old)) c
      simpa using this
    exact (hp.countP_eq _).symm.trans List.countP_append
  obtain ⟨a1, ps1, e1, e2, e3, e4, e5, e6, e7⟩ := processExited_spec (asset := asset)
    (a := result s.aoi c) (rest := fun k => cnt asset k (old.filter fun e => decide (e ∈ c)))
    (fun k => (hcount k).trans (hsplit k)) s.told
  obtain ⟨n1, n2, n3, n4, n5, n6⟩ := processEntered_spec asset a1 (ps1.foldl Told.receive s.told)
  have hps : process asset (result s.aoi c) = some ((processEntered asset a1).1,
      ps1 ++ (processEntered asset a1).2) := by
    unfold process
    rw [e1]
  have hent : (processEntered asset a1).1.entities = c := n1.trans e2
  refine ⟨_, _, hps, hent, ⟨n2, n3.trans e4⟩, ⟨?_, ?_⟩, ?_, ?_⟩
  · intro e
    show e ∈ (List.foldl Told.receive s.told (ps1 ++ _)).entities ↔
      e ∈ (processEntered asset a1).1.entities ∧ _
    rw [List.foldl_append, n5, e6, hent, e3, hex, hen, hexact.1]
    simp only [List.mem_filter, List.mem_reverse, decide_eq_true_eq]
    by_cases h1 : e ∈ c <;> by_cases h2 : e ∈ s.aoi.entities <;> by_cases h3 : asset e = none <;>
      simp [h1, h2, h3, hold]
  · intro k
    show k ∈ (List.foldl Told.receive s.told (ps1 ++ _)).assets ↔
      ∃ e ∈ (processEntered asset a1).1.entities, _
    rw [List.foldl_append, n6, e7, hent, e3, hex, hen, hexact.2]
    simp only [List.mem_filter, List.mem_reverse, decide_eq_true_eq]
    have hrest : cnt asset k (old.filter fun e => decide (e ∈ c)) = 0 ↔
        ¬ ∃ e, e ∈ old ∧ e ∈ c ∧ asset e = some k := by
      unfold cnt
      rw [List.countP_eq_zero]
      simp only [List.mem_filter, decide_eq_true_eq, beq_iff_eq]
      constructor
      · rintro h ⟨e, he1, he2, he3⟩; exact h e ⟨he1, he2⟩ he3
      · rintro h e ⟨he1, he2⟩ he3; exact h ⟨e, he1, he2, he3⟩
    rw [hrest]
    constructor
    · rintro (⟨⟨e, he, hk⟩, hn⟩ | ⟨e, ⟨he, _⟩, hk⟩)
      · by_cases hec : e ∈ c
        · exact ⟨e, hec, hk⟩
        · by_contra hno
          apply hn
          refine ⟨⟨e, ⟨he, hec⟩, hk⟩, ?_⟩
          rintro ⟨e', _, he', hk'⟩
          exact hno ⟨e', he', hk'⟩
      · exact ⟨e, he, hk⟩
    · rintro ⟨e, he, hk⟩
      by_cases heo : e ∈ old
      · left
        refine ⟨⟨e, heo, hk⟩, ?_⟩
        rintro ⟨_, h⟩
        exact h ⟨e, heo, he, hk⟩
      · exact Or.inr ⟨e, ⟨he, heo⟩, hk⟩
  · show (processEntered asset a1).1.entities.Nodup
    rw [hent]; exact hc
  · intro k
    show ((processEntered asset a1).1.assetEntityCount k).getD 0 =
      cnt asset k (processEntered asset a1).1.entities
    rw [n4, e5, hent, hsplit2, e3]

theorem step_inv {asset : Nat → Option Nat} {s : Sys} (h : Inv asset s) {op : Op}
    (hop : SeqOp asset op) : ∃ s', step asset s op = some s' ∧ Inv asset s' := by
  cases op with
  | query c => exact absurd hop id
  | update c =>
    obtain ⟨a', ps, h1, _, h2⟩ := process_inv h hop
    exact ⟨_, by simp [step, h1], h2⟩
  | process =>
    refine ⟨s, ?_, h⟩
    have : process asset s.aoi = some (s.aoi, []) := by
      unfold process processExited processEntered
      simp [h.idle.1, h.idle.2]
    simp [step, this]
  | destroy e =>
    refine ⟨_, rfl, h.idle, ⟨?_, ?_⟩, h.nodup.filter _, ?_⟩
    · intro x
      simp only [destroyOwned, List.mem_filter, h.exact.1]
      tauto
    · intro k
      show k ∈ s.told.assets ↔ _
      rw [h.exact.2]
      simp only [destroyOwned, List.mem_filter, decide_eq_true_eq]
      constructor
      · rintro ⟨x, hx, hk⟩
        refine ⟨x, ⟨hx, ?_⟩, hk⟩
        rintro rfl
        have : asset x = none := hop
        rw [this] at hk
        cases hk
      · rintro ⟨x, ⟨hx, _⟩, hk⟩
        exact ⟨x, hx, hk⟩
    · intro k
      show (s.aoi.assetEntityCount k).getD 0 = _
      rw [h.count]
      unfold cnt destroyOwned
      simp only
      rw [List.countP_filter]
      apply List.countP_congr
      intro x _
      simp only [Bool.and_eq_true, beq_iff_eq, decide_eq_true_eq]
      constructor
      · intro hk
        refine ⟨hk, ?_⟩
        rintro rfl
        have : asset x = none := hop
        rw [this] at hk
        cases hk
      · exact fun h => h.1

theorem run_inv {asset : Nat → Option Nat} {ops : List Op} (hops : ∀ op ∈ ops, SeqOp asset op)
    {s : Sys} (h : Inv asset s) : ∃ s', run asset s ops = some s' ∧ Inv asset s' := by
  induction ops generalizing s with
  | nil => exact ⟨s, rfl, h⟩
  | cons op ops ih =>
    obtain ⟨s1, h1, h2⟩ := step_inv h (hops op (by simp))
    obtain ⟨s2, h3, h4⟩ := ih (fun op h => hops op (List.mem_cons_of_mem _ h)) h2
    exact ⟨s2, by simp [run, h1, h3], h4⟩

theorem init_inv (asset : Nat → Option Nat) : Inv asset {} := by
  refine ⟨⟨rfl, rfl⟩, ⟨by simp, by simp⟩, by simp, by simp [cnt]⟩

/-! ## C29 -/

/-- **C29, sequential mode.** After every history of updates (and of destructions of loose entities
by the client) nothing throws and what the client was told equals the contents of its AABB: the
loose entities in it, and the assets of which at least one entity is in it.  Missing for the full
property: asynchronous mode, where several query results may be compared before they are reported
(`async_report_wrong`), and the destruction of entities of an asset (`destroyed_entry_keeps_asset`).
-/
theorem aoi_reports_exact_partial (asset : Nat → Option Nat) (ops : List Op)
    (hops : ∀ op ∈ ops, SeqOp asset op) :
    ∃ s, run asset {} ops = some s ∧ s.Exact asset := by
  obtain ⟨s, h1, h2⟩ := run_inv hops (init_inv asset)
  exact ⟨s, h1, h2.exact⟩

/-- **C29, one update.** The update that follows such a history reports exactly the entities that
left and those that entered: before reporting, the two lists are the differences of the previous and
the new contents, without repetitions. -/
theorem aoi_difference_exact (asset : Nat → Option Nat) (ops : List Op)
    (hops : ∀ op ∈ ops, SeqOp asset op) (c : List Nat) (hc : c.Nodup) :
    ∃ s, run asset {} ops = some s ∧
      let a := result s.aoi c
      a.entities = c ∧ a.entered.Nodup ∧ a.exited.Nodup ∧
      (∀ e, e ∈ a.entered ↔ e ∈ c ∧ e ∉ s.aoi.entities) ∧
      (∀ e, e ∈ a.exited ↔ e ∈ s.aoi.entities ∧ e ∉ c) := by
  obtain ⟨s, h1, h2⟩ := run_inv hops (init_inv asset)
  refine ⟨s, h1, rfl, ?_, ?_, ?_, ?_⟩
  · simp only [result, h2.idle.1, List.nil_append]
    exact (List.nodup_reverse.2 hc).filter _
  · simp only [result, h2.idle.2, List.nil_append]
    exact (List.nodup_reverse.2 h2.nodup).filter _
  · intro e
    simp [result, h2.idle.1]
  · intro e
    simp [result, h2.idle.2]

/-! ### Non-vacuity and findings -/

/-- Entities 1, 2 belong to asset 100, entity 3 is loose. -/
private def exAsset : Nat → Option Nat := fun e => if e = 1 ∨ e = 2 then some 100 else none

example :
    (∀ op ∈ [Op.update [1, 3], .update [1, 2], .destroy 3, .update []], SeqOp exAsset op) ∧
    (run exAsset {} [.update [1, 3], .update [1, 2]]).map (fun s => s.told.assets) =
      some [100, 100] ∧
    (run exAsset {} [.update [1, 3], .update [2]]).map (fun s => s.told.entities) = some [] ∧
    (run exAsset {} [.update [1, 3], .update [2], .update []]).map (fun s => s.told.assets) =
      some [] := by
  refine ⟨?_, by decide +kernel, by decide +kernel, by decide +kernel⟩
  intro op h
  simp only [List.mem_cons, List.not_mem_nil, or_false] at h
  rcases h with rfl | rfl | rfl | rfl <;> simp [SeqOp, exAsset]

/-- **Finding.** In asynchronous mode two query results may arrive between two server updates.
An entity that enters with the first and leaves with the second is listed in both lists; the exit is
reported before the entry, so the client is told to create an entity that is not in its AABB. -/
theorem async_report_wrong : ¬ FullStatement := by
  intro h
  have := h (fun _ => none) [.query [7], .query []]
    ⟨⟨[], [], [], fun _ => none⟩, ⟨[], [7]⟩⟩ (by
      intro op hop c hc
      simp only [List.mem_cons, List.not_mem_nil, or_false] at hop
      rcases hop with rfl | rfl <;> simp at hc <;> subst hc <;> simp) rfl
  have h7 := (this.1 7).1 (by simp)
  simp at h7

/-- **Finding.** When the client destroys an entity that belongs to an asset, the count of the
asset's entities in the AABB is not decremented.  If the rest of the asset leaves afterwards, the
client is never told. -/
theorem destroyed_entry_keeps_asset :
    (run exAsset {} [.update [1, 2], .destroy 1, .update []]).map
      (fun s => (s.aoi.entities, s.told.assets)) = some ([], [100]) := by
  decide +kernel

end Edyn.Net.AabbOfInterest
