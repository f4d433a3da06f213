import Mathlib.Algebra.Order.Group.Defs
import Mathlib.Algebra.Order.Group.Int
import Mathlib.Data.List.TakeWhile
import Mathlib.Data.List.Sort
import Mathlib.Logic.Function.Basic
import Mathlib.Algebra.BigOperators.Group.List.Basic
import Mathlib.Algebra.Order.BigOperators.Group.List

/-!
# Input histories used for extrapolation (C23)

Models `include/edyn/networking/util/input_state_history.hpp` for one input component type, and
`apply_history` of `src/edyn/networking/extrapolation/extrapolation_worker.cpp`.

Simplifications: `double` is an arbitrary linearly ordered additive group; one component type
(the others are treated the same way, independently); `merge_component` replaces the value (its
default); the mutex is not modelled, every operation is atomic under it; `map_child_entity` is the
identity (input components without entities).
-/

set_option linter.unusedSectionVars false

namespace Edyn.Net.InputHistory

variable {T : Type*} [AddCommGroup T] [LinearOrder T] [IsOrderedAddMonoid T] {V : Type*}

/-- `component_history::entry`, lines 20-23. -/
structure Input (T V : Type*) where
  comp : V
  timestamp : T
deriving DecidableEq

/-- The history of one input type: the storage visited by `each()`, an entity occurs once. -/
abbrev Store (T V : Type*) := List (Nat × List (Input T V))

/-- `add`, lines 89-104, for one entity that has the component. -/
def add (entity : Nat) (comp : V) (timestamp : T) : Store T V → Store T V
  | [] => [(entity, [⟨comp, timestamp⟩])]
  | (e, l) :: rest =>
    if e = entity then (e, l ++ [⟨comp, timestamp⟩]) :: rest
    else (e, l) :: add entity comp timestamp rest

/-- `erase_until`, lines 167-181. -/
def eraseUntil (timestamp : T) (s : Store T V) : Store T V :=
  s.map fun el => (el.1, el.2.dropWhile fun x => !decide (x.timestamp > timestamp))

/-- The extrapolation registry: value of the input component of each local entity, and a log of
all assignments (local entity, input) made through `patch`/`emplace`. -/
structure Reg (T V : Type*) where
  val : Nat → Option V
  log : List (Nat × Input T V) := []

/-- `import_component`, lines 234-256.  `emap` maps a remote entity to its local one if the map
contains it, `valid` is `registry.valid`. -/
def importComponent (emap : Nat → Option Nat) (valid : Nat → Bool) (r : Reg T V) (e : Nat)
    (x : Input T V) : Reg T V :=
  match emap e with
  | none => r
  | some l =>
    if valid l then { val := Function.update r.val l (some x.comp), log := r.log ++ [(l, x)] }
    else r

/-- The inner loop of `import_each_input`, lines 265-273. -/
def importEntries (emap : Nat → Option Nat) (valid : Nat → Bool) (start stop : T) (e : Nat) :
    Reg T V → List (Input T V) → Reg T V
  | r, [] => r
  | r, x :: xs =>
    if x.timestamp > stop then r
    else
      let r := if x.timestamp ≥ start then importComponent emap valid r e x else r
      importEntries emap valid start stop e r xs

/-- `import_each_input`, lines 258-275. -/
def importEach (emap : Nat → Option Nat) (valid : Nat → Bool) (start len : T) (s : Store T V)
    (r : Reg T V) : Reg T V :=
  s.foldl (fun r el => importEntries emap valid start (start + len) el.1 r el.2) r

/-- `first_before`, lines 306-310: search from the end. -/
def firstBefore (l : List (Input T V)) (t : T) : Option (Input T V) :=
  l.reverse.find? fun x => decide (x.timestamp ≤ t)

/-- One entity of `import_latest_inputs`, lines 316-323. -/
def importLatestOne (emap : Nat → Option Nat) (valid : Nat → Bool) (time : T) (r : Reg T V)
    (el : Nat × List (Input T V)) : Reg T V :=
  match firstBefore el.2 time with
  | none => r
  | some x => importComponent emap valid r el.1 x

/-- `import_latest_inputs`, lines 312-324. -/
def importLatest (emap : Nat → Option Nat) (valid : Nat → Bool) (time : T) (s : Store T V)
    (r : Reg T V) : Reg T V :=
  s.foldl (importLatestOne emap valid time) r

/-- Consecutive replay steps: `apply_history` (`extrapolation_worker.cpp` 282-289) called before
each step, the time advancing by the step length in `finish_step` (512-523).  The lengths may
differ from step to step. -/
def replay (emap : Nat → Option Nat) (valid : Nat → Bool) (s : Store T V) :
    T → List T → Reg T V → Reg T V
  | _, [], r => r
  | t, d :: ds, r => replay emap valid s (t + d) ds (importEach emap valid t d s r)

/-! ## Specification -/

/-- `x` is the last recorded input that is not after `t`. -/
def IsLatest (l : List (Input T V)) (t : T) (x : Input T V) : Prop :=
  ∃ pre post, l = pre ++ x :: post ∧ x.timestamp ≤ t ∧ ∀ y ∈ post, t < y.timestamp

/-- Time ordered. -/
abbrev TSorted (l : List (Input T V)) : Prop := l.Pairwise fun a b => a.timestamp ≤ b.timestamp

/-- The assignments made to one local entity. -/
def assigned (r : Reg T V) (l : Nat) : List (Input T V) :=
  (r.log.filter fun p => p.1 == l).map (·.2)

/-- The history of one entity within a store; the map is injective on the entities it maps and the
mapped entity is valid. -/
structure Tracks (emap : Nat → Option Nat) (valid : Nat → Bool) (s : Store T V) (e loc : Nat)
    (l : List (Input T V)) : Prop where
  nodup : (s.map (·.1)).Nodup
  mem : (e, l) ∈ s
  mapped : emap e = some loc
  valid : valid loc = true
  inj : ∀ e' , emap e' = some loc → e' = e

/-! ## Lemmas -/

theorem importComponent_other {emap : Nat → Option Nat} {valid : Nat → Bool} {r : Reg T V}
    {e loc : Nat} {x : Input T V} (h : emap e ≠ some loc) :
    (importComponent emap valid r e x).val loc = r.val loc ∧
    assigned (importComponent emap valid r e x) loc = assigned r loc := by
  unfold importComponent
  split
  · exact ⟨rfl, rfl⟩
  · rename_i l hl
    split
    · have hne : loc ≠ l := by rintro rfl; exact h hl
      refine ⟨Function.update_of_ne hne _ _, ?_⟩
      have : ¬ l = loc := fun h => hne h.symm
      simp [assigned, this]
    · exact ⟨rfl, rfl⟩

theorem importComponent_same {emap : Nat → Option Nat} {valid : Nat → Bool} {r : Reg T V}
    {e loc : Nat} {x : Input T V} (h : emap e = some loc) (hv : valid loc = true) :
    (importComponent emap valid r e x).val loc = some x.comp ∧
    assigned (importComponent emap valid r e x) loc = assigned r loc ++ [x] := by
  unfold importComponent
  rw [h]
  simp [hv, assigned]

theorem importEntries_other {emap : Nat → Option Nat} {valid : Nat → Bool} {start stop : T}
    {e loc : Nat} (h : emap e ≠ some loc) (l : List (Input T V)) (r : Reg T V) :
    (importEntries emap valid start stop e r l).val loc = r.val loc ∧
    assigned (importEntries emap valid start stop e r l) loc = assigned r loc := by
  induction l generalizing r with
  | nil => exact ⟨rfl, rfl⟩
  | cons x xs ih =>
    unfold importEntries
    split
    · exact ⟨rfl, rfl⟩
    · obtain ⟨i1, i2⟩ := ih (if x.timestamp ≥ start then importComponent emap valid r e x else r)
      rw [i1, i2]
      split
      · exact importComponent_other h
      · exact ⟨rfl, rfl⟩

/-- The value after a sequence of assignments. -/
def lastValue (old : Option V) (l : List (Input T V)) : Option V :=
  match l.getLast? with
  | none => old
  | some x => some x.comp

theorem lastValue_cons (old : Option V) (x : Input T V) (l : List (Input T V)) :
    lastValue old (x :: l) = lastValue (some x.comp) l := by
  unfold lastValue
  rw [List.getLast?_cons]
  cases l.getLast? <;> rfl

theorem importEntries_same {emap : Nat → Option Nat} {valid : Nat → Bool} {start stop : T}
    {e loc : Nat} (h : emap e = some loc) (hv : valid loc = true) {l : List (Input T V)}
    (hs : TSorted l) (r : Reg T V) :
    assigned (importEntries emap valid start stop e r l) loc = assigned r loc ++
      l.filter (fun x => decide (start ≤ x.timestamp ∧ x.timestamp ≤ stop)) ∧
    (importEntries emap valid start stop e r l).val loc = lastValue (r.val loc)
      (l.filter fun x => decide (start ≤ x.timestamp ∧ x.timestamp ≤ stop)) := by
  induction l generalizing r with
  | nil => simp [importEntries, lastValue]
  | cons x xs ih =>
    unfold TSorted at hs
    rw [List.pairwise_cons] at hs
    unfold importEntries
    split
    · rename_i hx
      have hnil : (x :: xs).filter
          (fun x => decide (start ≤ x.timestamp ∧ x.timestamp ≤ stop)) = [] := by
        rw [List.filter_eq_nil_iff]
        intro y hy
        have : stop < y.timestamp := by
          rcases List.mem_cons.1 hy with rfl | hy
          · exact hx
          · exact lt_of_lt_of_le hx (hs.1 y hy)
        simp [not_le.2 this]
      rw [hnil]
      simp [lastValue]
    · rename_i hx
      obtain ⟨i1, i2⟩ := ih hs.2
        (if x.timestamp ≥ start then importComponent emap valid r e x else r)
      rw [i1, i2]
      by_cases hst : start ≤ x.timestamp
      · have hst' : x.timestamp ≥ start := hst
        have hf : (x :: xs).filter
            (fun x => decide (start ≤ x.timestamp ∧ x.timestamp ≤ stop)) =
            x :: xs.filter (fun x => decide (start ≤ x.timestamp ∧ x.timestamp ≤ stop)) := by
          rw [List.filter_cons_of_pos]
          simp [hst, not_lt.1 hx]
        obtain ⟨c1, c2⟩ := importComponent_same (r := r) (x := x) h hv
        rw [if_pos hst', hf, c1, c2, lastValue_cons]
        exact ⟨by simp, rfl⟩
      · have hst' : ¬ x.timestamp ≥ start := hst
        have hf : (x :: xs).filter
            (fun x => decide (start ≤ x.timestamp ∧ x.timestamp ≤ stop)) =
            xs.filter (fun x => decide (start ≤ x.timestamp ∧ x.timestamp ≤ stop)) := by
          rw [List.filter_cons_of_neg]
          simp [hst]
        rw [if_neg hst', hf]
        exact ⟨rfl, rfl⟩

theorem importEach_spec {emap : Nat → Option Nat} {valid : Nat → Bool} {s : Store T V}
    {e loc : Nat} {l : List (Input T V)} (ht : Tracks emap valid s e loc l) (hs : TSorted l)
    (start len : T) (r : Reg T V) :
    assigned (importEach emap valid start len s r) loc = assigned r loc ++
      l.filter (fun x => decide (start ≤ x.timestamp ∧ x.timestamp ≤ start + len)) ∧
    (importEach emap valid start len s r).val loc = lastValue (r.val loc)
      (l.filter fun x => decide (start ≤ x.timestamp ∧ x.timestamp ≤ start + len)) := by
  obtain ⟨pre, post, hsplit⟩ := List.append_of_mem ht.mem
  have hother : ∀ (q : Store T V), (∀ p ∈ q, p.1 ≠ e) → ∀ r : Reg T V,
      (q.foldl (fun r el => importEntries emap valid start (start + len) el.1 r el.2) r).val loc =
        r.val loc ∧
      assigned (q.foldl (fun r el =>
        importEntries emap valid start (start + len) el.1 r el.2) r) loc = assigned r loc := by
    intro q
    induction q with
    | nil => intro _ r; exact ⟨rfl, rfl⟩
    | cons p q ih =>
      intro hq r
      have hp : emap p.1 ≠ some loc := fun h => hq p (by simp) (ht.inj _ h)
      obtain ⟨i1, i2⟩ := ih (fun p hp => hq p (List.mem_cons_of_mem _ hp))
        (importEntries emap valid start (start + len) p.1 r p.2)
      obtain ⟨o1, o2⟩ := importEntries_other (valid := valid) (start := start)
        (stop := start + len) hp p.2 r
      exact ⟨i1.trans o1, i2.trans o2⟩
  have hnd := ht.nodup
  rw [hsplit, List.map_append, List.map_cons, List.nodup_append, List.nodup_cons] at hnd
  have hpre : ∀ p ∈ pre, p.1 ≠ e := fun p hp =>
    hnd.2.2 p.1 (List.mem_map_of_mem hp) e (by simp)
  have hpost : ∀ p ∈ post, p.1 ≠ e := by
    intro p hp h
    have := List.mem_map_of_mem (f := Prod.fst) hp
    rw [h] at this
    exact hnd.2.1.1 this
  unfold importEach
  rw [hsplit, List.foldl_append, List.foldl_cons]
  obtain ⟨a1, a2⟩ := hother pre hpre r
  set r1 := pre.foldl (fun r el => importEntries emap valid start (start + len) el.1 r el.2) r
  obtain ⟨b1, b2⟩ := importEntries_same (start := start) (stop := start + len) ht.mapped ht.valid
    hs r1
  obtain ⟨c1, c2⟩ := hother post hpost
    (importEntries emap valid start (start + len) e r1 l)
  rw [c1, c2, b1, b2, a1, a2]
  exact ⟨rfl, rfl⟩

theorem firstBefore_spec (l : List (Input T V)) (t : T) :
    (∀ x, firstBefore l t = some x → IsLatest l t x) ∧
    (firstBefore l t = none → ∀ x ∈ l, t < x.timestamp) := by
  unfold firstBefore
  constructor
  · intro x hx
    rw [List.find?_eq_some_iff_append] at hx
    obtain ⟨hp, as, bs, heq, hnot⟩ := hx
    refine ⟨bs.reverse, as.reverse, ?_, by simpa using hp, ?_⟩
    · rw [← List.reverse_reverse l, heq]
      simp
    · intro y hy
      have := hnot y (List.mem_reverse.1 hy)
      simpa using this
  · intro h x hx
    rw [List.find?_eq_none] at h
    have := h x (List.mem_reverse.2 hx)
    simpa using this

theorem importLatest_spec {emap : Nat → Option Nat} {valid : Nat → Bool} {s : Store T V}
    {e loc : Nat} {l : List (Input T V)} (ht : Tracks emap valid s e loc l)
    (time : T) (r : Reg T V) :
    (importLatest emap valid time s r).val loc =
      match firstBefore l time with
      | none => r.val loc
      | some x => some x.comp := by
  obtain ⟨pre, post, hsplit⟩ := List.append_of_mem ht.mem
  have hother : ∀ (q : Store T V), (∀ p ∈ q, p.1 ≠ e) → ∀ r : Reg T V,
      (q.foldl (importLatestOne emap valid time) r).val loc = r.val loc := by
    intro q
    induction q with
    | nil => intro _ r; rfl
    | cons p q ih =>
      intro hq r
      have hp : emap p.1 ≠ some loc := fun h => hq p (by simp) (ht.inj _ h)
      refine (ih (fun p hp => hq p (List.mem_cons_of_mem _ hp)) _).trans ?_
      unfold importLatestOne
      split
      · rfl
      · exact (importComponent_other hp).1
  have hnd := ht.nodup
  rw [hsplit, List.map_append, List.map_cons, List.nodup_append, List.nodup_cons] at hnd
  have hpre : ∀ p ∈ pre, p.1 ≠ e := fun p hp =>
    hnd.2.2 p.1 (List.mem_map_of_mem hp) e (by simp)
  have hpost : ∀ p ∈ post, p.1 ≠ e := by
    intro p hp h
    have := List.mem_map_of_mem (f := Prod.fst) hp
    rw [h] at this
    exact hnd.2.1.1 this
  unfold importLatest
  rw [hsplit, List.foldl_append, List.foldl_cons, hother post hpost]
  unfold importLatestOne
  cases hfb : firstBefore l time with
  | none => exact hother pre hpre r
  | some x => exact (importComponent_same ht.mapped ht.valid).1

/-! ## C23 -/

/-- **C23, import_latest.** Restores, for every mapped entity, the last recorded input that is not
after the given time, and leaves the entity alone if there is none. -/
theorem import_latest_exact {emap : Nat → Option Nat} {valid : Nat → Bool} {s : Store T V}
    {e loc : Nat} {l : List (Input T V)} (ht : Tracks emap valid s e loc l)
    (time : T) (r : Reg T V) :
    (∀ x, IsLatest l time x → (importLatest emap valid time s r).val loc = some x.comp) ∧
    ((∀ x ∈ l, time < x.timestamp) →
      (importLatest emap valid time s r).val loc = r.val loc) := by
  rw [importLatest_spec ht]
  obtain ⟨h1, h2⟩ := firstBefore_spec l time
  constructor
  · rintro x ⟨pre, post, hl, hx, hpost⟩
    have : firstBefore l time = some x := by
      unfold firstBefore
      rw [List.find?_eq_some_iff_append]
      refine ⟨by simpa using hx, post.reverse, pre.reverse, by rw [hl]; simp, ?_⟩
      intro y hy
      have := hpost y (List.mem_reverse.1 hy)
      simpa using this
    rw [this]
  · intro hall
    cases hfb : firstBefore l time with
    | none => rfl
    | some x =>
      obtain ⟨pre, post, hl, hx, _⟩ := h1 x hfb
      have := hall x (by rw [hl]; simp)
      exact absurd hx (not_le.2 this)

/-- **C23, one step.** One replay step assigns to every mapped entity exactly the recorded inputs
with timestamps in the closed interval, in recorded order. -/
theorem import_each_exact {emap : Nat → Option Nat} {valid : Nat → Bool} {s : Store T V}
    {e loc : Nat} {l : List (Input T V)} (ht : Tracks emap valid s e loc l) (hs : TSorted l)
    (start len : T) (r : Reg T V) :
    assigned (importEach emap valid start len s r) loc = assigned r loc ++
      l.filter fun x => decide (start ≤ x.timestamp ∧ x.timestamp ≤ start + len) :=
  (importEach_spec ht hs start len r).1

/-- The assignments made by a replay are those already made followed by new ones. -/
theorem replay_assigned {emap : Nat → Option Nat} {valid : Nat → Bool} {s : Store T V}
    {e loc : Nat} {l : List (Input T V)} (ht : Tracks emap valid s e loc l) (hs : TSorted l)
    (t : T) (ds : List T) (r : Reg T V) (hd : ∀ d ∈ ds, 0 ≤ d) :
    ∃ new, assigned (replay emap valid s t ds r) loc = assigned r loc ++ new ∧
      TSorted new ∧ (∀ x ∈ new, x ∈ l ∧ t ≤ x.timestamp ∧ x.timestamp ≤ t + ds.sum) ∧
      (ds ≠ [] → ∀ x ∈ l, t ≤ x.timestamp → x.timestamp ≤ t + ds.sum → x ∈ new) := by
  induction ds generalizing t r with
  | nil => exact ⟨[], by simp [replay], List.Pairwise.nil, by simp, fun h => absurd rfl h⟩
  | cons d ds ih =>
    have hd0 : 0 ≤ d := hd d (by simp)
    have hsum : 0 ≤ ds.sum := List.sum_nonneg fun x hx => hd x (List.mem_cons_of_mem _ hx)
    obtain ⟨new, n1, n2, n3, n4⟩ := ih (t + d) (importEach emap valid t d s r)
      (fun x hx => hd x (List.mem_cons_of_mem _ hx))
    set f := l.filter fun x => decide (t ≤ x.timestamp ∧ x.timestamp ≤ t + d) with hf
    have hfm : ∀ x, x ∈ f ↔ x ∈ l ∧ t ≤ x.timestamp ∧ x.timestamp ≤ t + d := by
      intro x; rw [hf, List.mem_filter]; simp
    refine ⟨f ++ new, ?_, ?_, ?_, ?_⟩
    · show assigned (replay emap valid s (t + d) ds _) loc = _
      rw [n1, import_each_exact ht hs, List.append_assoc]
    · unfold TSorted
      rw [List.pairwise_append]
      refine ⟨hs.filter _, n2, ?_⟩
      intro a ha b hb
      exact le_trans ((hfm a).1 ha).2.2 (n3 b hb).2.1
    · intro x hx
      rw [List.sum_cons, ← add_assoc]
      rcases List.mem_append.1 hx with hx | hx
      · obtain ⟨h1, h2, h3⟩ := (hfm x).1 hx
        exact ⟨h1, h2, le_trans h3 (le_add_of_nonneg_right hsum)⟩
      · obtain ⟨h1, h2, h3⟩ := n3 x hx
        exact ⟨h1, le_trans (le_add_of_nonneg_right hd0) h2, h3⟩
    · intro _ x hx hlo hhi
      rw [List.sum_cons, ← add_assoc] at hhi
      rw [List.mem_append]
      rcases le_total x.timestamp (t + d) with h | h
      · exact Or.inl ((hfm x).2 ⟨hx, hlo, h⟩)
      · by_cases hnil : ds = []
        · subst hnil
          rw [List.sum_nil, add_zero] at hhi
          exact Or.inl ((hfm x).2 ⟨hx, hlo, hhi⟩)
        · exact Or.inr (n4 hnil x hx h hhi)

/-- **C23, replay.** Replaying over consecutive steps from `t` assigns to every mapped entity
inputs recorded in the replayed interval only, in time order, and every one of them at least
once.  (`boundary_input_twice` shows that "at least" cannot be improved.) -/
theorem replay_exact {emap : Nat → Option Nat} {valid : Nat → Bool} {s : Store T V}
    {e loc : Nat} {l : List (Input T V)} (ht : Tracks emap valid s e loc l) (hs : TSorted l)
    (t : T) (ds : List T) (val : Nat → Option V) (hne : ds ≠ []) (hd : ∀ d ∈ ds, 0 ≤ d) :
    let out := assigned (replay emap valid s t ds ⟨val, []⟩) loc
    TSorted out ∧
    ∀ x, x ∈ out ↔ x ∈ l ∧ t ≤ x.timestamp ∧ x.timestamp ≤ t + ds.sum := by
  obtain ⟨new, n1, n2, n3, n4⟩ := replay_assigned ht hs t ds ⟨val, []⟩ hd
  have h0 : assigned (⟨val, []⟩ : Reg T V) loc = [] := rfl
  rw [h0, List.nil_append] at n1
  show TSorted (assigned _ loc) ∧ _
  rw [n1]
  exact ⟨n2, fun x => ⟨n3 x, fun h => n4 hne x h.1 h.2.1 h.2.2⟩⟩

theorem lastValue_latest {l : List (Input T V)} (hs : TSorted l) {lo hi t : T} (old : Option V)
    (hlt : lo ≤ t) (hth : t ≤ hi)
    (hold : ∀ x, IsLatest l t x → old = some x.comp)
    {x : Input T V} (hx : IsLatest l hi x) :
    lastValue old (l.filter fun y => decide (lo ≤ y.timestamp ∧ y.timestamp ≤ hi)) =
      some x.comp := by
  obtain ⟨pre, post, hl, hxt, hpost⟩ := hx
  have hpostnil : post.filter (fun y => decide (lo ≤ y.timestamp ∧ y.timestamp ≤ hi)) = [] := by
    rw [List.filter_eq_nil_iff]
    intro y hy
    simp [not_le.2 (hpost y hy)]
  by_cases hlo : lo ≤ x.timestamp
  · have : (l.filter fun y => decide (lo ≤ y.timestamp ∧ y.timestamp ≤ hi)) =
        pre.filter (fun y => decide (lo ≤ y.timestamp ∧ y.timestamp ≤ hi)) ++ [x] := by
      rw [hl, List.filter_append, List.filter_cons_of_pos (by simp [hlo, hxt]), hpostnil]
    unfold lastValue
    rw [this, List.getLast?_append]
    simp
  · have hxlo : x.timestamp < lo := not_le.1 hlo
    have hprenil : pre.filter (fun y => decide (lo ≤ y.timestamp ∧ y.timestamp ≤ hi)) = [] := by
      rw [List.filter_eq_nil_iff]
      intro y hy
      unfold TSorted at hs
      rw [hl, List.pairwise_append] at hs
      have := hs.2.2 y hy x (by simp)
      have h2 : ¬ lo ≤ y.timestamp := not_le.2 (lt_of_le_of_lt this hxlo)
      simp [h2]
    have hnil : (l.filter fun y => decide (lo ≤ y.timestamp ∧ y.timestamp ≤ hi)) = [] := by
      rw [hl, List.filter_append, List.filter_cons_of_neg (by simp [hlo]), hpostnil, hprenil]
      rfl
    rw [hnil]
    refine hold x ⟨pre, post, hl, le_trans hxlo.le hlt, ?_⟩
    intro y hy
    exact lt_of_le_of_lt hth (hpost y hy)

/-- **C23, the input in force.** If the replay starts at `t` after `import_latest` has restored the
input in force at some time `t'` within the first step (`extrapolate` calls it at the start time,
and the first step covers the interval that ends there), then after the steps the input of every
mapped entity is the one in force at the end of the replayed interval. -/
theorem replay_value_exact {emap : Nat → Option Nat} {valid : Nat → Bool} {s : Store T V}
    {e loc : Nat} {l : List (Input T V)} (ht : Tracks emap valid s e loc l) (hs : TSorted l)
    (t t' d : T) (ds : List T) (r : Reg T V) (hd : ∀ x ∈ ds, 0 ≤ x)
    (ht1 : t ≤ t') (ht2 : t' ≤ t + d)
    {x : Input T V} (hx : IsLatest l (t + (d :: ds).sum) x) :
    (replay emap valid s t (d :: ds) (importLatest emap valid t' s r)).val loc =
      some x.comp := by
  have gen : ∀ (ds : List T) (d t t' : T) (r : Reg T V), (∀ x ∈ ds, 0 ≤ x) → t ≤ t' →
      t' ≤ t + d → (∀ x, IsLatest l t' x → r.val loc = some x.comp) →
      ∀ x, IsLatest l (t + (d :: ds).sum) x →
      (replay emap valid s t (d :: ds) r).val loc = some x.comp := by
    intro ds
    induction ds with
    | nil =>
      intro d t t' r _ h1 h2 hold x hx
      rw [List.sum_cons, List.sum_nil, add_zero] at hx
      show (importEach emap valid t d s r).val loc = _
      rw [(importEach_spec ht hs t d r).2]
      exact lastValue_latest hs _ h1 h2 hold hx
    | cons c ds ih =>
      intro d t t' r hd h1 h2 hold x hx
      rw [List.sum_cons, ← add_assoc] at hx
      refine ih c (t + d) (t + d) (importEach emap valid t d s r)
        (fun y hy => hd y (List.mem_cons_of_mem _ hy)) le_rfl
        (le_add_of_nonneg_right (hd c (by simp))) ?_ x hx
      intro y hy
      rw [(importEach_spec ht hs t d r).2]
      exact lastValue_latest hs _ h1 h2 hold hy
  exact gen ds d t t' _ hd ht1 ht2
    (fun y hy => (import_latest_exact ht t' r).1 y hy) x hx

theorem dropWhile_eq_filter {l : List (Input T V)} (hs : TSorted l) (t : T) :
    (l.dropWhile fun x => !decide (x.timestamp > t)) =
      l.filter fun x => decide (t < x.timestamp) := by
  induction l with
  | nil => rfl
  | cons x xs ih =>
    unfold TSorted at hs
    rw [List.pairwise_cons] at hs
    by_cases h : t < x.timestamp
    · have h2 : ∀ y ∈ xs, t < y.timestamp := fun y hy => lt_of_lt_of_le h (hs.1 y hy)
      rw [List.dropWhile_cons, List.filter_cons]
      simp only [gt_iff_lt, h, decide_true, Bool.not_true, Bool.false_eq_true, if_false, if_true]
      congr 1
      symm
      rw [List.filter_eq_self]
      intro y hy
      simpa using h2 y hy
    · simp [h, ih hs.2]

/-! ## Recording: the histories are time ordered -/

/-- Recording operations of the owner's client: `emplace` at increasing times, `erase_until`,
`remove_entity`. -/
inductive Recorded : T → Store T V → Prop
  | init (t : T) : Recorded t []
  | record {t t' : T} {s : Store T V} (h : Recorded t s) (ht : t ≤ t') (e : Nat) (v : V) :
      Recorded t' (add e v t' s)
  | erase {t : T} {s : Store T V} (h : Recorded t s) (u : T) : Recorded t (eraseUntil u s)
  | remove {t : T} {s : Store T V} (h : Recorded t s) (e : Nat) :
      Recorded t (s.filter fun el => el.1 != e)

theorem add_keys (e : Nat) (v : V) (t : T) (s : Store T V) :
    (add e v t s).map (·.1) =
      if e ∈ s.map (·.1) then s.map (·.1) else s.map (·.1) ++ [e] := by
  induction s with
  | nil => simp [add]
  | cons p s ih =>
    obtain ⟨f, l⟩ := p
    unfold add
    by_cases h : f = e
    · simp [h]
    · have h2 : ¬ e = f := fun x => h x.symm
      rw [if_neg h]
      simp only [List.map_cons, ih, List.mem_cons, h2, false_or]
      split <;> simp

theorem add_mem {e : Nat} {v : V} {t : T} {s : Store T V} {p : Nat × List (Input T V)}
    (h : p ∈ add e v t s) :
    p ∈ s ∨ p = (e, [⟨v, t⟩]) ∨ ∃ l, (e, l) ∈ s ∧ p = (e, l ++ [⟨v, t⟩]) := by
  induction s with
  | nil => exact Or.inr (Or.inl (by simpa [add] using h))
  | cons q s ih =>
    obtain ⟨f, l⟩ := q
    unfold add at h
    split at h
    · rename_i hf
      subst hf
      rcases List.mem_cons.1 h with rfl | h
      · exact Or.inr (Or.inr ⟨l, by simp, rfl⟩)
      · exact Or.inl (List.mem_cons_of_mem _ h)
    · rcases List.mem_cons.1 h with rfl | h
      · exact Or.inl (by simp)
      · rcases ih h with h | h | ⟨l', h, h'⟩
        · exact Or.inl (List.mem_cons_of_mem _ h)
        · exact Or.inr (Or.inl h)
        · exact Or.inr (Or.inr ⟨l', List.mem_cons_of_mem _ h, h'⟩)

/-- **C23, histories are ordered.** Every history recorded at increasing times is time ordered and
each entity has one, so the theorems above apply. -/
theorem recorded_ordered {t : T} {s : Store T V} (h : Recorded t s) :
    (s.map (·.1)).Nodup ∧ ∀ p ∈ s, TSorted p.2 ∧ ∀ x ∈ p.2, x.timestamp ≤ t := by
  induction h with
  | init t => simp
  | @record t t' s _ ht e v ih =>
    refine ⟨?_, ?_⟩
    · rw [add_keys]
      split
      · exact ih.1
      · rename_i hn
        rw [List.nodup_append]
        refine ⟨ih.1, by simp, ?_⟩
        intro a ha b hb hab
        rw [List.mem_singleton.1 hb] at hab
        exact hn (hab ▸ ha)
    · intro p hp
      rcases add_mem hp with h | rfl | ⟨l, hl, rfl⟩
      · exact ⟨(ih.2 p h).1, fun x hx => le_trans ((ih.2 p h).2 x hx) ht⟩
      · exact ⟨by simp [TSorted], by simp⟩
      · obtain ⟨i1, i2⟩ := ih.2 _ hl
        refine ⟨?_, ?_⟩
        · show TSorted (l ++ _)
          unfold TSorted
          rw [List.pairwise_append]
          refine ⟨i1, by simp, ?_⟩
          intro a ha b hb
          rw [List.mem_singleton.1 hb]
          exact le_trans (i2 a ha) ht
        · intro x hx
          rcases List.mem_append.1 hx with hx | hx
          · exact le_trans (i2 x hx) ht
          · rw [List.mem_singleton.1 hx]
  | @erase t s _ u ih =>
    refine ⟨?_, ?_⟩
    · unfold eraseUntil
      rw [List.map_map]
      exact ih.1
    · intro p hp
      obtain ⟨q, hq, rfl⟩ := List.mem_map.1 hp
      obtain ⟨i1, i2⟩ := ih.2 q hq
      have hsub := List.dropWhile_sublist (l := q.2) (fun x => !decide (x.timestamp > u))
      exact ⟨i1.sublist hsub, fun x hx => i2 x (hsub.subset hx)⟩
  | @remove t s _ e ih =>
    refine ⟨ih.1.sublist (List.filter_sublist.map _), ?_⟩
    intro p hp
    exact ih.2 p (List.mem_filter.1 hp).1

/-- **C23, trimming.** `erase_until` keeps exactly the inputs after the given time, of every entity,
so it does not change what a replay of a later interval assigns. -/
theorem eraseUntil_keeps {t : T} {s : Store T V} (h : Recorded t s) (u : T) :
    eraseUntil u s =
      s.map fun el => (el.1, el.2.filter fun x => decide (u < x.timestamp)) := by
  unfold eraseUntil
  refine List.map_congr_left fun el hel => ?_
  rw [dropWhile_eq_filter ((recorded_ordered h).2 el hel).1]

/-! ### Non-vacuity and findings -/

private def exStore : Store ℤ Nat :=
  add 4 12 7 (add 4 11 5 (add 9 50 5 (add 4 10 3 [])))

/-- Two entities; replay of two steps of entity 4's history, mapped to local entity 1. -/
example :
    let emap : Nat → Option Nat := fun e => if e = 4 then some 1 else none
    Recorded 7 exStore ∧
    Tracks emap (fun _ => true) exStore 4 1 [⟨10, 3⟩, ⟨11, 5⟩, ⟨12, 7⟩] ∧
    (assigned (replay emap (fun _ => true) exStore 3 [3, 1] ⟨fun _ => none, []⟩) 1).map
      (·.comp) = [10, 11, 12] := by
  refine ⟨?_, ⟨by decide, by decide, rfl, rfl, ?_⟩, by decide +kernel⟩
  · exact .record (.record (.record (.record (.init 0) (by decide) _ _) (by decide) _ _)
      (by decide) _ _) (by decide) _ _
  · intro e' h
    by_contra hne
    simp [hne] at h

/-- **Finding.** An input on the boundary of two steps is imported by both.  For action entries,
which `import_each_action` (lines 277-304) selects with the same closed interval, this executes
the action twice. -/
theorem boundary_input_twice :
    ∃ (s : Store ℤ Nat) (emap : Nat → Option Nat),
      Tracks emap (fun _ => true) s 0 0 [⟨7, 5⟩] ∧
      assigned (replay emap (fun _ => true) s 4 [1, 1] ⟨fun _ => none, []⟩) 0 =
        [⟨7, 5⟩, ⟨7, 5⟩] := by
  refine ⟨[(0, [⟨7, 5⟩])], fun e => if e = 0 then some 0 else none,
    ⟨by decide, by decide, rfl, rfl, ?_⟩, by decide +kernel⟩
  intro e' h
  by_contra hne
  simp [hne] at h

/-- **Finding.** Inputs of other clients are recorded in the order in which their snapshots arrive
(`add` from a snapshot, lines 106-125).  If the packets are reordered the history is not time
ordered and a replay skips an input of the interval, because the loop stops at the first later
one. -/
theorem reordered_input_skipped :
    ∃ (s : Store ℤ Nat) (emap : Nat → Option Nat),
      s = add 0 8 5 (add 0 9 20 []) ∧
      assigned (importEach emap (fun _ => true) 4 2 s ⟨fun _ => none, []⟩) 0 = [] ∧
      ∃ x ∈ (s.map (·.2)).flatten, 4 ≤ x.timestamp ∧ x.timestamp ≤ 6 := by
  refine ⟨_, fun e => some e, rfl, by decide +kernel, ⟨8, 5⟩, by decide +kernel, by decide,
    by decide⟩

end Edyn.Net.InputHistory
