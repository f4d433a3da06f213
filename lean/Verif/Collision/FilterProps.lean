import Verif.Collision.FilterLemmas

/-!
# Properties of collision filtering (C30) and collision exclusion (C31)
-/

namespace Edyn.Collision

/-! ## C30 -/

/-- The filter that applies to a body: its own, or "belongs to and accepts all groups". -/
def effectiveFilter (r : Reg) (e : Entity) : Filter :=
  (r.filter.get? e).getD ⟨allGroups, allGroups⟩

/-- `f` belongs to some group accepted by the mask of `g`. -/
def acceptedBy (f g : Filter) : Prop := ∃ i : Nat, f.group.getLsbD i = true ∧ g.mask.getLsbD i = true

theorem and_ne_zero_iff (x y : BitVec 64) :
    (x &&& y) ≠ 0 ↔ ∃ i : Nat, x.getLsbD i = true ∧ y.getLsbD i = true := by
  constructor
  · intro h
    apply Classical.byContradiction
    intro hno
    apply h
    apply BitVec.eq_of_getLsbD_eq
    intro i _
    have : ¬ (x.getLsbD i = true ∧ y.getLsbD i = true) := fun h => hno ⟨i, h⟩
    simp only [BitVec.getLsbD_and]
    cases hx : x.getLsbD i <;> cases hy : y.getLsbD i <;> simp_all
  · rintro ⟨i, hx, hy⟩ h
    have : (x &&& y).getLsbD i = (0 : BitVec 64).getLsbD i := by rw [h]
    simp [hx, hy] at this

/-- C30. Two bodies collide exactly when they are different bodies, each accepts a group of the
other (a body without a filter belongs to and accepts all groups), and neither excludes the other. -/
theorem shouldCollide_iff (r : Reg) (a b : Entity) :
    shouldCollide r a b = true ↔
      a ≠ b ∧ acceptedBy (effectiveFilter r a) (effectiveFilter r b) ∧
      acceptedBy (effectiveFilter r b) (effectiveFilter r a) ∧
      shouldExclude r a b = false ∧ shouldExclude r b a = false := by
  simp only [acceptedBy, ← and_ne_zero_iff, effectiveFilter, shouldCollide]
  have hall : allGroups &&& allGroups ≠ 0 := by decide
  have hcomm : ∀ x : BitVec 64, allGroups &&& x = x &&& allGroups := fun x => BitVec.and_comm _ _
  by_cases hab : a = b
  · simp [hab]
  · cases ha : r.filter.get? a <;> cases hb : r.filter.get? b <;>
      cases h1 : shouldExclude r a b <;> cases h2 : shouldExclude r b a <;>
      simp [hab, hcomm]
    all_goals first | exact and_comm | exact hall | (intros; simp_all)

/-- C30. Collision filtering is symmetric. -/
theorem shouldCollide_symm (r : Reg) (a b : Entity) : shouldCollide r a b = shouldCollide r b a := by
  rw [Bool.eq_iff_iff, shouldCollide_iff, shouldCollide_iff]
  constructor <;> (rintro ⟨h1, h2, h3, h4, h5⟩; exact ⟨Ne.symm h1, h3, h2, h5, h4⟩)

/-- C30. No self collision; and a rejecting mask on either side prevents the collision. -/
theorem shouldCollide_false (r : Reg) (a b : Entity)
    (h : a = b ∨ ¬ acceptedBy (effectiveFilter r a) (effectiveFilter r b) ∨
      ¬ acceptedBy (effectiveFilter r b) (effectiveFilter r a) ∨
      shouldExclude r a b = true ∨ shouldExclude r b a = true) : shouldCollide r a b = false := by
  cases hc : shouldCollide r a b
  · rfl
  · obtain ⟨h1, h2, h3, h4, h5⟩ := (shouldCollide_iff r a b).1 hc
    rcases h with h | h | h | h | h
    · exact absurd h h1
    · exact absurd h2 h
    · exact absurd h3 h
    · rw [h4] at h; cases h
    · rw [h5] at h; cases h

/-- Non-vacuity: a registry in which two bodies collide and one in which a mask rejects. -/
example : shouldCollide ⟨fun _ => true, ⟨[(1, ⟨2, 5⟩), (2, ⟨4, 2⟩)]⟩, ⟨[]⟩⟩ 1 2 = true ∧
    shouldCollide ⟨fun _ => true, ⟨[(1, ⟨2, 5⟩), (2, ⟨8, 2⟩)]⟩, ⟨[]⟩⟩ 1 2 = false ∧
    shouldCollide ⟨fun _ => true, ⟨[(1, ⟨2, 5⟩)]⟩, ⟨[]⟩⟩ 1 2 = true := by decide

/-! ## C31 -/

namespace ExclSpec

/-- Effect of each call on the set of excluded pairs. -/
def step (s : Excl) : Op → Excl
  | .exclude a b => fun x y => s x y ∨ (x = a ∧ y = b) ∨ (x = b ∧ y = a)
  | .remove a b => fun x y => s x y ∧ ¬ ((x = a ∧ y = b) ∨ (x = b ∧ y = a))
  | .clear a => fun x y => s x y ∧ x ≠ a ∧ y ≠ a

def run (s : Excl) (os : List Op) : Excl := os.foldl step s

def empty : Excl := fun _ _ => False

/-- The precondition: a body is not excluded from itself. -/
def OpOk : Op → Prop
  | .exclude a b => a ≠ b
  | _ => True

end ExclSpec

theorem specInv_step {s : Excl} (h : SpecInv s) (o : Op) (ho : ExclSpec.OpOk o) :
    SpecInv (ExclSpec.step s o) := by
  obtain ⟨h1, h2⟩ := h
  cases o with
  | exclude a b =>
    simp only [ExclSpec.OpOk] at ho
    constructor
    · rintro x y (h | h | h)
      · exact Or.inl (h1 _ _ h)
      · exact Or.inr (Or.inr ⟨h.2, h.1⟩)
      · exact Or.inr (Or.inl ⟨h.2, h.1⟩)
    · rintro x (h | h | h)
      · exact h2 _ h
      · exact ho (h.1.symm.trans h.2)
      · exact ho (h.2.symm.trans h.1)
  | remove a b =>
    constructor
    · rintro x y ⟨h, h'⟩
      refine ⟨h1 _ _ h, ?_⟩
      rintro (⟨rfl, rfl⟩ | ⟨rfl, rfl⟩)
      · exact h' (Or.inr ⟨rfl, rfl⟩)
      · exact h' (Or.inl ⟨rfl, rfl⟩)
    · rintro x ⟨h, _⟩; exact h2 _ h
  | clear a =>
    constructor
    · rintro x y ⟨h, h3, h4⟩; exact ⟨h1 _ _ h, h4, h3⟩
    · rintro x ⟨h, _⟩; exact h2 _ h

theorem rel_step {r r' s} (h : Rel r s) (hs : SpecInv s) (o : Op)
    (hr : step r o = some r') :
    Rel r' (ExclSpec.step s o) ∧ r'.isBody = r.isBody ∧ r'.filter = r.filter := by
  cases o with
  | exclude a b =>
    simp only [step, exclude] at hr
    obtain ⟨r1, h1, h2⟩ := Option.bind_eq_some_iff.1 hr
    obtain ⟨hrel1, hb1, hf1⟩ := rel_oneWay h a b h1
    obtain ⟨hrel2, hb2, hf2⟩ := rel_oneWay hrel1 b a h2
    exact ⟨rel_congr hrel2 (fun x y => by simp only [ExclSpec.step]; grind), hb2.trans hb1, hf2.trans hf1⟩
  | remove a b =>
    simp only [step, remove] at hr
    obtain ⟨r1, h1, h2⟩ := Option.bind_eq_some_iff.1 hr
    obtain ⟨arr, ha⟩ := removeOneWay_some h1
    obtain ⟨r1', h1', hrel1, -, -, hb1, hf1⟩ := rel_removeOneWay h a b arr ha
    rw [h1] at h1'; cases h1'
    obtain ⟨arr2, ha2⟩ := removeOneWay_some h2
    obtain ⟨r2', h2', hrel2, -, -, hb2, hf2⟩ := rel_removeOneWay hrel1 b a arr2 ha2
    rw [h2] at h2'; cases h2'
    exact ⟨rel_congr hrel2 (fun x y => by simp only [ExclSpec.step]; grind), hb2.trans hb1, hf2.trans hf1⟩
  | clear a =>
    simp only [step] at hr
    have hg : (r.excl.get? a).isSome = true := by
      unfold clear at hr
      split at hr
      · cases hr
      · rename_i heq; rw [heq]; rfl
    obtain ⟨r1, h1, hrel1, hb1, hf1⟩ := rel_clear h hs a hg
    rw [h1] at hr; cases hr
    exact ⟨hrel1, hb1, hf1⟩

theorem rel_run (os : List Op) : ∀ {r r' s}, Rel r s → SpecInv s → (∀ o ∈ os, ExclSpec.OpOk o) →
    run r os = some r' → Rel r' (ExclSpec.run s os) ∧ SpecInv (ExclSpec.run s os) := by
  induction os with
  | nil => intro r r' s h hs _ hr; cases hr; exact ⟨h, hs⟩
  | cons o os ih =>
    intro r r' s h hs ho hr
    obtain ⟨r1, h1, h2⟩ := Option.bind_eq_some_iff.1 hr
    exact ih (rel_step h hs o h1).1 (specInv_step hs o (ho o (by simp)))
      (fun o' ho' => ho o' (List.mem_cons_of_mem _ ho')) h2

/-- A registry without exclusions. -/
def noExcl (isBody : Entity → Bool) (f : AMap Entity Filter) : Reg := ⟨isBody, f, AMap.empty⟩

theorem rel_noExcl (isBody f) : Rel (noExcl isBody f) ExclSpec.empty :=
  ⟨by simp [noExcl], by simp [ExclSpec.empty]⟩

/-- C31. After every history of exclusions, removals and clears (of distinct bodies, and in which
no assertion fails) a pair is excluded exactly when it was requested and not taken back, in either
order of the arguments. -/
theorem exclusions_exact (isBody : Entity → Bool) (f : AMap Entity Filter) (os : List Op) (r : Reg)
    (hok : ∀ o ∈ os, ExclSpec.OpOk o) (hr : run (noExcl isBody f) os = some r) (a b : Entity) :
    (shouldExclude r a b = true ↔ ExclSpec.run ExclSpec.empty os a b) ∧
    shouldExclude r a b = shouldExclude r b a := by
  obtain ⟨h, hs⟩ := rel_run os (rel_noExcl isBody f) ⟨fun _ _ h => h.elim, fun _ h => h.elim⟩ hok hr
  refine ⟨h.shouldExclude a b, ?_⟩
  rw [Bool.eq_iff_iff, h.shouldExclude, h.shouldExclude]
  exact ⟨hs.symm _ _, hs.symm _ _⟩

/-- C31. Every stored list holds at most 16 entities, without duplicates, before the first null. -/
theorem exclusion_lists_wellformed (isBody : Entity → Bool) (f : AMap Entity Filter) (os : List Op)
    (r : Reg) (hok : ∀ o ∈ os, ExclSpec.OpOk o) (hr : run (noExcl isBody f) os = some r)
    (e : Entity) (a : ExclArray) (ha : r.excl.get? e = some a) :
    a.length = 16 ∧ ∃ xs : List Entity, a = xs.map some ++ List.replicate (16 - xs.length) none ∧
      xs.length ≤ 16 ∧ xs.Nodup := by
  obtain ⟨h, -⟩ := rel_run os (rel_noExcl isBody f) ⟨fun _ _ h => h.elim, fun _ h => h.elim⟩ hok hr
  obtain ⟨xs, hrep, -⟩ := h.some e a ha
  have hle := hrep.le
  refine ⟨?_, xs, hrep.eq, hle, hrep.nodup⟩
  rw [hrep.eq]
  simp only [List.length_append, List.length_map, List.length_replicate, maxExclusions] at *
  omega

/-- C31. Clearing the exclusions of an entity which has an exclusion list never fails. -/
theorem clear_defined (isBody : Entity → Bool) (f : AMap Entity Filter) (os : List Op)
    (r : Reg) (hok : ∀ o ∈ os, ExclSpec.OpOk o) (hr : run (noExcl isBody f) os = some r)
    (e : Entity) (he : (r.excl.get? e).isSome = true) : (clear r e).isSome = true := by
  obtain ⟨h, hs⟩ := rel_run os (rel_noExcl isBody f) ⟨fun _ _ h => h.elim, fun _ h => h.elim⟩ hok hr
  obtain ⟨r', h1, -⟩ := rel_clear h hs e he
  rw [h1]; rfl

/-- Non-vacuity: exclusions with swap-removal and a clear; and the capacity assertion. -/
example : ∃ r, run (noExcl (fun _ => true) AMap.empty)
    [.exclude 1 2, .exclude 1 3, .exclude 4 1, .remove 2 1, .exclude 3 4, .clear 4] = some r ∧
    shouldExclude r 3 1 = true ∧ shouldExclude r 1 4 = false ∧ shouldExclude r 1 2 = false := by
  refine ⟨_, rfl, ?_, ?_, ?_⟩ <;> decide

/-- C31, finding: excluding a body from itself (not rejected by `exclude_collision`) makes a later
`clear_collision_exclusion` of that body call `patch` on `entt::null`: the loop at
`exclude_collision.cpp:63-66` iterates over the array it is modifying. -/
theorem self_exclusion_breaks_clear :
    run (noExcl (fun _ => true) AMap.empty) [.exclude 1 1, .exclude 1 2, .clear 1] = none := by
  decide

end Edyn.Collision
