import Verif.Collision.ManifoldMapModel

/-!
# Properties of the contact manifold map (C32)
-/

namespace Edyn.ManifoldMap

/-- The manifold entity `e` currently joins bodies `a` and `b`, in some order. -/
def Joins (s : State) (e a b : Entity) : Prop :=
  s.manifolds.get? e = some (a, b) ∨ s.manifolds.get? e = some (b, a)

/-- Invariant: the pair map holds exactly the two permutations of each manifold's bodies. -/
def Inv (s : State) : Prop := ∀ a b e, s.pairMap.get? (a, b) = some e ↔ Joins s e a b

theorem inv_init : Inv init := by intro a b e; simp [init, Joins]

theorem inv_construct {s s' : State} (h : Inv s) {e b0 b1} (hs : construct s e b0 b1 = some s') :
    Inv s' := by
  unfold construct at hs
  split at hs
  · cases hs
  · rename_i he
    split at hs
    · cases hs
    · rename_i hp
      cases hs
      have he' : s.manifolds.get? e = none := by
        cases hg : s.manifolds.get? e with
        | none => rfl
        | some v => exact absurd (AMap.contains_iff.2 ⟨v, hg⟩) he
      have hp1 : s.pairMap.get? (b0, b1) = none := by
        cases hg : s.pairMap.get? (b0, b1) with
        | none => rfl
        | some v => exact absurd (by simp [AMap.contains_iff.2 ⟨v, hg⟩]) hp
      have hp2 : s.pairMap.get? (b1, b0) = none := by
        cases hg : s.pairMap.get? (b1, b0) with
        | none => rfl
        | some v => exact absurd (by simp [AMap.contains_iff.2 ⟨v, hg⟩]) hp
      intro a b e'
      have hi := h a b e'
      simp only [Joins, AMap.get?_set] at hi ⊢
      by_cases h1 : e' = e
      · subst h1
        rw [he'] at hi
        simp only [if_true, Option.some.injEq, Prod.mk.injEq]
        by_cases h2 : a = b1 ∧ b = b0
        · simp [h2]
        · by_cases h3 : a = b0 ∧ b = b1
          · simp [h3]
          · rw [if_neg h2, if_neg h3, hi]
            grind
      · simp only [h1, if_false]
        rw [← hi]
        by_cases h2 : (a, b) = (b1, b0)
        · rw [if_pos h2, h2, hp2]; simp [Ne.symm h1]
        · rw [if_neg h2]
          by_cases h3 : (a, b) = (b0, b1)
          · rw [if_pos h3, h3, hp1]; simp [Ne.symm h1]
          · rw [if_neg h3]

theorem inv_destroy {s s' : State} (h : Inv s) {e} (hs : destroy s e = some s') : Inv s' := by
  unfold destroy at hs
  split at hs
  · cases hs
  · rename_i b0 b1 hg
    cases hs
    intro a b e'
    have hi := h a b e'
    have hself := (h b0 b1 e).2 (Or.inl hg)
    have hself2 := (h b1 b0 e).2 (Or.inr hg)
    simp only [Joins, AMap.get?_erase] at *
    grind

theorem inv_swap {s s' : State} (h : Inv s) {e} (hs : swap s e = some s') : Inv s' := by
  unfold swap at hs
  split at hs
  · cases hs
  · rename_i b0 b1 hg
    cases hs
    intro a b e'
    have hi := h a b e'
    simp only [Joins, AMap.get?_set] at *
    grind

theorem inv_step {s s' : State} (h : Inv s) (o : Op) (hs : step s o = some s') : Inv s' := by
  cases o with
  | construct e a b => exact inv_construct h hs
  | destroy e => exact inv_destroy h hs
  | swap e => exact inv_swap h hs
  | makeIfAbsent f a b =>
    simp only [step, makeIfAbsent] at hs
    split at hs
    · cases hs; exact h
    · exact inv_construct h hs

theorem inv_run (os : List Op) : ∀ {s s'}, Inv s → run s os = some s' → Inv s' := by
  induction os with
  | nil => intro s s' h hr; cases hr; exact h
  | cons o os ih =>
    intro s s' h hr
    obtain ⟨s1, h1, h2⟩ := Option.bind_eq_some_iff.1 hr
    exact ih (inv_step h o h1) h2

/-- C32. After every history, looking up a pair of bodies in either order finds exactly the
manifold that joins them. -/
theorem lookup_exact (os : List Op) (s : State) (h : run init os = some s) (a b e : Entity) :
    (get s a b = some e ↔ Joins s e a b) ∧ get s a b = get s b a ∧
    (contains s a b = true ↔ ∃ e, Joins s e a b) := by
  have hi := inv_run os inv_init h
  refine ⟨hi a b e, ?_, ?_⟩
  · have key : ∀ e, get s a b = some e ↔ get s b a = some e := by
      intro e
      simp only [get, hi a b e, hi b a e, Joins]
      exact or_comm
    cases hg : get s a b with
    | some e => exact ((key e).1 hg).symm
    | none =>
      cases hg2 : get s b a with
      | none => rfl
      | some e => rw [(key e).2 hg2] at hg; cases hg
  · simp only [contains, AMap.contains_iff, hi a b]

/-- C32. After every history there is at most one manifold per unordered pair of bodies. -/
theorem manifold_unique (os : List Op) (s : State) (h : run init os = some s) (a b e e' : Entity)
    (h1 : Joins s e a b) (h2 : Joins s e' a b) : e = e' := by
  have hi := inv_run os inv_init h
  have a1 := (hi a b e).2 h1
  have a2 := (hi a b e').2 h2
  rw [a1] at a2; cases a2; rfl

/-- C32. The guarded creation used by the broadphase never trips the duplicate assertion, in any
reachable state, for any (fresh) entity and any pair; afterwards the pair has a manifold and every
other manifold is unchanged. -/
theorem makeIfAbsent_defined (os : List Op) (s : State) (h : run init os = some s)
    (f a b : Entity) (hf : s.manifolds.get? f = none) :
    ∃ s', makeIfAbsent s f a b = some s' ∧ (∃ e, Joins s' e a b) ∧
      ∀ e, e ≠ f → s'.manifolds.get? e = s.manifolds.get? e := by
  have hl := lookup_exact os s h a b 0
  unfold makeIfAbsent
  split
  · rename_i hc
    exact ⟨s, rfl, hl.2.2.1 hc, fun _ _ => rfl⟩
  · rename_i hc
    have h1 : s.manifolds.contains f = false := by simp [AMap.contains, hf]
    have h2 : s.pairMap.contains (a, b) = false := by simpa [contains] using hc
    have h3 : s.pairMap.contains (b, a) = false := by
      have := hl.2.1
      simp only [get] at this
      simp only [AMap.contains] at *
      rw [← this]; exact h2
    refine ⟨_, by simp only [construct, h1, h2, h3]; rfl, ⟨f, Or.inl (by simp)⟩, ?_⟩
    intro e he
    simp [he]

/-- Non-vacuity: a history with creation through both paths, a swap, a duplicate request and a
destruction. -/
example : ∃ s, run init [.construct 10 1 2, .makeIfAbsent 11 2 1, .makeIfAbsent 11 3 2, .swap 10,
      .makeIfAbsent 12 1 2, .destroy 11, .makeIfAbsent 13 2 3] = some s ∧
    get s 1 2 = some 10 ∧ get s 3 2 = some 13 ∧
    run init [.construct 10 1 2, .construct 11 2 1] = none := by
  refine ⟨_, rfl, ?_, ?_, ?_⟩ <;> decide

end Edyn.ManifoldMap
