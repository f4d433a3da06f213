import Verif.DynTree.Balance

namespace Edyn.DynTree

variable {S : Type} [LinearOrder S]

theorem At.eq_height {s : State S} {ctx : Ctx} {a : Nat} {l r : T} (h : At s ctx a l r) :
    s.height l.id = l.height ∧ s.height r.id = r.height := ⟨h.repl.height, h.repr.height⟩

/-- `balance` keeps the situation of `refit`, possibly with a rotated subtree. -/
theorem balance_spec {s : State S} {ctx : Ctx} {a : Nat} {l r : T} (h : At s ctx a l r) :
    ∃ i' l' r' s', balance s a = some (i', s') ∧ At s' ctx i' l' r' ∧
      (i' :: (l'.ids ++ r'.ids)).Perm (a :: (l.ids ++ r.ids)) ∧
      (l'.leaves ++ r'.leaves).Perm (l.leaves ++ r.leaves) ∧
      (i' :: (l'.internals ++ r'.internals)).Perm (a :: (l.internals ++ r.internals)) ∧
      Frames s s' (a :: (l.ids ++ (r.ids ++ ctx.ids)))
        (a :: (l.internals ++ (r.internals ++ ctx.internals))) := by
  have hnl : isLeaf s a = false := by simp [isLeaf, h.c1]
  have trivial : ∃ i' l' r' s', some (a, s) = some (i', s') ∧ At s' ctx i' l' r' ∧
      (i' :: (l'.ids ++ r'.ids)).Perm (a :: (l.ids ++ r.ids)) ∧
      (l'.leaves ++ r'.leaves).Perm (l.leaves ++ r.leaves) ∧
      (i' :: (l'.internals ++ r'.internals)).Perm (a :: (l.internals ++ r.internals)) ∧
      Frames s s' (a :: (l.ids ++ (r.ids ++ ctx.ids)))
        (a :: (l.internals ++ (r.internals ++ ctx.internals))) :=
    ⟨a, l, r, s, rfl, h, List.Perm.refl _, List.Perm.refl _, List.Perm.refl _, Frames.refl _ _ _⟩
  unfold balance
  simp only [chk_some h.lt, Option.bind_some, hnl, Bool.false_or, decide_eq_true_eq]
  split
  · exact trivial
  simp only [h.c1, h.c2, chk_some h.repl.lt, chk_some h.repr.lt, Option.bind_some]
  split
  · -- right child up
    rename_i hb
    rw [h.eq_height.1, h.eq_height.2] at hb
    cases r with
    | leaf c => have := l.height_nonneg; simp only [T.height] at hb; omega
    | node c f g =>
      obtain ⟨k1, k2, k3, k4, k5, k6, k7, k8, k9⟩ := h.repr
      simp only [T.id_node, k2, k3, chk_some k8.lt, chk_some k9.lt, Option.bind_some]
      have hac : c ≠ a := by
        have := h.nodup
        simp at this
        grind
      have e0 : upd (upd s.up c (s.up a)) a (some c) c = s.up a := by simp [upd_apply, hac]
      simp only [e0]
      by_cases hh : s.height f.id > s.height g.id
      · obtain ⟨s2, r1, r2, r3, r4, r5, hAt, hF⟩ :=
          rotate_right_up (x := f) (y := g) h (Or.inl ⟨rfl, rfl⟩)
        refine ⟨c, .node a l g, f, _, ?_, hAt, ?_, ?_, ?_, ?_⟩
        · rw [r1]
          simp [r4, hh]
        · rw [List.perm_iff_count]; intro z
          simp only [T.ids, List.count_append, List.count_cons]; omega
        · rw [List.perm_iff_count]; intro z
          simp only [T.leaves, List.count_append]; omega
        · rw [List.perm_iff_count]; intro z
          simp only [T.internals, List.count_append, List.count_cons]; omega
        · refine Frames.trans (Frames.refl _ _ _) hF ?_ ?_ <;> intro j hj <;>
            simp at hj ⊢ <;> grind
      · obtain ⟨s2, r1, r2, r3, r4, r5, hAt, hF⟩ :=
          rotate_right_up (x := g) (y := f) h (Or.inr ⟨rfl, rfl⟩)
        refine ⟨c, .node a l f, g, _, ?_, hAt, ?_, ?_, ?_, ?_⟩
        · rw [r1]
          simp [r4, hh]
        · rw [List.perm_iff_count]; intro z
          simp only [T.ids, List.count_append, List.count_cons]; omega
        · rw [List.perm_iff_count]; intro z
          simp only [T.leaves, List.count_append]; omega
        · rw [List.perm_iff_count]; intro z
          simp only [T.internals, List.count_append, List.count_cons]; omega
        · refine Frames.trans (Frames.refl _ _ _) hF ?_ ?_ <;> intro j hj <;>
            simp at hj ⊢ <;> grind
  · split
    · rename_i _ hb
      rw [h.eq_height.1, h.eq_height.2] at hb
      cases l with
      | leaf c => have := r.height_nonneg; simp only [T.height] at hb; omega
      | node c f g =>
        obtain ⟨k1, k2, k3, k4, k5, k6, k7, k8, k9⟩ := h.repl
        simp only [T.id_node, k2, k3, chk_some k8.lt, chk_some k9.lt, Option.bind_some]
        have hac : c ≠ a := by
          have := h.nodup
          simp at this
          grind
        have e0 : upd (upd s.up c (s.up a)) a (some c) c = s.up a := by simp [upd_apply, hac]
        simp only [e0]
        by_cases hh : s.height f.id > s.height g.id
        · obtain ⟨s2, r1, r2, r3, r4, r5, hAt, hF⟩ :=
            rotate_left_up (x := f) (y := g) h (Or.inl ⟨rfl, rfl⟩)
          refine ⟨c, .node a g r, f, _, ?_, hAt, ?_, ?_, ?_, ?_⟩
          · rw [r1]
            simp [r4, hh]
          · rw [List.perm_iff_count]; intro z
            simp only [T.ids, List.count_append, List.count_cons]; omega
          · rw [List.perm_iff_count]; intro z
            simp only [T.leaves, List.count_append]; omega
          · rw [List.perm_iff_count]; intro z
            simp only [T.internals, List.count_append, List.count_cons]; omega
          · refine Frames.trans (Frames.refl _ _ _) hF ?_ ?_ <;> intro j hj <;>
              simp at hj ⊢ <;> grind
        · obtain ⟨s2, r1, r2, r3, r4, r5, hAt, hF⟩ :=
            rotate_left_up (x := g) (y := f) h (Or.inr ⟨rfl, rfl⟩)
          refine ⟨c, .node a f r, g, _, ?_, hAt, ?_, ?_, ?_, ?_⟩
          · rw [r1]
            simp [r4, hh]
          · rw [List.perm_iff_count]; intro z
            simp only [T.ids, List.count_append, List.count_cons]; omega
          · rw [List.perm_iff_count]; intro z
            simp only [T.leaves, List.count_append]; omega
          · rw [List.perm_iff_count]; intro z
            simp only [T.internals, List.count_append, List.count_cons]; omega
          · refine Frames.trans (Frames.refl _ _ _) hF ?_ ?_ <;> intro j hj <;>
              simp at hj ⊢ <;> grind
    · exact trivial

/-- One iteration of the loop in `refit`. -/
theorem refit_step {s : State S} {c : Ctx} {i : Nat} {l r : T} {fuel : Nat} (h : At s c i l r) :
    ∃ s' i' l' r', refit (fuel + 1) s (some i) = refit fuel s' c.up ∧
      Rep s' (.node i' l' r') ∧ RepCtx s' i' c ∧ s'.up i' = c.up ∧
      (i' :: (l'.ids ++ r'.ids)).Perm (i :: (l.ids ++ r.ids)) ∧
      (l'.leaves ++ r'.leaves).Perm (l.leaves ++ r.leaves) ∧
      (i' :: (l'.internals ++ r'.internals)).Perm (i :: (l.internals ++ r.internals)) ∧
      Frames s s' (i :: (l.ids ++ (r.ids ++ c.ids)))
        (i :: (l.internals ++ (r.internals ++ c.internals))) := by
  obtain ⟨i', l', r', s1, hb, hA, p1, p2, p3, hF⟩ := balance_spec h
  have hnd := hA.nodup
  simp only [List.nodup_cons, List.mem_append, List.nodup_append, not_or] at hnd
  obtain ⟨⟨n1, n2, n3⟩, nl, ⟨nr, nc, d1⟩, d2⟩ := hnd
  have il := l'.id_mem
  have ir := r'.id_mem
  have hil : l'.id ≠ i' := fun e => n1 (e ▸ il)
  have hir : r'.id ≠ i' := fun e => n2 (e ▸ ir)
  have sub : ∀ t : T, t.ids.Nodup → i' ∉ t.ids → Rep s1 t →
      Rep { s1 with
        box := upd s1.box i' (Box.enclosing (s1.box l'.id) (s1.box r'.id)),
        height := upd s1.height i' (max (s1.height l'.id) (s1.height r'.id) + 1) } t := by
    intro t hn hi ht
    refine Rep.same (s := s1) hn (Nat.le_refl _) ?_ ht
    intro j hj
    have : j ≠ i' := by rintro rfl; exact hi hj
    simp [Same, upd_apply, this]
  refine ⟨{ s1 with
        box := upd s1.box i' (Box.enclosing (s1.box l'.id) (s1.box r'.id)),
        height := upd s1.height i' (max (s1.height l'.id) (s1.height r'.id) + 1) },
    i', l', r', ?_, ?_, ?_, hA.up, p1, p2, p3, ?_⟩
  · simp only [refit, hb, Option.bind_some, hA.c1, hA.c2, chk_some hA.repl.lt, chk_some hA.repr.lt,
      hA.up]
  · refine ⟨hA.lt, hA.c1, hA.c2, hA.upl, hA.upr, ?_, ?_, sub l' nl n1 hA.repl, sub r' nr n2 hA.repr⟩
    · simp [upd_apply, hil, hir]
    · simp [upd_apply, hil, hir]
  · refine RepCtx.same (s := s1) nc (Nat.le_refl _) rfl ?_ hA.ctx
    intro j hj
    have : j ≠ i' := by rintro rfl; exact n3 hj
    simp [Same, upd_apply, this]
  · have m1 : i' ∈ i :: (l.ids ++ r.ids) := p1.subset (by simp)
    have m2 : i' ∈ i :: (l.internals ++ r.internals) := p3.subset (by simp)
    have m1' : i' ∈ i :: (l.ids ++ (r.ids ++ c.ids)) := by
      simp at m1 ⊢; grind
    have m2' : i' ∈ i :: (l.internals ++ (r.internals ++ c.internals)) := by
      simp at m2 ⊢; grind
    obtain ⟨f1, f2, f3, f4⟩ := hF
    refine ⟨f1, f2, fun j hj => ?_, fun j hj => ?_⟩
    · have : j ≠ i' := by rintro rfl; exact hj m1'
      simp [upd_apply, this, f3 j hj]
    · have : j ≠ i' := by rintro rfl; exact hj m2'
      simp [upd_apply, this, f4 j hj]

/-- `refit` from a node up to the root completes the whole tree. -/
theorem refit_spec {c : Ctx} : ∀ {s : State S} {i : Nat} {l r : T} {fuel : Nat}, At s c i l r →
    c.length < fuel →
    ∃ s' t', refit fuel s (some i) = some s' ∧ s'.root = some t'.id ∧ s'.up t'.id = none ∧
      Rep s' t' ∧ t'.ids.Perm (i :: (l.ids ++ (r.ids ++ c.ids))) ∧
      t'.leaves.Perm (l.leaves ++ (r.leaves ++ c.leaves)) ∧
      Frames s s' (i :: (l.ids ++ (r.ids ++ c.ids)))
        (i :: (l.internals ++ (r.internals ++ c.internals))) := by
  induction c with
  | nil =>
    intro s i l r fuel h hfuel
    obtain ⟨fuel, rfl⟩ : ∃ f, fuel = f + 1 := ⟨fuel - 1, by simp at hfuel; omega⟩
    obtain ⟨s', i', l', r', h1, h2, h3, h4, p1, p2, p3, hF⟩ := refit_step (fuel := fuel) h
    refine ⟨s', .node i' l' r', ?_, h3, h4, h2, ?_, ?_, hF⟩
    · rw [h1]; simp [refit]
    · simpa using p1
    · simpa using p2
  | cons f c ih =>
    intro s i l r fuel h hfuel
    obtain ⟨fuel, rfl⟩ : ∃ f, fuel = f + 1 := ⟨fuel - 1, by simp at hfuel; omega⟩
    have hnd := h.nodup
    obtain ⟨s1, i', l', r', h1, h2, h3, h4, p1, p2, p3, hF⟩ := refit_step (fuel := fuel) h
    obtain ⟨fi, fl, sib⟩ := f
    obtain ⟨k1, k2, k3, k4, k5, k6⟩ := h3
    have hnd' : ((i' :: (l'.ids ++ r'.ids)) ++ (fi :: (sib.ids ++ Ctx.ids c))).Nodup := by
      refine (List.Perm.nodup_iff ?_).1 hnd
      rw [List.perm_iff_count]; intro z
      have := p1.count_eq z
      simp only [Ctx.ids, List.count_append, List.count_cons] at this ⊢; omega
    cases fl
    · simp at k2
      have hA : At s1 c fi sib (.node i' l' r') := by
        refine ⟨k1, k2.1, k2.2, k5, k3, h4, k4, h2, k6, ?_⟩
        refine (List.Perm.nodup_iff ?_).1 hnd'
        rw [List.perm_iff_count]; intro z
        simp only [T.ids, List.count_append, List.count_cons]; omega
      obtain ⟨s', t', q1, q2, q3, q4, q5, q6, q7⟩ := ih (fuel := fuel) hA (by simpa using hfuel)
      refine ⟨s', t', ?_, q2, q3, q4, ?_, ?_, ?_⟩
      · rw [h1]; exact q1
      · refine q5.trans ?_
        rw [List.perm_iff_count]; intro z
        have := p1.count_eq z
        simp only [Ctx.ids, T.ids, List.count_append, List.count_cons] at this ⊢; omega
      · refine q6.trans ?_
        rw [List.perm_iff_count]; intro z
        have := p2.count_eq z
        simp only [Ctx.leaves, T.leaves, List.count_append] at this ⊢; omega
      · refine Frames.trans hF q7 ?_ ?_
        · intro j hj
          have := @(p1.mem_iff (a := j))
          simp at hj this ⊢
          grind
        · intro j hj
          have := @(p3.mem_iff (a := j))
          simp at hj this ⊢
          grind
    · simp at k2
      have hA : At s1 c fi (.node i' l' r') sib := by
        refine ⟨k1, k2.1, k2.2, k5, h4, k3, h2, k4, k6, ?_⟩
        refine (List.Perm.nodup_iff ?_).1 hnd'
        rw [List.perm_iff_count]; intro z
        simp only [T.ids, List.count_append, List.count_cons]; omega
      obtain ⟨s', t', q1, q2, q3, q4, q5, q6, q7⟩ := ih (fuel := fuel) hA (by simpa using hfuel)
      refine ⟨s', t', ?_, q2, q3, q4, ?_, ?_, ?_⟩
      · rw [h1]; exact q1
      · refine q5.trans ?_
        rw [List.perm_iff_count]; intro z
        have := p1.count_eq z
        simp only [Ctx.ids, T.ids, List.count_append, List.count_cons] at this ⊢; omega
      · refine q6.trans ?_
        rw [List.perm_iff_count]; intro z
        have := p2.count_eq z
        simp only [Ctx.leaves, T.leaves, List.count_append] at this ⊢; omega
      · refine Frames.trans hF q7 ?_ ?_
        · intro j hj
          have := @(p1.mem_iff (a := j))
          simp at hj this ⊢
          grind
        · intro j hj
          have := @(p3.mem_iff (a := j))
          simp at hj this ⊢
          grind

end Edyn.DynTree
