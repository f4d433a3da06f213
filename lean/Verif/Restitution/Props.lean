import Verif.Restitution.Group

/-!
# Properties of the restitution solver (C86)
-/

namespace Edyn.Restitution

open Edyn.Math Edyn.Solver

variable {T : Type} [Field T] [LinearOrder T] [IsStrictOrderedRing T]

/-! ### Induction over the groups that are solved -/

omit [IsStrictOrderedRing T] in
theorem visitNode_cases {E : Env T} {w w' : World T} {n : Nat} (h : visitNode E w n = some w') :
    w' = w ∨ ((w.body n).kind = .dynamic ∧ solveGroup E w ((E.edges n).filter (inGroup E w)) = some w') := by
  unfold visitNode at h
  by_cases hk : (w.body n).kind ≠ .dynamic
  · rw [if_pos hk] at h
    exact .inl (Option.some.inj h).symm
  · rw [if_neg hk] at h
    dsimp only at h
    by_cases he : ((E.edges n).filter (inGroup E w)).isEmpty
    · rw [if_pos he] at h
      exact .inl (Option.some.inj h).symm
    · rw [if_neg he] at h
      exact .inr ⟨not_not.1 hk, h⟩

/-- A property of worlds that every group preserves is preserved. -/
theorem solveRestitution_induct {E : Env T} (Q : World T → Prop) (hE : ∀ n, (E.edges n).Nodup)
    (hQ : ∀ w w' g, Q w → w.delta = 0 → g.Nodup → (∀ i ∈ g, inGroup E w i = true) →
      solveGroup E w g = some w' → Q w')
    {islands : List (List Nat)} {w w' : World T} (h0 : w.delta = 0) (h : Q w)
    (hs : solveRestitution E islands w = some w') : Q w' ∧ w'.delta = 0 := by
  have hnode : ∀ w n w', (Q w ∧ w.delta = 0) → visitNode E w n = some w' → (Q w' ∧ w'.delta = 0) := by
    intro w n w' hw hv
    rcases visitNode_cases hv with rfl | ⟨_, hv⟩
    · exact hw
    · have hnd : ((E.edges n).filter (inGroup E w)).Nodup := (hE n).filter _
      exact ⟨hQ _ _ _ hw.1 hw.2 hnd (fun i hi => (List.mem_filter.1 hi).2) hv,
        (solveGroup_spec (fun _ => True) (fun _ _ _ _ => trivial) hw.2 hnd hv).delta⟩
  have hfold : ∀ (l : List Nat) w w', (Q w ∧ w.delta = 0) → l.foldlM (visitNode E) w = some w' →
      (Q w' ∧ w'.delta = 0) := by
    intro l
    induction l with
    | nil => intro w w' hw h; simp at h; exact h ▸ hw
    | cons n l ih =>
      intro w w' hw h
      simp only [List.foldlM_cons, Option.bind_eq_bind, Option.bind_eq_some_iff] at h
      obtain ⟨w1, h1, h2⟩ := h
      exact ih _ _ (hnode _ _ _ hw h1) h2
  have hit : ∀ l w r, (Q w ∧ w.delta = 0) → iteration E l w = some r → (Q r.1 ∧ r.1.delta = 0) := by
    intro l w r hw h
    unfold iteration at h
    split at h
    · simp only [Option.some.injEq] at h; subst h; exact hw
    · simp only [Option.bind_eq_some_iff] at h
      obtain ⟨m, _, h⟩ := h
      split at h
      · simp only [Option.some.injEq] at h; subst h; exact hw
      · simp only [Option.bind_eq_some_iff, Option.map_eq_some_iff] at h
        obtain ⟨s, _, w1, h1, rfl⟩ := h
        exact hfold _ _ _ hw h1
  have hpass : ∀ l w r, (Q w ∧ w.delta = 0) → pass E l w = some r → (Q r.1 ∧ r.1.delta = 0) := by
    intro l
    induction l with
    | nil => intro w r hw h; simp only [pass, Option.some.injEq] at h; subst h; exact hw
    | cons i l ih =>
      intro w r hw h
      simp only [pass, Option.bind_eq_some_iff, Option.map_eq_some_iff] at h
      obtain ⟨r1, h1, r2, h2, rfl⟩ := h
      exact ih r1.1 r2 (hit _ _ _ hw h1) h2
  have hpasses : ∀ k w w', (Q w ∧ w.delta = 0) → passes E islands k w = some w' → (Q w' ∧ w'.delta = 0) := by
    intro k
    induction k with
    | zero => intro w w' hw h; simp only [passes, Option.some.injEq] at h; subst h; exact hw
    | succ k ih =>
      intro w w' hw h
      simp only [passes, Option.bind_eq_some_iff] at h
      obtain ⟨r, h1, h2⟩ := h
      have := hpass _ _ _ hw h1
      split at h2
      · simp only [Option.some.injEq] at h2; subst h2; exact this
      · exact ih _ _ this h2
  have hstart : ({ w with delta := (Function.update w.delta.1 0 0, Function.update w.delta.2 0 0) } : World T) = w := by
    have h1 : Function.update w.delta.1 0 0 = w.delta.1 := by
      rw [h0]; exact Function.update_eq_self 0 (0 : Nat → V3 T)
    have h2 : Function.update w.delta.2 0 0 = w.delta.2 := by
      rw [h0]; exact Function.update_eq_self 0 (0 : Nat → V3 T)
    rw [h1, h2]
  unfold solveRestitution at hs
  rw [hstart] at hs
  exact hpasses _ _ _ ⟨h, h0⟩ hs

/-! ### What is left alone -/

omit [IsStrictOrderedRing T] in
theorem store_same (c : Contact T) (x : CRow T) : Contact.Same c (store c x) := rfl

omit [IsStrictOrderedRing T] in
theorem Contact.same_refl (c : Contact T) : Contact.Same c c := rfl

omit [IsStrictOrderedRing T] in
theorem Contact.same_trans {c d e : Contact T} (h : Contact.Same c d) (h' : Contact.Same d e) :
    Contact.Same c e := by unfold Contact.Same at *; rw [h', h]

omit [IsStrictOrderedRing T] in
theorem Manifold.same_refl (m : Manifold T) : Manifold.Same m m :=
  ⟨rfl, rfl, rfl, forall₂_self Contact.same_refl _⟩

omit [IsStrictOrderedRing T] in
theorem Manifold.same_trans {c d e : Manifold T} (h : Manifold.Same c d) (h' : Manifold.Same d e) :
    Manifold.Same c e :=
  ⟨h'.1.trans h.1, h'.2.1.trans h.2.1, h'.2.2.1.trans h.2.2.1,
    Edyn.Solver.forall₂_trans (R := Contact.Same) (fun _ _ _ a b => Contact.same_trans a b) h.2.2.2 h'.2.2.2⟩

omit [IsStrictOrderedRing T] in
theorem World.same_refl (w : World T) : World.Same w w :=
  ⟨fun _ => ⟨rfl, fun _ => rfl⟩, fun i => by
    cases w.man i with
    | none => exact .none
    | some m => exact .some (Manifold.same_refl m)⟩

omit [IsStrictOrderedRing T] in
theorem World.same_trans {w v u : World T} (h : World.Same w v) (h' : World.Same v u) : World.Same w u := by
  refine ⟨fun e => ⟨?_, ?_⟩, fun i => ?_⟩
  · rw [(h'.body e).1, (h.body e).1]
  · intro hk
    have e1 := (h.body e).2 hk
    rw [(h'.body e).2 (by rw [e1]; exact hk), e1]
  · have a := h.man i
    have b := h'.man i
    revert a b
    cases w.man i <;> cases v.man i <;> cases u.man i <;> intro a b <;> cases a <;> cases b
    · exact .none
    · rename_i a b; exact .some (Manifold.same_trans a b)

theorem forall₂_imp {α β : Type} {R S : α → β → Prop} (h : ∀ a b, R a b → S a b) {l : List α} {l' : List β}
    (hl : List.Forall₂ R l l') : List.Forall₂ S l l' := hl.imp h

theorem change_zero {E : Env T} {P : CRow T → Prop} {w w' : World T} {g : List Nat}
    (h : GroupDone E P w w' g) (e : Nat) (he : (w.body e).kind ≠ .dynamic) :
    change E.plane w w'.man g e = 0 := by
  apply List.sum_eq_zero
  intro v hv
  obtain ⟨i, hi, rfl⟩ := List.mem_map.1 hv
  obtain ⟨m, cs, _, h2, _⟩ := h.man i hi
  rw [h2]
  exact pushAll_zero _ _ _ _ (.inr he)

theorem GroupDone.same {E : Env T} {P : CRow T → Prop} {w w' : World T} {g : List Nat}
    (h : GroupDone E P w w' g) : World.Same w w' := by
  refine ⟨fun e => ⟨?_, ?_⟩, fun i => ?_⟩
  · rw [h.body e]
  · intro hk
    rw [h.body e, change_zero h e hk]
    simp only [Prod.fst_zero, Prod.snd_zero, add_zero]
  · by_cases hi : i ∈ g
    · obtain ⟨m, cs, h1, h2, h3⟩ := h.man i hi
      rw [h1, h2]
      refine .some ⟨rfl, rfl, rfl, forall₂_imp ?_ h3⟩
      rintro c c' ⟨x, _, _, rfl⟩
      exact store_same c x
    · rw [h.out i hi]
      exact (World.same_refl w).man i

/-- **C86.** Static and kinematic bodies keep their velocities.  Of dynamic bodies only the velocities
change, and of contacts only the reported impulses; no change of velocity is left pending. -/
theorem only_velocities_and_impulses (E : Env T) (hE : ∀ n, (E.edges n).Nodup) (islands : List (List Nat))
    (w w' : World T) (h0 : w.delta = 0) (h : solveRestitution E islands w = some w') :
    World.Same w w' ∧ w'.delta = 0 :=
  solveRestitution_induct (fun v => World.Same w v) hE
    (fun _ _ _ hv hd hg _ hs => World.same_trans hv
      (solveGroup_spec (fun _ => True) (fun _ _ _ _ => trivial) hd hg hs).same)
    h0 (World.same_refl w) h

/-! ### Reported impulses -/

theorem forall₂_right {α β : Type} {R : α → β → Prop} {l : List α} {l' : List β}
    (h : List.Forall₂ R l l') {b : β} (hb : b ∈ l') : ∃ a ∈ l, R a b := by
  induction h with
  | nil => cases hb
  | @cons a b' l l' hab _ ih =>
    rcases List.mem_cons.1 hb with rfl | hb
    · exact ⟨a, by simp, hab⟩
    · obtain ⟨a, ha, h⟩ := ih hb
      exact ⟨a, by simp [ha], h⟩

omit [IsStrictOrderedRing T] in
theorem matches_mem {E : Env T} {w : World T} {g : List Nat} {xs : List (CRow T)} (h : Matches E w g xs)
    {x : CRow T} (hx : x ∈ xs) : ∃ m c, OfContact E w m c x := by
  induction g generalizing xs with
  | nil => cases h; cases hx
  | cons i g ih =>
    obtain ⟨m, ys, zs, _, rfl, h1, h2⟩ := h
    rcases List.mem_append.1 hx with hx | hx
    · obtain ⟨c, _, hc⟩ := forall₂_right h1 hx
      exact ⟨m, c, hc⟩
    · exact ih h2 hx

theorem group_ok {E : Env T} (hroot : IsSqrt E.root) (heps : 0 ≤ E.eps) (hl : 0 ≤ E.large) {w : World T}
    {g : List Nat} {xs : List (CRow T)} (h : groupRows E w g = some xs) (k : Nat) (u : Vel T) :
    ∀ y ∈ (sweeps E k (xs, u)).1, y.Ok := by
  obtain ⟨hM, hz⟩ := groupRows_matches h
  apply sweeps_ok E hroot heps
  · intro x hx
    obtain ⟨m, c, hc⟩ := matches_mem hM hx
    rw [hc.lower, hc.upper]; exact hl
  · intro x hx
    obtain ⟨m, c, hc⟩ := matches_mem hM hx
    obtain ⟨a, b, c'⟩ := hz x hx
    refine ⟨?_, ?_, ?_⟩
    · rw [hc.lower, a]
    · rw [hc.upper, a]; exact hl
    · rw [a, b, c']; simp

/-- **C86.** The impulses reported by the contacts push the bodies apart, and the friction is at most the
coefficient of friction times the normal impulse. -/
theorem impulses_admissible (E : Env T) (hroot : IsSqrt E.root) (heps : 0 ≤ E.eps) (hl : 0 ≤ E.large)
    (hE : ∀ n, (E.edges n).Nodup) (islands : List (List Nat)) (w w' : World T) (h0 : w.delta = 0)
    (ha : w.Admissible) (h : solveRestitution E islands w = some w') : w'.Admissible := by
  refine (solveRestitution_induct World.Admissible hE ?_ h0 ha h).1
  intro v v' g hv hd hg _ hs i m' hm' c' hc'
  have hG := solveGroup_spec CRow.Ok (fun xs hxs => group_ok hroot heps hl hxs _ _) hd hg hs
  by_cases hi : i ∈ g
  · obtain ⟨m, cs, _, h2, h3⟩ := hG.man i hi
    rw [h2] at hm'
    simp only [Option.some.injEq] at hm'
    subst hm'
    obtain ⟨c, _, x, hx, hof, rfl⟩ := forall₂_right h3 hc'
    refine ⟨?_, ?_⟩
    · have := hx.1
      rw [hof.lower] at this
      exact this
    · intro mat hmat
      obtain ⟨mat', h4, h5⟩ := hof.mat
      have hmat : c.mat = some mat := hmat
      rw [hmat] at h4
      cases h4
      have := hx.2.2
      rw [h5] at this
      exact this
  · rw [hG.out i hi] at hm'
    exact hv i m' hm' c' hc'

/-! ### Momentum -/

theorem smul_list_sum (a : T) (l : List (V3 T × V3 T)) :
    V3.smul a l.sum.1 = (l.map fun p => V3.smul a p.1).sum := by
  induction l with
  | nil => exact smul_zero' a
  | cons p l ih =>
    rw [List.sum_cons, Prod.fst_add, smul_add_right, ih, List.map_cons, List.sum_cons]

/-- The changes of momentum of the two bodies of a contact cancel. -/
theorem push_momentum (S : Finset Nat) (mass : Nat → T) (w : World T) (m : Manifold T) (c : Contact T)
    (P : V3 T) (ha : m.a ∈ S) (hb : m.b ∈ S)
    (hm : ∀ e ∈ S, (w.body e).kind = .dynamic ∧ mass e * (w.body e).invM = 1) :
    ∑ e ∈ S, V3.smul (mass e) (push w m c P e).1 = 0 := by
  have hk : ∀ e ∈ S, V3.smul (mass e) (kick (w.body e) P) = P := by
    intro e he
    obtain ⟨h1, h2⟩ := hm e he
    rw [kick, if_pos h1, smul_smul', mul_comm, h2]
    ext <;> simp
  have : ∀ e ∈ S, V3.smul (mass e) (push w m c P e).1 =
      (if e = m.a then P else 0) - (if e = m.b then P else 0) := by
    intro e he
    have hs : ∀ v v' : V3 T, V3.smul (mass e) (v - v') = V3.smul (mass e) v - V3.smul (mass e) v' := by
      intro v v'; ext <;> simp <;> ring
    simp only [push]
    rw [hs]
    congr 1
    · by_cases h : e = m.a
      · rw [if_pos h, if_pos h, ← h, hk e he]
      · rw [if_neg h, if_neg h, smul_zero']
    · by_cases h : e = m.b
      · rw [if_pos h, if_pos h, ← h, hk e he]
      · rw [if_neg h, if_neg h, smul_zero']
  rw [Finset.sum_congr rfl this, Finset.sum_sub_distrib, Finset.sum_ite_eq' S m.a, Finset.sum_ite_eq' S m.b,
    if_pos ha, if_pos hb, sub_self]

theorem sum_list_comm {α : Type} (S : Finset Nat) (l : List α) (f : Nat → α → V3 T) :
    ∑ e ∈ S, (l.map (f e)).sum = (l.map fun a => ∑ e ∈ S, f e a).sum := by
  induction l with
  | nil => simp
  | cons a l ih => simp only [List.map_cons, List.sum_cons, Finset.sum_add_distrib, ih]

/-- **C86.** Bouncing bodies exchange momentum: if the bodies in `S` are dynamic and all manifolds are
between them, their total momentum stays the same. -/
theorem restitution_momentum (E : Env T) (hE : ∀ n, (E.edges n).Nodup) (islands : List (List Nat))
    (w w' : World T) (h0 : w.delta = 0) (S : Finset Nat) (mass : Nat → T)
    (hm : ∀ e ∈ S, (w.body e).kind = .dynamic ∧ mass e * (w.body e).invM = 1)
    (hS : ∀ i m, w.man i = some m → m.a ∈ S ∧ m.b ∈ S)
    (h : solveRestitution E islands w = some w') : momentum S mass w' = momentum S mass w := by
  refine (solveRestitution_induct (fun v => World.Same w v ∧ momentum S mass v = momentum S mass w) hE ?_ h0
    ⟨World.same_refl w, rfl⟩ h).1.2
  rintro v v' g ⟨hs, hv⟩ hd hg _ hsol
  have hG := solveGroup_spec (fun _ => True) (fun _ _ _ _ => trivial) hd hg hsol
  refine ⟨World.same_trans hs hG.same, ?_⟩
  rw [← hv]
  have hm' : ∀ e ∈ S, (v.body e).kind = .dynamic ∧ mass e * (v.body e).invM = 1 := by
    intro e he; rw [(hs.body e).1]; exact hm e he
  have hb : ∀ e, (v'.body e).lin = (v.body e).lin + (change E.plane v v'.man g e).1 := by
    intro e; rw [hG.body e]
  simp only [momentum, hb, smul_add_right, Finset.sum_add_distrib]
  have : ∑ e ∈ S, V3.smul (mass e) (change E.plane v v'.man g e).1 = 0 := by
    simp only [change, smul_list_sum, List.map_map]
    rw [sum_list_comm]
    apply List.sum_eq_zero
    intro x hx
    obtain ⟨i, hi, rfl⟩ := List.mem_map.1 hx
    obtain ⟨m, cs, h1, h2, _⟩ := hG.man i hi
    have hmm := hs.man i
    rw [h1] at hmm
    cases hw : w.man i with
    | none => rw [hw] at hmm; cases hmm
    | some m0 =>
      rw [hw] at hmm
      cases hmm with
      | some hmm =>
        obtain ⟨ha, hb⟩ := hS i m0 hw
        simp only [Function.comp, h2, Option.elim_some, pushAll, smul_list_sum, List.map_map]
        rw [sum_list_comm]
        apply List.sum_eq_zero
        intro y hy
        obtain ⟨c, _, rfl⟩ := List.mem_map.1 hy
        exact push_momentum S mass v _ c _ (by rw [hmm.1]; exact ha) (by rw [hmm.2.1]; exact hb) hm'
  rw [this, add_zero]

/-! ### Nothing to do -/

omit [IsStrictOrderedRing T] in
theorem stdMin_le (a b : T) : stdMin a b ≤ a ∧ stdMin a b ≤ b ∧ (stdMin a b = a ∨ stdMin a b = b) := by
  unfold stdMin
  split_ifs with h
  · exact ⟨h.le, le_refl _, .inr rfl⟩
  · exact ⟨le_refl _, not_lt.1 h, .inl rfl⟩

omit [IsStrictOrderedRing T] in
/-- `get_manifold_min_relvel` returns the smallest of the velocities, or the constant if it is smaller. -/
theorem minRelvel_spec (E : Env T) (w : World T) (m : Manifold T) :
    minRelvel E w m ≤ E.big ∧
    (∀ c ∈ m.contacts, minRelvel E w m ≤ speed (w.body m.a) (w.body m.b) c) ∧
    (minRelvel E w m = E.big ∨ ∃ c ∈ m.contacts, minRelvel E w m = speed (w.body m.a) (w.body m.b) c) := by
  unfold minRelvel
  generalize E.big = b
  induction m.contacts generalizing b with
  | nil => exact ⟨le_refl _, by simp, .inl rfl⟩
  | cons c cs ih =>
    obtain ⟨h1, h2, h3⟩ := ih (stdMin (speed (w.body m.a) (w.body m.b) c) b)
    obtain ⟨s1, s2, s3⟩ := stdMin_le (speed (w.body m.a) (w.body m.b) c) b
    rw [List.foldl_cons]
    refine ⟨h1.trans s2, ?_, ?_⟩
    · intro d hd
      rcases List.mem_cons.1 hd with rfl | hd
      · exact h1.trans s1
      · exact h2 d hd
    · rcases h3 with h3 | ⟨d, hd, h3⟩
      · rcases s3 with s3 | s3
        · exact .inr ⟨c, by simp, by rw [h3, s3]⟩
        · exact .inl (by rw [h3, s3])
      · exact .inr ⟨d, by simp [hd], h3⟩

omit [IsStrictOrderedRing T] in
/-- The fastest manifold is one with restitution, and none with restitution is faster. -/
theorem fastest_spec (E : Env T) (w : World T) (edges : List Nat) :
    (fastest E w edges).1 ≤ E.big ∧
    (∀ i ∈ edges, ∀ m, w.man i = some m → m.bouncy = true → (fastest E w edges).1 ≤ minRelvel E w m) ∧
    ((fastest E w edges = (E.big, none)) ∨ ∃ i ∈ edges, ∃ m, w.man i = some m ∧ m.bouncy = true ∧
      fastest E w edges = (minRelvel E w m, some i)) := by
  unfold fastest
  have key : ∀ (l : List Nat) (a : T × Option Nat), let f := l.foldl (fun (acc : T × Option Nat) i =>
      match w.man i with
      | none => acc
      | some m =>
        if !m.bouncy then acc
        else if minRelvel E w m < acc.1 then (minRelvel E w m, some i) else acc) a
      f.1 ≤ a.1 ∧
      (∀ i ∈ l, ∀ m, w.man i = some m → m.bouncy = true → f.1 ≤ minRelvel E w m) ∧
      (f = a ∨ ∃ i ∈ l, ∃ m, w.man i = some m ∧ m.bouncy = true ∧ f = (minRelvel E w m, some i)) := by
    intro l
    induction l with
    | nil => intro a; exact ⟨le_refl _, by simp, .inl rfl⟩
    | cons i l ih =>
      intro a f
      have hf : f = l.foldl (fun (acc : T × Option Nat) i =>
          match w.man i with
          | none => acc
          | some m =>
            if !m.bouncy then acc
            else if minRelvel E w m < acc.1 then (minRelvel E w m, some i) else acc)
          (match w.man i with
          | none => a
          | some m =>
            if !m.bouncy then a
            else if minRelvel E w m < a.1 then (minRelvel E w m, some i) else a) := rfl
      cases hm : w.man i with
      | none =>
        rw [hm] at hf
        obtain ⟨h1, h2, h3⟩ := ih a
        rw [← hf] at h1 h2 h3
        refine ⟨h1, ?_, ?_⟩
        · intro j hj m' hm'
          rcases List.mem_cons.1 hj with rfl | hj
          · rw [hm] at hm'; cases hm'
          · exact h2 j hj m' hm'
        · rcases h3 with h3 | ⟨j, hj, h3⟩
          · exact .inl h3
          · exact .inr ⟨j, by simp [hj], h3⟩
      | some m =>
        rw [hm] at hf
        dsimp only at hf
        by_cases hb : m.bouncy = true
        · rw [if_neg (by simp [hb])] at hf
          by_cases hlt : minRelvel E w m < a.1
          · rw [if_pos hlt] at hf
            obtain ⟨h1, h2, h3⟩ := ih (minRelvel E w m, some i)
            rw [← hf] at h1 h2 h3
            refine ⟨h1.trans hlt.le, ?_, ?_⟩
            · intro j hj m' hm'
              rcases List.mem_cons.1 hj with rfl | hj
              · rw [hm] at hm'; cases hm'; intro _; exact h1
              · exact h2 j hj m' hm'
            · rcases h3 with h3 | ⟨j, hj, h3⟩
              · exact .inr ⟨i, by simp, m, hm, hb, h3⟩
              · exact .inr ⟨j, by simp [hj], h3⟩
          · rw [if_neg hlt] at hf
            obtain ⟨h1, h2, h3⟩ := ih a
            rw [← hf] at h1 h2 h3
            refine ⟨h1, ?_, ?_⟩
            · intro j hj m' hm'
              rcases List.mem_cons.1 hj with rfl | hj
              · rw [hm] at hm'; cases hm'; intro _; exact h1.trans (not_lt.1 hlt)
              · exact h2 j hj m' hm'
            · rcases h3 with h3 | ⟨j, hj, h3⟩
              · exact .inl h3
              · exact .inr ⟨j, by simp [hj], h3⟩
        · rw [if_pos (by simp [hb])] at hf
          obtain ⟨h1, h2, h3⟩ := ih a
          rw [← hf] at h1 h2 h3
          refine ⟨h1, ?_, ?_⟩
          · intro j hj m' hm' hb'
            rcases List.mem_cons.1 hj with rfl | hj
            · rw [hm] at hm'; cases hm'; exact absurd hb' hb
            · exact h2 j hj m' hm' hb'
          · rcases h3 with h3 | ⟨j, hj, h3⟩
            · exact .inl h3
            · exact .inr ⟨j, by simp [hj], h3⟩
  exact key edges (E.big, none)

omit [IsStrictOrderedRing T] in
theorem slow_iff {E : Env T} (hbig : E.threshold < E.big) (w : World T) (m : Manifold T) :
    E.threshold < minRelvel E w m ↔ Slow E w m := by
  obtain ⟨_, h2, h3⟩ := minRelvel_spec E w m
  constructor
  · exact fun h c hc => h.trans_le (h2 c hc)
  · intro h
    rcases h3 with h3 | ⟨c, hc, h3⟩
    · rw [h3]; exact hbig
    · rw [h3]; exact h c hc

omit [IsStrictOrderedRing T] in
/-- The result of an iteration: `true` exactly if all manifolds with restitution of the island are slow,
and then nothing is changed. -/
theorem iteration_true {E : Env T} (hbig : E.threshold < E.big) {edges : List Nat} {w : World T}
    {r : World T × Bool} (h : iteration E edges w = some r) :
    (r.2 = true ↔ ∀ i ∈ edges, ∀ m, w.man i = some m → m.bouncy = true → Slow E w m) ∧
      (r.2 = true → r.1 = w) := by
  obtain ⟨_, h2, h3⟩ := fastest_spec E w edges
  unfold iteration at h
  rcases h3 with h3 | ⟨i, hi, m, hm, hb, h3⟩
  · rw [h3] at h h2
    simp only [Option.some.injEq] at h
    subst h
    refine ⟨⟨fun _ j hj m hm hb => (slow_iff hbig w m).1 (hbig.trans_le (h2 j hj m hm hb)), fun _ => rfl⟩,
      fun _ => rfl⟩
  · rw [h3] at h h2
    simp only [hm, Option.bind_some] at h
    by_cases ht : E.threshold < minRelvel E w m
    · rw [if_pos ht] at h
      simp only [Option.some.injEq] at h
      subst h
      exact ⟨⟨fun _ j hj m' hm' hb' => (slow_iff hbig w m').1 (ht.trans_le (h2 j hj m' hm' hb')), fun _ => rfl⟩,
        fun _ => rfl⟩
    · rw [if_neg ht] at h
      simp only [Option.bind_eq_some_iff, Option.map_eq_some_iff] at h
      obtain ⟨s, _, w1, _, rfl⟩ := h
      refine ⟨⟨fun h => absurd h (by simp), fun hall => absurd ((slow_iff hbig w m).2 (hall i hi m hm hb)) ht⟩,
        fun h => absurd h (by simp)⟩

omit [IsStrictOrderedRing T] in
theorem iteration_slow {E : Env T} (hbig : E.threshold < E.big) {edges : List Nat} {w : World T}
    (hall : ∀ i ∈ edges, ∀ m, w.man i = some m → m.bouncy = true → Slow E w m) :
    iteration E edges w = some (w, true) := by
  obtain ⟨_, h2, h3⟩ := fastest_spec E w edges
  unfold iteration
  rcases h3 with h3 | ⟨i, hi, m, hm, hb, h3⟩
  · rw [h3]
  · rw [h3]
    simp only [hm, Option.bind_some]
    rw [if_pos ((slow_iff hbig w m).2 (hall i hi m hm hb))]

/-- All manifolds with restitution of the islands are slow. -/
def AllSlow (E : Env T) (islands : List (List Nat)) (w : World T) : Prop :=
  ∀ isl ∈ islands, ∀ i ∈ isl, ∀ m, w.man i = some m → m.bouncy = true → Slow E w m

omit [IsStrictOrderedRing T] in
theorem pass_slow {E : Env T} (hbig : E.threshold < E.big) {islands : List (List Nat)} {w : World T}
    (h : AllSlow E islands w) : pass E islands w = some (w, true) := by
  induction islands with
  | nil => rfl
  | cons isl l ih =>
    simp only [pass, iteration_slow hbig (h isl (by simp)), Option.bind_some,
      ih (fun i hi => h i (by simp [hi])), Option.map_some, Bool.and_true]

theorem dummies_zero (w : World T) (h0 : w.delta = 0) :
    ({ w with delta := (Function.update w.delta.1 0 0, Function.update w.delta.2 0 0) } : World T) = w := by
  have h1 : Function.update w.delta.1 0 0 = w.delta.1 := by
    rw [h0]; exact Function.update_eq_self 0 (0 : Nat → V3 T)
  have h2 : Function.update w.delta.2 0 0 = w.delta.2 := by
    rw [h0]; exact Function.update_eq_self 0 (0 : Nat → V3 T)
  rw [h1, h2]

/-- **C86.** If no contact of a manifold with restitution approaches as fast as the threshold, nothing at
all is changed: bodies do not bounce forever. -/
theorem slow_contacts_do_not_bounce (E : Env T) (hbig : E.threshold < E.big) (islands : List (List Nat))
    (w : World T) (h0 : w.delta = 0) (h : AllSlow E islands w) : solveRestitution E islands w = some w := by
  unfold solveRestitution
  rw [dummies_zero w h0]
  cases E.iterations with
  | zero => rfl
  | succ k => simp only [passes, pass_slow hbig h, Option.bind_some, if_true]

omit [IsStrictOrderedRing T] in
theorem pass_true {E : Env T} (hbig : E.threshold < E.big) {islands : List (List Nat)} {w : World T}
    {r : World T × Bool} (h : pass E islands w = some r) (hr : r.2 = true) : AllSlow E islands r.1 ∧ r.1 = w := by
  induction islands generalizing w r with
  | nil =>
    simp only [pass, Option.some.injEq] at h
    subst h
    exact ⟨fun _ h => absurd h (by simp), rfl⟩
  | cons isl l ih =>
    simp only [pass, Option.bind_eq_some_iff, Option.map_eq_some_iff] at h
    obtain ⟨r1, h1, r2, h2, rfl⟩ := h
    simp only [Bool.and_eq_true] at hr
    obtain ⟨a, b⟩ := iteration_true hbig h1
    have hw := b hr.1
    rw [hw] at h2
    obtain ⟨c, d⟩ := ih h2 hr.2
    refine ⟨?_, d⟩
    intro x hx
    dsimp only at *
    rcases List.mem_cons.1 hx with rfl | hx
    · rw [d]; exact a.1 hr.1
    · exact c x hx

/-- One pass over the islands that is not the last. -/
def Step (E : Env T) (islands : List (List Nat)) (w w' : World T) : Prop :=
  pass E islands w = some (w', false)

/-- The worlds after so many passes. -/
inductive After (E : Env T) (islands : List (List Nat)) : Nat → World T → World T → Prop
  | zero (w) : After E islands 0 w w
  | succ {k w v u} : Step E islands w v → After E islands k v u → After E islands (k + 1) w u

/-- **C86.** The solver ends either because all contacts with restitution of the islands separate or
approach slowly, or because it has used up the allowed number of passes. -/
theorem resolved_or_exhausted (E : Env T) (hbig : E.threshold < E.big) (islands : List (List Nat))
    (w w' : World T) (h0 : w.delta = 0) (h : solveRestitution E islands w = some w') :
    AllSlow E islands w' ∨ After E islands E.iterations w w' := by
  unfold solveRestitution at h
  rw [dummies_zero w h0] at h
  generalize E.iterations = k at h
  clear h0
  induction k generalizing w with
  | zero =>
    simp only [passes, Option.some.injEq] at h
    subst h
    exact .inr (.zero _)
  | succ k ih =>
    simp only [passes, Option.bind_eq_some_iff] at h
    obtain ⟨r, h1, h2⟩ := h
    by_cases hr : r.2 = true
    · rw [if_pos hr] at h2
      simp only [Option.some.injEq] at h2
      subst h2
      exact .inl (pass_true hbig h1 hr).1
    · rw [if_neg hr] at h2
      rcases ih r.1 h2 with h3 | h3
      · exact .inl h3
      · refine .inr (.succ ?_ h3)
        show pass E islands w = some (r.1, false)
        rw [h1]
        simp only [Bool.not_eq_true] at hr
        rw [← hr]

end Edyn.Restitution
