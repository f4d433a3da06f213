import Verif.DynTree.Inv

/-!
# `insert`, `remove` and `clear` on the invariant
-/

namespace Edyn.DynTree

variable {S : Type} [LinearOrder S]

theorem Ctx.ids_perm (c : Ctx) : c.ids.Perm (c.leaves ++ c.internals) := by
  induction c with
  | nil => simp
  | cons f c ih =>
    rw [List.perm_iff_count]
    intro x
    have h1 := ih.count_eq x
    have h2 := (T.ids_perm f.sib).count_eq x
    simp only [Ctx.ids, Ctx.leaves, Ctx.internals, List.count_append, List.count_cons] at *
    omega

/-- `refit` run to the end, with what it says about the leaves. -/
theorem refit_full {s : State S} {c : Ctx} {i : Nat} {l r : T} {fuel : Nat} (h : At s c i l r)
    (hf : c.length < fuel) :
    ∃ s' t', refit fuel s (some i) = some s' ∧ s'.root = some t'.id ∧ s'.up t'.id = none ∧
      Rep s' t' ∧ t'.ids.Perm (i :: (l.ids ++ (r.ids ++ c.ids))) ∧
      t'.leaves.Perm (l.leaves ++ (r.leaves ++ c.leaves)) ∧ s'.size = s.size ∧
      s'.freeList = s.freeList ∧ (∀ j, j ∉ t'.ids → Same s s' j) ∧
      (∀ j ∈ t'.leaves, s'.box j = s.box j ∧ s'.c2 j = s.c2 j) := by
  obtain ⟨s', t', h1, h2, h3, h4, h5, h6, f1, f2, f3, f4⟩ := refit_spec h hf
  refine ⟨s', t', h1, h2, h3, h4, h5, h6, f1, f2, ?_, ?_⟩
  · intro j hj
    have hj' : j ∉ i :: (l.ids ++ (r.ids ++ c.ids)) := fun hh => hj (h5.mem_iff.2 hh)
    have hi : j ∉ i :: (l.internals ++ (r.internals ++ c.internals)) := by
      intro hh
      apply hj'
      simp only [List.mem_cons, List.mem_append] at hh ⊢
      rcases hh with hh | hh | hh | hh
      · exact Or.inl hh
      · exact Or.inr (Or.inl (T.internals_sub hh))
      · exact Or.inr (Or.inr (Or.inl (T.internals_sub hh)))
      · exact Or.inr (Or.inr (Or.inr (Ctx.internals_sub hh)))
    exact ⟨(f3 j hj').1, (f4 j hi).1, (f4 j hi).2.1, (f4 j hi).2.2, (f3 j hj').2⟩
  · intro j hj
    have hnd := h.nodup
    have hp : (i :: (l.ids ++ (r.ids ++ c.ids))).Perm
        ((l.leaves ++ (r.leaves ++ c.leaves)) ++
          (i :: (l.internals ++ (r.internals ++ c.internals)))) := by
      rw [List.perm_iff_count]
      intro x
      have h1 := (Ctx.ids_perm c).count_eq x
      have h2 := (T.ids_perm l).count_eq x
      have h3 := (T.ids_perm r).count_eq x
      simp only [List.count_append, List.count_cons] at *
      omega
    rw [hp.nodup_iff, List.nodup_append] at hnd
    have hi : j ∉ i :: (l.internals ++ (r.internals ++ c.internals)) :=
      fun hh => hnd.2.2 j (h6.mem_iff.1 hj) j hh rfl
    exact ⟨(f4 j hi).2.2, (f4 j hi).2.1⟩

/-- `insert` of a detached leaf. -/
theorem insert_spec (ch : Choice S) {s : State S} {ot : Option T} {fl ex : List Nat} {leaf : Nat}
    (h : Inv s ot fl (leaf :: ex)) (hl1 : s.c1 leaf = none) (hl2 : s.height leaf = 0) :
    ∃ s' t' fl', insert ch s leaf = some s' ∧ Inv s' (some t') fl' ex ∧
      t'.leaves.Perm (leaf :: leavesO ot) ∧
      (∀ j ∈ t'.leaves, s'.box j = s.box j ∧ s'.c2 j = s.c2 j) := by
  have hlt : leaf < s.size := (h.cover leaf).2 (by simp)
  cases ot with
  | none =>
    have hr : s.root = none := h.root
    obtain ⟨hch, hnd, hcov, _, _⟩ := h
    simp only [idsO, List.nil_append, List.nodup_append, List.nodup_cons, List.mem_cons] at hnd
    obtain ⟨n1, ⟨n2, n3⟩, n4⟩ := hnd
    refine ⟨{ s with root := some leaf, up := upd s.up leaf none }, .leaf leaf, fl, ?_,
      ⟨?_, ?_, ?_, rfl, ?_⟩, ?_, ?_⟩
    · simp [insert, chk_some hlt, hr]
    · refine FreeChain.congr hch (Nat.le_refl _) ?_
      intro j hj
      simp [upd_apply, n4 j hj leaf (Or.inl rfl)]
    · simp only [idsO, T.ids, List.cons_append, List.nil_append, List.nodup_append, List.nodup_cons,
        List.mem_append]
      grind
    · intro i
      have := hcov i
      simp only [idsO, T.ids, List.nil_append, List.mem_append, List.mem_cons, List.cons_append] at this ⊢
      rw [this]; grind
    · intro t ht
      obtain rfl : T.leaf leaf = t := by simpa using ht
      exact ⟨by simp, hlt, hl1, hl2⟩
    · simp [leavesO]
    · simp
  | some t =>
    have hroot : s.root = some t.id := h.root
    have hrept := (h.rep t rfl).2
    obtain ⟨c, v, hbest, hcv⟩ := bestLoop_spec ch (b := s.box leaf) (u := t) (c := [])
      (fuel := s.size) hrept h.ids_length
    simp only [Ctx.plug] at hcv
    obtain ⟨np, s1, fl', ha, hI, hnp1, hnp2, hu, hc1, hc2, hh, hr1, hb1, hsame, hsz⟩ :=
      allocate_spec h
    have hlt1 : leaf < s1.size := by omega
    -- the tree in `s1`
    obtain ⟨hupt1, hrep1⟩ := hI.rep t rfl
    have hroot1 : s1.root = some t.id := hI.root
    rw [hcv] at hrep1 hupt1 hroot1
    obtain ⟨rv, rc, ruv⟩ := Rep.split hrep1 hroot1 hupt1
    have hids : t.ids.Perm (v.ids ++ c.ids) := hcv ▸ Ctx.plug_ids c v
    have hlv : t.leaves.Perm (v.leaves ++ c.leaves) := hcv ▸ Ctx.plug_leaves c v
    have hnd : (v.ids ++ (c.ids ++ (fl' ++ (np :: leaf :: ex)))).Nodup := by
      refine (List.Perm.nodup_iff ?_).1 hI.nodup
      simp only [idsO]
      have := hids.append_right (fl' ++ (np :: leaf :: ex))
      rwa [List.append_assoc] at this
    simp only [List.nodup_append, List.nodup_cons, List.mem_cons, List.mem_append, not_or] at hnd
    obtain ⟨nv, ⟨ncx, ⟨nfl, ⟨⟨nnl, nne⟩, nle, nex⟩, nd1⟩, nd2⟩, nd3⟩ := hnd
    have iv := v.id_mem
    have hvnp : v.id ≠ np := nd3 _ iv _ (Or.inr (Or.inr (Or.inl rfl)))
    have hvlf : v.id ≠ leaf := nd3 _ iv _ (Or.inr (Or.inr (Or.inr (Or.inl rfl))))
    have hcnp : ∀ j ∈ Ctx.ids c, j ≠ np := fun j hj => nd2 j hj _ (Or.inr (Or.inl rfl))
    have hclf : ∀ j ∈ Ctx.ids c, j ≠ leaf := fun j hj => nd2 j hj _ (Or.inr (Or.inr (Or.inl rfl)))
    have hvc : ∀ j ∈ v.ids, j ∉ Ctx.ids c := fun j hj hc => nd3 j hj j (Or.inl hc) rfl
    have hvn : ∀ j ∈ v.ids, j ≠ np := fun j hj => nd3 _ hj _ (Or.inr (Or.inr (Or.inl rfl)))
    have hvl : ∀ j ∈ v.ids, j ≠ leaf :=
      fun j hj => nd3 _ hj _ (Or.inr (Or.inr (Or.inr (Or.inl rfl))))
    have hupv : s.up v.id = c.up := by rw [← ruv, (hsame _ hvnp).1]
    have hupc : ∀ p, c.up = some p → p < s1.size := by
      intro p hp
      cases c with
      | nil => simp at hp
      | cons f c => simp at hp; exact hp ▸ rc.1
    -- the state with the new parent written
    have hctx2 : RepCtx { s1 with
        up := upd s1.up np c.up, box := upd s1.box np (Box.enclosing (s1.box v.id) (s.box leaf)),
        height := upd s1.height np (s1.height v.id + 1) } v.id c := by
      refine RepCtx.same (s := s1) ncx (Nat.le_refl _) rfl ?_ rc
      intro j hj
      simp [Same, upd_apply, hcnp j hj]
    obtain ⟨s3, q1, q2, q3, q4, q5, q6, q7, q8, _⟩ :=
      redirect_spec (x := np) hctx2 ncx (hvc _ iv)
    have hnpI : np ∉ c.internals := fun hh => hcnp _ (Ctx.internals_sub hh) rfl
    have hlfI : leaf ∉ c.internals := fun hh => hclf _ (Ctx.internals_sub hh) rfl
    have hAt : At { s3 with
        c1 := upd s3.c1 np (some v.id), c2 := upd s3.c2 np (some leaf),
        up := upd (upd s3.up v.id (some np)) leaf (some np) } c np v (.leaf leaf) := by
      have hnplt : np < s1.size := (hI.cover np).2 (by simp)
      refine ⟨by simpa [q6] using hnplt, by simp, by simp, ?_, ?_, by simp, ?_, ?_, ?_, ?_⟩
      · simp [upd_apply, hvnp.symm, nnl, q3]
      · simp [upd_apply, hvlf]
      · refine Rep.congr (s := s1) nv (by simp [q6]) ?_ ?_ ?_ ?_ ?_ rv
        · intro j hj
          have := (q8 j (fun hh => hvc j hj (Ctx.internals_sub hh))).1
          simpa [upd_apply, hvn j hj] using this
        · intro j hj _
          have := (q8 j (fun hh => hvc j hj (Ctx.internals_sub hh))).2
          simpa [upd_apply, hvn j hj] using this
        · intro j hj; simp [q4, upd_apply, hvn j hj]
        · intro j hj; simp [q5, upd_apply, hvn j hj]
        · intro j hj hne; simp [upd_apply, hvn j hj, hvl j hj, hne, q3]
      · refine ⟨by simpa [q6] using hlt1, ?_, ?_⟩
        · have := (q8 leaf hlfI).1
          have e := (hsame leaf (Ne.symm nnl)).2.1
          simp [upd_apply, Ne.symm nnl, this, e, hl1]
        · have e := (hsame leaf (Ne.symm nnl)).2.2.2.2
          simp [q5, upd_apply, Ne.symm nnl, e, hl2]
      · refine RepCtx.same (s := s3) ncx (Nat.le_refl _) rfl ?_ q2
        intro j hj
        have e1 : j ≠ v.id := by rintro rfl; exact hvc _ iv hj
        simp [Same, upd_apply, hcnp j hj, hclf j hj, e1]
      · simp only [List.nodup_append, List.nodup_cons, List.mem_cons, List.mem_append, T.ids,
          List.not_mem_nil, not_or]
        grind
    have hfuel : c.length < s3.size + 1 := by
      have h1 := Ctx.length_le c
      have h2 := h.ids_length
      have h3 := hids.length_eq
      simp only [List.length_append] at h3
      have h4 : s3.size = s1.size := q6
      omega
    obtain ⟨s', t', w1, w2, w3, w4, w5, w6, w7, w8, w9, w10⟩ := refit_full hAt hfuel
    have hlast : insert ch s leaf = some s' := by
      unfold insert
      simp only [chk_some hlt, Option.bind_some, hroot, best]
      rw [hbest]
      simp only [Option.bind_some, ha, hupv]
      have hnpl : np ≠ leaf := nnl
      cases c with
      | nil =>
        simp only [redirect, Ctx.up_nil, Option.some.injEq] at q1 ⊢
        subst q1
        simpa using w1
      | cons f c =>
        have hp := hupc f.id rfl
        simp only [Ctx.up_cons]
        rw [chk_some (by exact hp)]
        simp only [Option.bind_some]
        simp only [redirect, Ctx.up_cons] at q1
        rw [chk_some (by exact hp)] at q1
        simp only [Option.bind_some] at q1
        split at q1
        · rename_i hc
          rw [if_pos hc]
          simp only [Option.some.injEq] at q1
          subst q1
          simpa using w1
        · rename_i hc
          rw [if_neg hc]
          split at q1
          · simp only [Option.some.injEq] at q1
            subst q1
            simpa using w1
          · simp at q1
    refine ⟨s', t', fl', hlast, ⟨?_, ?_, ?_, w2, ?_⟩, ?_, ?_⟩
    · rw [w8]
      show FreeChain s' s3.freeList fl'
      rw [q7]
      refine FreeChain.congr hI.chain ?_ ?_
      · have : s'.size = s3.size := w7
        have : s3.size = s1.size := q6
        omega
      · intro j hj
        have e1 : j ≠ np := nd1 j hj _ (Or.inl rfl)
        have e2 : j ≠ leaf := nd1 j hj _ (Or.inr (Or.inl rfl))
        have e3 : j ∉ v.ids := fun hh => nd3 j hh j (Or.inr (Or.inl hj)) rfl
        have e4 : j ∉ Ctx.ids c := fun hh => nd2 j hh j (Or.inl hj) rfl
        have e5 : j ≠ v.id := fun e => e3 (e ▸ iv)
        have hn : j ∉ t'.ids := by
          rw [w5.mem_iff]
          simp [e1, e2, e3, e4]
        have := (w9 j hn).1
        simpa [upd_apply, e1, e2, e5, q3] using this
    · refine (List.Perm.nodup_iff ?_).1 hI.nodup
      rw [List.perm_iff_count]; intro z
      have h1 := hids.count_eq z
      have h2 := w5.count_eq z
      simp only [idsO, T.ids, List.count_append, List.count_cons, List.count_nil] at *
      omega
    · intro i
      have h1 : s'.size = s1.size := w7.trans q6
      rw [h1, hI.cover i]
      have h2 := @(hids.mem_iff (a := i))
      have h3 := @(w5.mem_iff (a := i))
      simp only [idsO, List.mem_append, List.mem_cons, T.ids, List.not_mem_nil] at *
      grind
    · intro t0 ht0
      obtain rfl : t' = t0 := by simpa using ht0
      exact ⟨w3, w4⟩
    · refine w6.trans ?_
      rw [List.perm_iff_count]; intro z
      have h1 := hlv.count_eq z
      simp only [leavesO, T.leaves, List.count_append, List.count_cons, List.count_nil] at *
      omega
    · intro j hj
      have hj2 := w6.mem_iff.1 hj
      simp only [List.mem_append, T.leaves, List.mem_cons, List.not_mem_nil, or_false] at hj2
      obtain ⟨b1, b2⟩ := w10 j hj
      have e1 : j ≠ np := by
        rcases hj2 with h | h | h
        · exact hvn j (T.leaves_sub h)
        · rw [h]; exact Ne.symm nnl
        · exact hcnp j (Ctx.leaves_sub h)
      have e2 : j ∉ c.internals := by
        rcases hj2 with h | h | h
        · exact fun hh => hvc j (T.leaves_sub h) (Ctx.internals_sub hh)
        · rw [h]; exact hlfI
        · intro hh
          have := (Ctx.ids_perm c).nodup_iff.1 ncx
          exact (List.nodup_append.1 this).2.2 j h j hh rfl
      have k1 := (q8 j e2).2
      have k2 := hsame j e1
      constructor
      · rw [b1]; simp [q4, upd_apply, e1, hb1]
      · rw [b2]; simp [upd_apply, e1, k1, k2.2.2.1]

end Edyn.DynTree
