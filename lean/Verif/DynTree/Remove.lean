import Verif.DynTree.Ops

namespace Edyn.DynTree

variable {S : Type} [LinearOrder S]

theorem Ctx.plug_cons_id_mem (f : Frame) (c : Ctx) (u : T) :
    (Ctx.plug (f :: c) u).id ∈ f.id :: c.map Frame.id := by
  induction c generalizing f u with
  | nil =>
    obtain ⟨i, b, sib⟩ := f
    cases b <;> simp
  | cons g c ih =>
    obtain ⟨i, b, sib⟩ := f
    have := ih g (if b then .node i u sib else .node i sib u)
    simp only [Ctx.plug] at this ⊢
    exact List.mem_cons_of_mem _ this

theorem Ctx.plug_id_mem {c : Ctx} (hc : c ≠ []) (u : T) : (c.plug u).id ∈ c.ids := by
  obtain ⟨f, c, rfl⟩ : ∃ f c', c = f :: c' := by
    cases c with
    | nil => exact absurd rfl hc
    | cons f c => exact ⟨f, c, rfl⟩
  have h := Ctx.plug_cons_id_mem f c u
  have hsub : ∀ (c : Ctx) (j : Nat), j ∈ c.map Frame.id → j ∈ c.ids := by
    intro c j hj
    induction c with
    | nil => simp at hj
    | cons f c ih =>
      simp at hj ⊢
      rcases hj with h | h
      · exact Or.inl h
      · exact Or.inr (Or.inr (ih (by simpa using h)))
  exact hsub (f :: c) _ (by simpa using h)

/-- Replacing the tree below a hole: `remove`'s reconnection of the sibling. -/
theorem remove_spec {s : State S} {t : T} {fl ex : List Nat} {leaf : Nat}
    (h : Inv s (some t) fl ex) (hl : leaf ∈ t.leaves) :
    ∃ s' ot' fl', remove s leaf = some s' ∧ Inv s' ot' fl' (leaf :: ex) ∧
      (leaf :: leavesO ot').Perm t.leaves ∧ s'.c1 leaf = none ∧ s'.height leaf = 0 ∧
      s'.size = s.size ∧
      (∀ j ∈ t.leaves, s'.box j = s.box j ∧ s'.c2 j = s.c2 j) := by
  obtain ⟨c, hc⟩ := exists_ctx_leaf hl
  have hroot : s.root = some t.id := h.root
  obtain ⟨hupt, hrept⟩ := h.rep t rfl
  have hids : t.ids.Perm ((T.leaf leaf).ids ++ c.ids) := hc ▸ Ctx.plug_ids c _
  have hlv : t.leaves.Perm ((T.leaf leaf).leaves ++ c.leaves) := hc ▸ Ctx.plug_leaves c _
  have hnd : (leaf :: (c.ids ++ (fl ++ ex))).Nodup := by
    refine (List.Perm.nodup_iff ?_).1 h.nodup
    have := hids.append_right (fl ++ ex)
    simpa [idsO] using this
  have hrs := hc ▸ hrept
  obtain ⟨rl, rc, ru⟩ := Rep.split hrs (by rw [← hc]; exact hroot) (by rw [← hc]; exact hupt)
  obtain ⟨hlt, hl1, hl2⟩ := rl
  simp only [T.id_leaf] at rc ru
  cases c with
  | nil =>
    simp only [Ctx.plug] at hc
    subst hc
    refine ⟨{ s with root := none }, none, fl, ?_, ⟨FreeChain.congr h.chain (Nat.le_refl _) (fun _ _ => rfl), ?_, ?_, rfl, by simp⟩, ?_, hl1, hl2,
      rfl, ?_⟩
    · simp [remove, hroot]
    · refine (List.Perm.nodup_iff ?_).1 h.nodup
      rw [List.perm_iff_count]; intro z
      simp only [idsO, T.ids, List.count_append, List.count_cons, List.count_nil]; omega
    · intro i
      rw [show ({ s with root := none } : State S).size = s.size from rfl, h.cover i]
      simp only [idsO, T.ids, List.mem_append, List.mem_cons]; grind
    · simp [leavesO]
    · simp
  | cons f c =>
    obtain ⟨p, b, sib⟩ := f
    obtain ⟨k1, k2, k3, k4, k5, k6⟩ := rc
    simp only [Ctx.up_cons] at ru
    have isib := sib.id_mem
    have hnd0 := hnd
    simp only [Ctx.ids, List.nodup_append, List.nodup_cons, List.mem_cons, List.mem_append, not_or,
      List.cons_append] at hnd
    obtain ⟨⟨⟨nlp, nls, nlc⟩, nlf, nle⟩, ⟨⟨⟨nps, npc⟩, npf, npe⟩, ⟨nsib, ncx, ndsc⟩, ⟨nfl, nex, ndf⟩,
      nd3⟩⟩ : ((leaf ≠ p ∧ leaf ∉ sib.ids ∧ leaf ∉ Ctx.ids c) ∧ leaf ∉ fl ∧ leaf ∉ ex) ∧
        (((p ∉ sib.ids ∧ p ∉ Ctx.ids c) ∧ p ∉ fl ∧ p ∉ ex) ∧
          (sib.ids.Nodup ∧ (Ctx.ids c).Nodup ∧ ∀ a ∈ sib.ids, ∀ b ∈ Ctx.ids c, a ≠ b) ∧
          (fl.Nodup ∧ ex.Nodup ∧ ∀ a ∈ fl, ∀ b ∈ ex, a ≠ b) ∧
          (∀ a, a ∈ sib.ids ∨ a ∈ Ctx.ids c → ∀ b, b ∈ fl ∨ b ∈ ex → a ≠ b)) := by
      grind
    have hsl : sib.id ≠ leaf := fun e => nls (e ▸ isib)
    have hsp : sib.id ≠ p := fun e => nps (e ▸ isib)
    have hroot_ne : t.id ≠ leaf := by
      rw [hc]
      have := Ctx.plug_id_mem (c := ⟨p, b, sib⟩ :: c) (by simp) (.leaf leaf)
      intro e
      rw [e] at this
      simp only [Ctx.ids, List.mem_cons, List.mem_append] at this
      rcases this with h | h | h
      · exact nlp h
      · exact nls h
      · exact nlc h
    have hchild : (if s.c1 p = some leaf then s.c2 p else s.c1 p) = some sib.id := by
      cases b
      · simp at k2; simp [k2, hsl]
      · simp at k2; simp [k2]
    have hstart : remove s leaf =
        if s.root = some p then
          some (free { s with root := some sib.id, up := upd s.up sib.id none } p)
        else
          (chk s (s.up p)).bind fun grandpa =>
          let s1 := if s.c1 grandpa = some p
            then { s with c1 := upd s.c1 grandpa (some sib.id) }
            else { s with c2 := upd s.c2 grandpa (some sib.id) }
          let s2 := free { s1 with up := upd s1.up sib.id (s1.up p) } p
          refit (s2.size + 1) s2 (some grandpa) := by
      unfold remove
      have : s.root ≠ some leaf := by rw [hroot]; simpa using hroot_ne
      simp only [if_neg this, chk_some hlt, Option.bind_some, ru, chk_some k1, hchild,
        chk_some k4.lt]
    cases c with
    | nil =>
      have hrp : s.root = some p := k6
      have hI1 : Inv { s with root := some sib.id, up := upd s.up sib.id none } (some sib) fl
          (p :: leaf :: ex) := by
        refine ⟨?_, ?_, ?_, rfl, ?_⟩
        · refine FreeChain.congr h.chain (Nat.le_refl _) ?_
          intro j hj
          have : j ≠ sib.id := fun e => nd3 sib.id (Or.inl isib) j (Or.inl hj) e.symm
          simp [upd_apply, this]
        · refine (List.Perm.nodup_iff ?_).1 hnd0
          rw [List.perm_iff_count]; intro z
          simp only [idsO, Ctx.ids, List.count_append, List.count_cons, List.count_nil]; omega
        · intro i
          have h1 := h.cover i
          have h2 := @(hids.mem_iff (a := i))
          simp only [idsO, List.mem_append, List.mem_cons, T.ids, List.not_mem_nil, Ctx.ids] at *
          rw [h1]; grind
        · intro t0 ht0
          obtain rfl : sib = t0 := by simpa using ht0
          refine ⟨by simp, Rep.congr (s := s) nsib (Nat.le_refl _) (by simp) (by simp) (by simp)
            (by simp) ?_ k4⟩
          intro j _ hne
          simp [upd_apply, hne]
      have hlvs : (leaf :: sib.leaves).Perm t.leaves := by
        refine List.Perm.trans ?_ hlv.symm
        simp
      refine ⟨_, some sib, p :: fl, hstart.trans (if_pos hrp), free_spec hI1, hlvs, ?_, ?_, rfl, ?_⟩
      · simpa [free] using hl1
      · simp [free, upd_apply, nlp, hl2]
      · intro j hj
        have hj2 := hlvs.mem_iff.2 hj
        have : j ≠ p := by
          rcases List.mem_cons.1 hj2 with e | e
          · rw [e]; exact nlp
          · exact fun e' => nps (e' ▸ T.leaves_sub e)
        simp [free, upd_apply, this]
    | cons g c =>
      have hrp : s.root ≠ some p := by
        rw [hroot, hc]
        have := Ctx.plug_id_mem (c := g :: c) (by simp)
          (if b = true then T.node p (.leaf leaf) sib else T.node p sib (.leaf leaf))
        intro e
        simp only [Option.some.injEq] at e
        apply npc
        rw [← e]
        exact this
      have hgl := k6.1
      simp only [Ctx.up_cons] at k5
      obtain ⟨s1, q1, q2, q3, q4, q5, q6, q7, q8, q9⟩ := redirect_spec (x := sib.id) k6 ncx npc
      have hq9 := q9 (by simp)
      have hs1 : (if s.c1 g.id = some p then { s with c1 := upd s.c1 g.id (some sib.id) }
          else { s with c2 := upd s.c2 g.id (some sib.id) }) = s1 := by
        simp only [redirect, Ctx.up_cons] at q1
        rw [chk_some hgl] at q1
        simp only [Option.bind_some] at q1
        split at q1
        · rename_i hx
          rw [if_pos hx]; simpa using q1
        · rename_i hx
          rw [if_neg hx]
          split at q1
          · simpa using q1
          · simp at q1
      have hrem : remove s leaf = refit (s1.size + 1)
          (free { s1 with up := upd s1.up sib.id (s1.up p) } p) (some g.id) := by
        rw [hstart, if_neg hrp, k5, chk_some hgl]
        simp only [Option.bind_some, hs1]
        rfl
      -- `sib` and the rest of the path in the state before `refit`
      have hF : ∀ j, j ≠ p → j ≠ sib.id →
          Same s1 (free { s1 with up := upd s1.up sib.id (s1.up p) } p) j := by
        intro j h1 h2
        simp [Same, free, upd_apply, h1, h2]
      obtain ⟨gi, gb, gs⟩ := g
      obtain ⟨m1, m2, m3, m4, m5, m6⟩ := q2
      have hgp : gi ≠ p := fun e => npc (by simp [← e])
      have hgsib : gi ≠ sib.id := fun e => ndsc sib.id isib gi (by simp) e.symm
      have igs := gs.id_mem
      have ncx' := ncx
      simp only [Ctx.ids, List.nodup_cons, List.nodup_append, List.mem_append, not_or] at ncx'
      obtain ⟨⟨ng1, ng2⟩, ng3, ng4, ng5⟩ := ncx'
      have hgsp : ∀ j ∈ gs.ids, j ≠ p := fun j hj e => npc (by simp [← e, hj])
      have hgss : ∀ j ∈ gs.ids, j ≠ sib.id := fun j hj e => ndsc sib.id isib j (by simp [hj]) e.symm
      have hcp : ∀ j ∈ Ctx.ids c, j ≠ p := fun j hj e => npc (by simp [← e, hj])
      have hcs : ∀ j ∈ Ctx.ids c, j ≠ sib.id := fun j hj e => ndsc sib.id isib j (by simp [hj]) e.symm
      have hsI : ∀ j ∈ sib.ids, j ∉ Ctx.internals (⟨gi, gb, gs⟩ :: c) :=
        fun j hj hh => ndsc j hj j (Ctx.internals_sub hh) rfl
      have hrsib : Rep (free { s1 with up := upd s1.up sib.id (s1.up p) } p) sib := by
        refine Rep.congr (s := s) nsib (by simp [free, q6]) ?_ ?_ ?_ ?_ ?_ k4
        · intro j hj; simpa [free] using (q8 j (hsI j hj)).1
        · intro j hj _
          have : j ≠ p := fun e => nps (e ▸ hj)
          simpa [free, upd_apply, this] using (q8 j (hsI j hj)).2
        · intro j hj; simp [free, q4]
        · intro j hj
          have : j ≠ p := fun e => nps (e ▸ hj)
          simp [free, upd_apply, this, q5]
        · intro j hj hne
          have : j ≠ p := fun e => nps (e ▸ hj)
          simp [free, upd_apply, this, hne, q3]
      have hrgs : Rep (free { s1 with up := upd s1.up sib.id (s1.up p) } p) gs :=
        Rep.same (s := s1) ng3 (by simp [free]) (fun j hj => hF j (hgsp j hj) (hgss j hj)) m4
      have hrc : RepCtx (free { s1 with up := upd s1.up sib.id (s1.up p) } p) gi c :=
        RepCtx.same (s := s1) ng4 (by simp [free]) rfl (fun j hj => hF j (hcp j hj) (hcs j hj)) m6
      have hupsib : (free { s1 with up := upd s1.up sib.id (s1.up p) } p).up sib.id = some gi := by
        simp [free, upd_apply, hsp, q3, k5]
      have hupgs : (free { s1 with up := upd s1.up sib.id (s1.up p) } p).up gs.id = some gi := by
        rw [(hF gs.id (hgsp _ igs) (hgss _ igs)).1]; exact m3
      have hupgi : (free { s1 with up := upd s1.up sib.id (s1.up p) } p).up gi = Ctx.up c := by
        rw [(hF gi hgp hgsib).1]; exact m5
      have hfuel : c.length < s1.size + 1 := by
        have h1 := Ctx.length_le c
        have h2 := h.ids_length
        have h3 := hids.length_eq
        simp only [List.length_append, Ctx.ids, List.length_cons] at h3
        have h4 : s1.size = s.size := q6
        omega
      have hndat : ∀ x y : T, (x = sib ∧ y = gs ∨ x = gs ∧ y = sib) →
          (gi :: (x.ids ++ (y.ids ++ Ctx.ids c))).Nodup := by
        intro x y hxy
        have hb : (gi :: (sib.ids ++ (gs.ids ++ Ctx.ids c))).Nodup := by
          simp only [List.nodup_cons, List.nodup_append, List.mem_append, not_or]
          have e1 : gi ∉ sib.ids := fun hh => ndsc gi hh gi (by simp) rfl
          have e2 : ∀ a ∈ sib.ids, ∀ b, b ∈ gs.ids ∨ b ∈ Ctx.ids c → a ≠ b := by
            intro a ha b' hb'
            exact ndsc a ha b' (by simp only [Ctx.ids, List.mem_cons, List.mem_append]; exact Or.inr hb')
          exact ⟨⟨e1, ng1, ng2⟩, nsib, ⟨ng3, ng4, ng5⟩, e2⟩
        rcases hxy with ⟨rfl, rfl⟩ | ⟨rfl, rfl⟩
        · exact hb
        · refine (List.Perm.nodup_iff ?_).1 hb
          rw [List.perm_iff_count]; intro z
          simp only [List.count_append, List.count_cons]; omega
      -- run `refit`
      obtain ⟨x, y, hxy, hAt⟩ : ∃ x y : T, (x = sib ∧ y = gs ∨ x = gs ∧ y = sib) ∧
          At (free { s1 with up := upd s1.up sib.id (s1.up p) } p) c gi x y := by
        cases gb
        · simp at m2
          refine ⟨gs, sib, Or.inr ⟨rfl, rfl⟩, ⟨by simpa [free] using m1, by simpa [free] using m2.1, ?_,
            hupgi, hupgs, hupsib, hrgs, hrsib, hrc, hndat _ _ (Or.inr ⟨rfl, rfl⟩)⟩⟩
          simp [free, upd_apply, hgp, m2.2]
        · simp at m2
          refine ⟨sib, gs, Or.inl ⟨rfl, rfl⟩, ⟨by simpa [free] using m1, by simpa [free] using m2.1, ?_,
            hupgi, hupsib, hupgs, hrsib, hrgs, hrc, hndat _ _ (Or.inl ⟨rfl, rfl⟩)⟩⟩
          simp [free, upd_apply, hgp, m2.2]
      obtain ⟨s', t', w1, w2, w3, w4, w5, w6, w7, w8, w9, w10⟩ := refit_full hAt hfuel
      have hsize : s'.size = s.size := w7.trans q6
      have w5' : t'.ids.Perm (gi :: (sib.ids ++ (gs.ids ++ Ctx.ids c))) := by
        refine w5.trans ?_
        rcases hxy with ⟨rfl, rfl⟩ | ⟨rfl, rfl⟩
        · exact List.Perm.refl _
        · rw [List.perm_iff_count]; intro z
          simp only [List.count_append, List.count_cons]; omega
      have w6' : t'.leaves.Perm (sib.leaves ++ (gs.leaves ++ Ctx.leaves c)) := by
        refine w6.trans ?_
        rcases hxy with ⟨rfl, rfl⟩ | ⟨rfl, rfl⟩
        · exact List.Perm.refl _
        · rw [List.perm_iff_count]; intro z
          simp only [List.count_append]; omega
      have hlvs : (leaf :: t'.leaves).Perm t.leaves := by
        rw [List.perm_iff_count]; intro z
        have h1 := hlv.count_eq z
        have h2 := w6'.count_eq z
        simp only [T.leaves, Ctx.leaves, List.count_append, List.count_cons, List.count_nil] at *
        omega
      have hlt' : leaf ∉ t'.ids := by
        rw [w5'.mem_iff]
        intro hh
        simp only [List.mem_cons, List.mem_append] at hh
        simp only [Ctx.ids, List.mem_cons, List.mem_append, not_or] at nlc
        grind
      have hli : leaf ∉ Ctx.internals (⟨gi, gb, gs⟩ :: c) := fun hh => nlc (Ctx.internals_sub hh)
      have hsl' := w9 leaf hlt'
      refine ⟨s', some t', p :: fl, by rw [hrem]; exact w1, ⟨?_, ?_, ?_, w2, ?_⟩, hlvs, ?_, ?_, hsize,
        ?_⟩
      · rw [w8]
        refine ⟨rfl, by rw [hsize]; exact k1, ?_⟩
        have hpn : p ∉ t'.ids := by
          rw [w5'.mem_iff]
          intro hh
          simp only [List.mem_cons, List.mem_append] at hh
          simp only [Ctx.ids, List.mem_cons, List.mem_append, not_or] at npc
          grind
        have : s'.up p = s.freeList := by
          rw [(w9 p hpn).1]; simp [free, q7]
        rw [this]
        refine FreeChain.congr h.chain (by omega) ?_
        intro j hj
        have e1 : j ≠ p := fun e => npf (e ▸ hj)
        have e2 : j ≠ sib.id := fun e => nd3 sib.id (Or.inl isib) j (Or.inl hj) e.symm
        have hn : j ∉ t'.ids := by
          rw [w5'.mem_iff]
          intro hh
          simp only [List.mem_cons, List.mem_append] at hh
          rcases hh with hh | hh | hh | hh
          · exact nd3 j (Or.inr (by simp [hh])) j (Or.inl hj) rfl
          · exact nd3 j (Or.inl hh) j (Or.inl hj) rfl
          · exact nd3 j (Or.inr (by simp [hh])) j (Or.inl hj) rfl
          · exact nd3 j (Or.inr (by simp [hh])) j (Or.inl hj) rfl
        rw [(w9 j hn).1, (hF j e1 e2).1, q3]
      · refine (List.Perm.nodup_iff ?_).1 hnd0
        rw [List.perm_iff_count]; intro z
        have h1 := w5'.count_eq z
        simp only [idsO, Ctx.ids, List.count_append, List.count_cons] at *; omega
      · intro i
        have h1 := h.cover i
        have h2 := @(hids.mem_iff (a := i))
        have h3 := @(w5'.mem_iff (a := i))
        simp only [idsO, List.mem_append, List.mem_cons, T.ids, List.not_mem_nil, Ctx.ids] at *
        rw [hsize, h1]; grind
      · intro t0 ht0
        obtain rfl : t' = t0 := by simpa using ht0
        exact ⟨w3, w4⟩
      · rw [hsl'.2.1]
        have := (q8 leaf hli).1
        simpa [free, this] using hl1
      · rw [hsl'.2.2.2.2]
        simp [free, upd_apply, nlp, q5, hl2]
      · intro j hj
        have hj2 := hlvs.mem_iff.2 hj
        have hjp : j ≠ p := by
          rintro rfl
          rcases List.mem_cons.1 hj2 with e | e
          · exact nlp e.symm
          · have e' := w5'.mem_iff.1 (T.leaves_sub e)
            simp only [List.mem_cons, List.mem_append] at e'
            simp only [Ctx.ids, List.mem_cons, List.mem_append, not_or] at npc
            grind
        have hji : j ∉ Ctx.internals (⟨gi, gb, gs⟩ :: c) := by
          have hnt : t.ids.Nodup := (List.nodup_append.1 h.nodup).1
          intro hh
          have hp : t.ids.Perm (t.leaves ++
              (p :: (sib.internals ++ Ctx.internals (⟨gi, gb, gs⟩ :: c)))) := by
            refine hids.trans ?_
            rw [List.perm_iff_count]; intro z
            have h1 := hlv.count_eq z
            have h2 := (T.ids_perm sib).count_eq z
            have h3 := (T.ids_perm gs).count_eq z
            have h4 := (Ctx.ids_perm c).count_eq z
            simp only [T.ids, T.leaves, Ctx.ids, Ctx.leaves, Ctx.internals, List.count_append,
              List.count_cons, List.count_nil] at *
            omega
          have := (List.nodup_append.1 (hp.nodup_iff.1 hnt)).2.2 j hj j
            (by simp only [List.mem_cons, List.mem_append]; exact Or.inr (Or.inr hh))
          exact this rfl
        have base : s'.box j = (free { s1 with up := upd s1.up sib.id (s1.up p) } p).box j ∧
            s'.c2 j = (free { s1 with up := upd s1.up sib.id (s1.up p) } p).c2 j := by
          rcases List.mem_cons.1 hj2 with e | e
          · rw [e]; exact ⟨hsl'.2.2.2.1, hsl'.2.2.1⟩
          · exact w10 j e
        rw [base.1, base.2]
        simp [free, upd_apply, hjp, q4, (q8 j hji).2]

end Edyn.DynTree
