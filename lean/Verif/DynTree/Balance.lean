import Verif.DynTree.Rep

/-!
# `balance` and `refit` keep the represented tree
-/

namespace Edyn.DynTree

variable {S : Type} [LinearOrder S]

omit [LinearOrder S] in
theorem chk_some {s : State S} {i : Nat} (h : i < s.size) : chk s (some i) = some i := by
  simp [chk, h]

/-- Redirecting the parent of the hole to another node. -/
theorem redirect_spec {s : State S} {c : Ctx} {a x : Nat} (h : RepCtx s a c) (hnd : c.ids.Nodup)
    (ha : a ∉ c.ids) :
    ∃ s2, redirect s c.up a x = some s2 ∧ RepCtx s2 x c ∧ s2.up = s.up ∧ s2.box = s.box ∧
      s2.height = s.height ∧ s2.size = s.size ∧ s2.freeList = s.freeList ∧
      (∀ j, j ∉ c.internals → s2.c1 j = s.c1 j ∧ s2.c2 j = s.c2 j) ∧
      (c ≠ [] → s2.root = s.root) := by
  cases c with
  | nil => exact ⟨{ s with root := some x }, rfl, rfl, rfl, rfl, rfl, rfl, rfl, by simp, by simp⟩
  | cons f c =>
    obtain ⟨i, b, sib⟩ := f
    obtain ⟨h1, h2, h3, h4, h5, h6⟩ := h
    simp only [Ctx.ids, List.nodup_cons, List.mem_append, List.nodup_append, List.mem_cons,
      not_or] at hnd ha
    obtain ⟨⟨hn0, hn1⟩, hn2, hn3, hn4⟩ := hnd
    have hsib := sib.id_mem
    have hsa : sib.id ≠ a := fun e => ha.2.1 (e ▸ hsib)
    have hI : ∀ j ∈ sib.internals, j ∈ sib.ids := fun j hj => T.internals_sub hj
    cases b
    · simp at h2
      refine ⟨{ s with c2 := upd s.c2 i (some x) }, ?_, ?_, rfl, rfl, rfl, rfl, rfl, ?_, by simp⟩
      · simp [redirect, chk_some h1, h2, hsa]
      · refine ⟨h1, by simp [h2], h3, ?_, h5, ?_⟩
        · refine Rep.congr (s := s) hn2 (Nat.le_refl _) (by simp) ?_ (by simp) (by simp) (by simp) h4
          intro j hj _
          have : j ≠ i := by rintro rfl; exact hn0 hj
          simp [upd_apply, this]
        · refine RepCtx.same (s := s) hn3 (Nat.le_refl _) rfl ?_ h6
          intro j hj
          have : j ≠ i := by rintro rfl; exact hn1 hj
          simp [Same, upd_apply, this]
      · intro j hj
        simp at hj
        simp [upd_apply, hj.1]
    · simp at h2
      refine ⟨{ s with c1 := upd s.c1 i (some x) }, ?_, ?_, rfl, rfl, rfl, rfl, rfl, ?_, by simp⟩
      · simp [redirect, chk_some h1, h2]
      · refine ⟨h1, by simp [h2], h3, ?_, h5, ?_⟩
        · refine Rep.congr (s := s) hn2 (Nat.le_refl _) ?_ (by simp) (by simp) (by simp) (by simp) h4
          intro j hj
          have : j ≠ i := by rintro rfl; exact hn0 hj
          simp [upd_apply, this]
        · refine RepCtx.same (s := s) hn3 (Nat.le_refl _) rfl ?_ h6
          intro j hj
          have : j ≠ i := by rintro rfl; exact hn1 hj
          simp [Same, upd_apply, this]
      · intro j hj
        simp at hj
        simp [upd_apply, hj.1]

/-- Outside the tree nothing changes, and at nodes which are not internal the children fields and
the box do not change. -/
def Frames (s s' : State S) (ids internals : List Nat) : Prop :=
  s'.size = s.size ∧ s'.freeList = s.freeList ∧
  (∀ j, j ∉ ids → s'.up j = s.up j ∧ s'.height j = s.height j) ∧
  (∀ j, j ∉ internals → s'.c1 j = s.c1 j ∧ s'.c2 j = s.c2 j ∧ s'.box j = s.box j)

omit [LinearOrder S] in
theorem Frames.refl (s : State S) (a b : List Nat) : Frames s s a b :=
  ⟨rfl, rfl, fun _ _ => ⟨rfl, rfl⟩, fun _ _ => ⟨rfl, rfl, rfl⟩⟩

omit [LinearOrder S] in
theorem Frames.trans {s s' s'' : State S} {a a' b b' : List Nat} (h : Frames s s' a b)
    (h' : Frames s' s'' a' b') (ha : ∀ j ∈ a', j ∈ a) (hb : ∀ j ∈ b', j ∈ b) :
    Frames s s'' a b := by
  obtain ⟨h1, h2, h3, h4⟩ := h
  obtain ⟨k1, k2, k3, k4⟩ := h'
  refine ⟨k1.trans h1, k2.trans h2, fun j hj => ?_, fun j hj => ?_⟩
  · have x := h3 j hj
    have y := k3 j (fun hh => hj (ha j hh))
    exact ⟨y.1.trans x.1, y.2.trans x.2⟩
  · have x := h4 j hj
    have y := k4 j (fun hh => hj (hb j hh))
    exact ⟨y.1.trans x.1, y.2.1.trans x.2.1, y.2.2.trans x.2.2⟩

/-- The situation of `refit` at a node: its children and its path are represented, its own box and
height may be stale. -/
structure At (s : State S) (c : Ctx) (i : Nat) (l r : T) : Prop where
  lt : i < s.size
  c1 : s.c1 i = some l.id
  c2 : s.c2 i = some r.id
  up : s.up i = c.up
  upl : s.up l.id = some i
  upr : s.up r.id = some i
  repl : Rep s l
  repr : Rep s r
  ctx : RepCtx s i c
  nodup : (i :: (l.ids ++ (r.ids ++ c.ids))).Nodup

theorem redirect_ctx {s : State S} {c : Ctx} {a x : Nat} (h : RepCtx s a c) (hnd : c.ids.Nodup)
    (ha : a ∉ c.ids) (p : Option Nat) (hp : p = c.up) :
    ∃ s2, redirect s p a x = some s2 ∧ RepCtx s2 x c ∧ s2.up = s.up ∧ s2.box = s.box ∧
      s2.height = s.height ∧ s2.size = s.size ∧ s2.freeList = s.freeList ∧
      (∀ j, j ∉ c.internals → s2.c1 j = s.c1 j ∧ s2.c2 j = s.c2 j) := by
  obtain ⟨s2, h1, h2, h3, h4, h5, h6, h7, h8, _⟩ := redirect_spec (x := x) h hnd ha
  exact ⟨s2, hp ▸ h1, h2, h3, h4, h5, h6, h7, h8⟩

theorem Ctx.internals_sub {c : Ctx} {x : Nat} (h : x ∈ c.internals) : x ∈ c.ids := by
  induction c with
  | nil => simp at h
  | cons f c ih =>
    simp at h ⊢
    rcases h with h | h | h
    · exact Or.inl h
    · exact Or.inr (Or.inl (T.internals_sub h))
    · exact Or.inr (Or.inr (ih h))

/-- Rotation of the right child up (`dynamic_tree.cpp:240-287`): the state after it. -/
theorem rotate_right_up {s : State S} {ctx : Ctx} {a c : Nat} {l f g x y : T}
    (h : At s ctx a l (.node c f g)) (hxy : x = f ∧ y = g ∨ x = g ∧ y = f) :
    ∃ s2, redirect { s with c1 := upd s.c1 c (some a), up := upd (upd s.up c (s.up a)) a (some c) }
        (s.up a) a c = some s2 ∧ s2.up = upd (upd s.up c (s.up a)) a (some c) ∧ s2.box = s.box ∧
      s2.height = s.height ∧ s2.size = s.size ∧
      let boxA := Box.enclosing (s2.box l.id) (s2.box y.id)
      let hA := max (s2.height l.id) (s2.height y.id) + 1
      let s3 : State S := { s2 with
        c2 := upd (upd s2.c2 c (some x.id)) a (some y.id), up := upd s2.up y.id (some a),
        box := upd (upd s2.box a boxA) c (Box.enclosing boxA (s2.box x.id)),
        height := upd (upd s2.height a hA) c (max hA (s2.height x.id) + 1) }
      At s3 ctx c (.node a l y) x ∧
      Frames s s3 (a :: c :: (l.ids ++ (f.ids ++ (g.ids ++ ctx.ids)))) (a :: c :: ctx.internals) := by
  obtain ⟨hlt, hc1, hc2, hup, hupl, hupr, hrl, hrr, hctx, hnd⟩ := h
  obtain ⟨k1, k2, k3, k4, k5, k6, k7, k8, k9⟩ := hrr
  have kx : s.up x.id = some c := by rcases hxy with ⟨rfl, rfl⟩ | ⟨rfl, rfl⟩ <;> assumption
  have ky : s.up y.id = some c := by rcases hxy with ⟨rfl, rfl⟩ | ⟨rfl, rfl⟩ <;> assumption
  have rx : Rep s x := by rcases hxy with ⟨rfl, rfl⟩ | ⟨rfl, rfl⟩ <;> assumption
  have ry : Rep s y := by rcases hxy with ⟨rfl, rfl⟩ | ⟨rfl, rfl⟩ <;> assumption
  have hfg : ∀ j, (j ∈ f.ids ∨ j ∈ g.ids) ↔ (j ∈ x.ids ∨ j ∈ y.ids) := by
    rcases hxy with ⟨rfl, rfl⟩ | ⟨rfl, rfl⟩
    · intro j; rfl
    · intro j; exact Or.comm
  have hnd' : (a :: (l.ids ++ (c :: (x.ids ++ y.ids) ++ ctx.ids))).Nodup := by
    rcases hxy with ⟨rfl, rfl⟩ | ⟨rfl, rfl⟩
    · exact hnd
    · refine (List.Perm.nodup_iff ?_).1 hnd
      rw [List.perm_iff_count]; intro z
      simp only [T.ids, List.count_append, List.count_cons]; omega
  clear hxy hnd k4 k5 k6 k7 k8 k9
  have ix := x.id_mem
  have iy := y.id_mem
  have il := l.id_mem
  simp only [List.nodup_cons, List.mem_append, List.nodup_append, List.mem_cons, List.cons_append,
    not_or] at hnd'
  obtain ⟨⟨na1, na2, na3, na4⟩, nl, ⟨nc, ⟨nxy, nctx, nd1⟩⟩, nd2⟩ := hnd'
  obtain ⟨nx, ny, nd3⟩ := nxy
  have hci : c ∉ ctx.internals := fun hh => nc.2 (Ctx.internals_sub hh)
  have hai : a ∉ ctx.internals := fun hh => na4 (Ctx.internals_sub hh)
  have hac : a ≠ c := na2
  have dlc : ∀ j ∈ l.ids, j ≠ c := fun j hj => nd2 j hj c (Or.inl rfl)
  have dlx : ∀ j ∈ l.ids, j ∉ x.ids := fun j hj hx => nd2 j hj j (Or.inr (Or.inl (Or.inl hx))) rfl
  have dly : ∀ j ∈ l.ids, j ∉ y.ids := fun j hj hx => nd2 j hj j (Or.inr (Or.inl (Or.inr hx))) rfl
  have dlt : ∀ j ∈ l.ids, j ∉ ctx.ids := fun j hj hx => nd2 j hj j (Or.inr (Or.inr hx)) rfl
  have dxt : ∀ j ∈ x.ids, j ∉ ctx.ids := fun j hj hx => nd1 j (Or.inl hj) j hx rfl
  have dyt : ∀ j ∈ y.ids, j ∉ ctx.ids := fun j hj hx => nd1 j (Or.inr hj) j hx rfl
  have dxy : ∀ j ∈ x.ids, j ∉ y.ids := fun j hj hx => nd3 j hj j hx rfl
  have hctx1 : RepCtx
      { s with c1 := upd s.c1 c (some a), up := upd (upd s.up c (s.up a)) a (some c) } a ctx := by
    refine RepCtx.same (s := s) nctx (Nat.le_refl _) rfl ?_ hctx
    intro j hj
    have e1 : j ≠ a := by rintro rfl; exact na4 hj
    have e2 : j ≠ c := by rintro rfl; exact nc.2 hj
    simp [Same, upd_apply, e1, e2]
  obtain ⟨s2, r1, r2, r3, r4, r5, r6, r7, r8⟩ := redirect_ctx (x := c) hctx1 nctx na4 (s.up a) hup
  refine ⟨s2, r1, r3, r4, r5, r6, ?_, ?_⟩
  · have lcx : x.id ≠ c := fun e => nc.1.1 (e ▸ ix)
    have lax : x.id ≠ a := fun e => na3.1 (e ▸ ix)
    have lcy : y.id ≠ c := fun e => nc.1.2 (e ▸ iy)
    have lay : y.id ≠ a := fun e => na3.2 (e ▸ iy)
    have lcl : l.id ≠ c := dlc _ il
    have lal : l.id ≠ a := fun e => na1 (e ▸ il)
    have lxy : x.id ≠ y.id := fun e => dxy _ ix (e ▸ iy)
    have lly : l.id ≠ y.id := fun e => dly _ il (e ▸ iy)
    have frame : ∀ j, j ≠ a → j ≠ c → j ∉ ctx.ids → s2.c1 j = s.c1 j ∧ s2.c2 j = s.c2 j := by
      intro j h1 h2 h3
      have := r8 j (fun hh => h3 (Ctx.internals_sub hh))
      simpa [upd_apply, h1, h2] using this
    have sub : ∀ t : T, Rep s t → t.ids.Nodup → (∀ j ∈ t.ids, j ≠ a) → (∀ j ∈ t.ids, j ≠ c) →
        (∀ j ∈ t.ids, j ∉ ctx.ids) → (∀ j ∈ t.ids, j ≠ t.id → j ≠ y.id) →
        Rep { s2 with
          c2 := upd (upd s2.c2 c (some x.id)) a (some y.id), up := upd s2.up y.id (some a),
          box := upd (upd s2.box a (Box.enclosing (s2.box l.id) (s2.box y.id))) c
            (Box.enclosing (Box.enclosing (s2.box l.id) (s2.box y.id)) (s2.box x.id)),
          height := upd (upd s2.height a (max (s2.height l.id) (s2.height y.id) + 1)) c
            (max (max (s2.height l.id) (s2.height y.id) + 1) (s2.height x.id) + 1) } t := by
      intro t ht hn ha' hc' ht' hy'
      refine Rep.congr (s := s) hn (by simp [r6]) ?_ ?_ ?_ ?_ ?_ ht
      · intro j hj; exact (frame j (ha' j hj) (hc' j hj) (ht' j hj)).1
      · intro j hj _; simpa [upd_apply, ha' j hj, hc' j hj] using
          (frame j (ha' j hj) (hc' j hj) (ht' j hj)).2
      · intro j hj; simp [upd_apply, ha' j hj, hc' j hj, r4]
      · intro j hj; simp [upd_apply, ha' j hj, hc' j hj, r5]
      · intro j hj hne; simp [upd_apply, ha' j hj, hc' j hj, hy' j hj hne, r3]
    have Rl := sub l hrl nl (fun j hj e => na1 (e ▸ hj)) dlc dlt
      (fun j hj _ e => dly j hj (e ▸ iy))
    have Rx := sub x rx nx (fun j hj e => na3.1 (e ▸ hj)) (fun j hj e => nc.1.1 (e ▸ hj))
      dxt (fun j hj _ e => dxy j hj (e ▸ iy))
    have Ry := sub y ry ny (fun j hj e => na3.2 (e ▸ hj)) (fun j hj e => nc.1.2 (e ▸ hj))
      dyt (fun j hj hne => hne)
    refine ⟨by simpa [r6] using k1, ?_, ?_, ?_, ?_, ?_, ?_, ?_, ?_, ?_⟩
    · simp [(r8 c hci).1]
    · simp [upd_apply, hac.symm]
    · simp [upd_apply, r3, hac.symm, lcy.symm, hup]
    · simp [upd_apply, r3, lay.symm]
    · simp [upd_apply, r3, lxy, lax, lcx, kx]
    · refine ⟨by simpa [r6] using hlt, ?_, ?_, ?_, ?_, ?_, ?_, Rl, Ry⟩
      · simp [(r8 a hai).1, upd_apply, hac, hc1]
      · simp
      · simp [upd_apply, r3, lly, lal, lcl, hupl]
      · simp
      · simp [upd_apply, hac, lal, lcl, lay, lcy]
      · simp [upd_apply, hac, lal, lcl, lay, lcy]
    · exact Rx
    · refine RepCtx.same (s := s2) nctx (Nat.le_refl _) rfl ?_ r2
      intro j hj
      have e1 : j ≠ a := by rintro rfl; exact na4 hj
      have e2 : j ≠ c := by rintro rfl; exact nc.2 hj
      have e3 : j ≠ y.id := by rintro rfl; exact dyt _ iy hj
      simp [Same, upd_apply, e1, e2, e3]
    · simp only [List.nodup_cons, List.mem_append, List.nodup_append, List.mem_cons, T.ids,
        List.cons_append, not_or]
      grind
  · refine ⟨r6, r7, fun j hj => ?_, fun j hj => ?_⟩
    · simp only [List.mem_cons, List.mem_append, not_or] at hj
      have : j ≠ y.id := by
        rintro rfl
        have := (hfg y.id).2 (Or.inr iy)
        rcases this with h | h
        · exact hj.2.2.2.1 h
        · exact hj.2.2.2.2.1 h
      simp [upd_apply, hj.1, hj.2.1, this, r3, r5]
    · simp only [List.mem_cons, not_or] at hj
      have := r8 j hj.2.2
      simpa [upd_apply, hj.1, hj.2.1, r4] using this

/-- Rotation of the left child up (`dynamic_tree.cpp:289-336`): the state after it. -/
theorem rotate_left_up {s : State S} {ctx : Ctx} {a c : Nat} {l f g x y : T}
    (h : At s ctx a (.node c f g) l) (hxy : x = f ∧ y = g ∨ x = g ∧ y = f) :
    ∃ s2, redirect { s with c1 := upd s.c1 c (some a), up := upd (upd s.up c (s.up a)) a (some c) }
        (s.up a) a c = some s2 ∧ s2.up = upd (upd s.up c (s.up a)) a (some c) ∧ s2.box = s.box ∧
      s2.height = s.height ∧ s2.size = s.size ∧
      let boxA := Box.enclosing (s2.box l.id) (s2.box y.id)
      let hA := max (s2.height l.id) (s2.height y.id) + 1
      let s3 : State S := { s2 with
        c2 := upd s2.c2 c (some x.id), c1 := upd s2.c1 a (some y.id),
        up := upd s2.up y.id (some a),
        box := upd (upd s2.box a boxA) c (Box.enclosing boxA (s2.box x.id)),
        height := upd (upd s2.height a hA) c (max hA (s2.height x.id) + 1) }
      At s3 ctx c (.node a y l) x ∧
      Frames s s3 (a :: c :: (l.ids ++ (f.ids ++ (g.ids ++ ctx.ids)))) (a :: c :: ctx.internals) := by
  obtain ⟨hlt, hc1, hc2, hup, hupr, hupl, hrr, hrl, hctx, hnd⟩ := h
  obtain ⟨k1, k2, k3, k4, k5, k6, k7, k8, k9⟩ := hrr
  have kx : s.up x.id = some c := by rcases hxy with ⟨rfl, rfl⟩ | ⟨rfl, rfl⟩ <;> assumption
  have ky : s.up y.id = some c := by rcases hxy with ⟨rfl, rfl⟩ | ⟨rfl, rfl⟩ <;> assumption
  have rx : Rep s x := by rcases hxy with ⟨rfl, rfl⟩ | ⟨rfl, rfl⟩ <;> assumption
  have ry : Rep s y := by rcases hxy with ⟨rfl, rfl⟩ | ⟨rfl, rfl⟩ <;> assumption
  have hfg : ∀ j, (j ∈ f.ids ∨ j ∈ g.ids) ↔ (j ∈ x.ids ∨ j ∈ y.ids) := by
    rcases hxy with ⟨rfl, rfl⟩ | ⟨rfl, rfl⟩
    · intro j; rfl
    · intro j; exact Or.comm
  have hnd' : (a :: (l.ids ++ (c :: (x.ids ++ y.ids) ++ ctx.ids))).Nodup := by
    rcases hxy with ⟨rfl, rfl⟩ | ⟨rfl, rfl⟩
    · refine (List.Perm.nodup_iff ?_).1 hnd
      rw [List.perm_iff_count]; intro z
      simp only [T.ids, List.count_append, List.count_cons]; omega
    · refine (List.Perm.nodup_iff ?_).1 hnd
      rw [List.perm_iff_count]; intro z
      simp only [T.ids, List.count_append, List.count_cons]; omega
  clear hxy hnd k4 k5 k6 k7 k8 k9
  have ix := x.id_mem
  have iy := y.id_mem
  have il := l.id_mem
  simp only [List.nodup_cons, List.mem_append, List.nodup_append, List.mem_cons, List.cons_append,
    not_or] at hnd'
  obtain ⟨⟨na1, na2, na3, na4⟩, nl, ⟨nc, ⟨nxy, nctx, nd1⟩⟩, nd2⟩ := hnd'
  obtain ⟨nx, ny, nd3⟩ := nxy
  have hci : c ∉ ctx.internals := fun hh => nc.2 (Ctx.internals_sub hh)
  have hai : a ∉ ctx.internals := fun hh => na4 (Ctx.internals_sub hh)
  have hac : a ≠ c := na2
  have dlc : ∀ j ∈ l.ids, j ≠ c := fun j hj => nd2 j hj c (Or.inl rfl)
  have dlx : ∀ j ∈ l.ids, j ∉ x.ids := fun j hj hx => nd2 j hj j (Or.inr (Or.inl (Or.inl hx))) rfl
  have dly : ∀ j ∈ l.ids, j ∉ y.ids := fun j hj hx => nd2 j hj j (Or.inr (Or.inl (Or.inr hx))) rfl
  have dlt : ∀ j ∈ l.ids, j ∉ ctx.ids := fun j hj hx => nd2 j hj j (Or.inr (Or.inr hx)) rfl
  have dxt : ∀ j ∈ x.ids, j ∉ ctx.ids := fun j hj hx => nd1 j (Or.inl hj) j hx rfl
  have dyt : ∀ j ∈ y.ids, j ∉ ctx.ids := fun j hj hx => nd1 j (Or.inr hj) j hx rfl
  have dxy : ∀ j ∈ x.ids, j ∉ y.ids := fun j hj hx => nd3 j hj j hx rfl
  have hctx1 : RepCtx
      { s with c1 := upd s.c1 c (some a), up := upd (upd s.up c (s.up a)) a (some c) } a ctx := by
    refine RepCtx.same (s := s) nctx (Nat.le_refl _) rfl ?_ hctx
    intro j hj
    have e1 : j ≠ a := by rintro rfl; exact na4 hj
    have e2 : j ≠ c := by rintro rfl; exact nc.2 hj
    simp [Same, upd_apply, e1, e2]
  obtain ⟨s2, r1, r2, r3, r4, r5, r6, r7, r8⟩ := redirect_ctx (x := c) hctx1 nctx na4 (s.up a) hup
  refine ⟨s2, r1, r3, r4, r5, r6, ?_, ?_⟩
  · have lcx : x.id ≠ c := fun e => nc.1.1 (e ▸ ix)
    have lax : x.id ≠ a := fun e => na3.1 (e ▸ ix)
    have lcy : y.id ≠ c := fun e => nc.1.2 (e ▸ iy)
    have lay : y.id ≠ a := fun e => na3.2 (e ▸ iy)
    have lcl : l.id ≠ c := dlc _ il
    have lal : l.id ≠ a := fun e => na1 (e ▸ il)
    have lxy : x.id ≠ y.id := fun e => dxy _ ix (e ▸ iy)
    have lly : l.id ≠ y.id := fun e => dly _ il (e ▸ iy)
    have frame : ∀ j, j ≠ a → j ≠ c → j ∉ ctx.ids → s2.c1 j = s.c1 j ∧ s2.c2 j = s.c2 j := by
      intro j h1 h2 h3
      have := r8 j (fun hh => h3 (Ctx.internals_sub hh))
      simpa [upd_apply, h1, h2] using this
    have sub : ∀ t : T, Rep s t → t.ids.Nodup → (∀ j ∈ t.ids, j ≠ a) → (∀ j ∈ t.ids, j ≠ c) →
        (∀ j ∈ t.ids, j ∉ ctx.ids) → (∀ j ∈ t.ids, j ≠ t.id → j ≠ y.id) →
        Rep { s2 with
          c2 := upd s2.c2 c (some x.id), c1 := upd s2.c1 a (some y.id),
          up := upd s2.up y.id (some a),
          box := upd (upd s2.box a (Box.enclosing (s2.box l.id) (s2.box y.id))) c
            (Box.enclosing (Box.enclosing (s2.box l.id) (s2.box y.id)) (s2.box x.id)),
          height := upd (upd s2.height a (max (s2.height l.id) (s2.height y.id) + 1)) c
            (max (max (s2.height l.id) (s2.height y.id) + 1) (s2.height x.id) + 1) } t := by
      intro t ht hn ha' hc' ht' hy'
      refine Rep.congr (s := s) hn (by simp [r6]) ?_ ?_ ?_ ?_ ?_ ht
      · intro j hj; simpa [upd_apply, ha' j hj] using (frame j (ha' j hj) (hc' j hj) (ht' j hj)).1
      · intro j hj _; simpa [upd_apply, ha' j hj, hc' j hj] using
          (frame j (ha' j hj) (hc' j hj) (ht' j hj)).2
      · intro j hj; simp [upd_apply, ha' j hj, hc' j hj, r4]
      · intro j hj; simp [upd_apply, ha' j hj, hc' j hj, r5]
      · intro j hj hne; simp [upd_apply, ha' j hj, hc' j hj, hy' j hj hne, r3]
    have Rl := sub l hrl nl (fun j hj e => na1 (e ▸ hj)) dlc dlt
      (fun j hj _ e => dly j hj (e ▸ iy))
    have Rx := sub x rx nx (fun j hj e => na3.1 (e ▸ hj)) (fun j hj e => nc.1.1 (e ▸ hj))
      dxt (fun j hj _ e => dxy j hj (e ▸ iy))
    have Ry := sub y ry ny (fun j hj e => na3.2 (e ▸ hj)) (fun j hj e => nc.1.2 (e ▸ hj))
      dyt (fun j hj hne => hne)
    refine ⟨by simpa [r6] using k1, ?_, ?_, ?_, ?_, ?_, ?_, ?_, ?_, ?_⟩
    · simp [upd_apply, hac.symm, (r8 c hci).1]
    · simp
    · simp [upd_apply, r3, hac.symm, lcy.symm, hup]
    · simp [upd_apply, r3, lay.symm]
    · simp [upd_apply, r3, lxy, lax, lcx, kx]
    · refine ⟨by simpa [r6] using hlt, ?_, ?_, ?_, ?_, ?_, ?_, Ry, Rl⟩
      · simp
      · simp [(r8 a hai).2, upd_apply, hac, hc2]
      · simp
      · simp [upd_apply, r3, lly, lal, lcl, hupl]
      · simp [upd_apply, hac, lal, lcl, lay, lcy, Box.enclosing_comm]
      · simp [upd_apply, hac, lal, lcl, lay, lcy, max_comm]
    · exact Rx
    · refine RepCtx.same (s := s2) nctx (Nat.le_refl _) rfl ?_ r2
      intro j hj
      have e1 : j ≠ a := by rintro rfl; exact na4 hj
      have e2 : j ≠ c := by rintro rfl; exact nc.2 hj
      have e3 : j ≠ y.id := by rintro rfl; exact dyt _ iy hj
      simp [Same, upd_apply, e1, e2, e3]
    · simp only [List.nodup_cons, List.mem_append, List.nodup_append, List.mem_cons, T.ids,
        List.cons_append, not_or]
      grind
  · refine ⟨r6, r7, fun j hj => ?_, fun j hj => ?_⟩
    · simp only [List.mem_cons, List.mem_append, not_or] at hj
      have : j ≠ y.id := by
        rintro rfl
        have := (hfg y.id).2 (Or.inr iy)
        rcases this with h | h
        · exact hj.2.2.2.1 h
        · exact hj.2.2.2.2.1 h
      simp [upd_apply, hj.1, hj.2.1, this, r3, r5]
    · simp only [List.mem_cons, not_or] at hj
      have := r8 j hj.2.2
      simpa [upd_apply, hj.1, hj.2.1, r4] using this

end Edyn.DynTree
