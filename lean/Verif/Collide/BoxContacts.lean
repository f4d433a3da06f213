import Verif.Collide.BoxLevel

/-!
# Contact points between two boxes: every one of them (C87)
-/

namespace Edyn.Collide

open Edyn.Math hiding lengthSqr_nonneg
open V3 Edyn.Geom Edyn.Contact

theorem projection_unique {S : V3 ℝ → Prop} {d : V3 ℝ} {s t : ℝ} (hs : IsProjection S d s) (ht : IsProjection S d t) : s = t := by
  obtain ⟨⟨p, hp, e1⟩, h1⟩ := hs
  obtain ⟨⟨q, hq, e2⟩, h2⟩ := ht
  have a := h1 q hq
  have b := h2 p hp
  linarith

/-- The point of a segment between two points of a box. -/
theorem seg_in {h pos : V3 ℝ} {orn : Quat ℝ} {a b : V3 ℝ} (ha : Placed (boxSet h) pos orn a) (hb : Placed (boxSet h) pos orn b)
    {s : ℝ} (h0 : 0 ≤ s) (h1 : s ≤ 1) : Placed (boxSet h) pos orn (smul (1 - s) a + smul s b) := by
  have hc := placed_convex (box_convex h) pos orn a b ha hb s h0 h1
  rwa [show a + smul s (b - a) = smul (1 - s) a + smul s b by ext <;> simp <;> ring] at hc

theorem seg_level {a b d : V3 ℝ} {lo hi : ℝ} (ha : lo ≤ dot a d) (hb : lo ≤ dot b d) (ha' : dot a d ≤ hi) (hb' : dot b d ≤ hi)
    {s : ℝ} (h0 : 0 ≤ s) (h1 : s ≤ 1) : lo ≤ dot (smul (1 - s) a + smul s b) d ∧ dot (smul (1 - s) a + smul s b) d ≤ hi := by
  rw [dot_add_left, dot_smul_left, dot_smul_left]
  constructor <;> nlinarith

theorem cross_smul_left (k : ℝ) (u v : V3 ℝ) : cross (smul k u) v = smul k (cross u v) := by
  ext <;> simp [cross] <;> ring

/-- A step along the normal of a flat face. -/
theorem step_normal {k : ℝ} {N n : V3 ℝ} (hN : lengthSqr N = 1) (h : 8 * lengthSqr (cross N n) ≤ 1) :
    8 * lengthSqr (cross (smul k N) n) ≤ lengthSqr (smul k N) := by
  rw [cross_smul_left]
  have e : ∀ u : V3 ℝ, lengthSqr (smul k u) = k * k * lengthSqr u := by intro u; simp [lengthSqr, dot]; ring
  rw [e, e, hN]
  nlinarith [mul_self_nonneg k]

theorem project_step (p q N : V3 ℝ) : projectPlane p q N - p = smul (-dot (p - q) N) N := by
  unfold projectPlane; ext <;> simp

theorem cross_sub_swap (a b n : V3 ℝ) : lengthSqr (cross (a - b) n) = lengthSqr (cross (b - a) n) ∧ lengthSqr (a - b) = lengthSqr (b - a) := by
  constructor <;> (simp [lengthSqr, dot, cross]; ring)

theorem cross_neg_len (a n : V3 ℝ) : lengthSqr (cross a (-n)) = lengthSqr (cross a n) := by
  simp [lengthSqr, dot, cross]; ring

/-- A point over a flat face and the point below it on the face. -/
theorem over_contact {F : FaceAt} {S : V3 ℝ → Prop} (hF : F.Of S) {tol proj : ℝ} (ht : 0 < tol) {d : V3 ℝ}
    (hd : lengthSqr d = 1) (h : F.Flat d tol proj) (hx : 2 * tol ≤ F.hx) (hz : 2 * tol ≤ F.hz) {p q : V3 ℝ}
    (hq : dot (q - F.center) F.normal = 0)
    (ho : |dot (p - F.center) F.x| ≤ F.hx + tol ∧ |dot (p - F.center) F.z| ≤ F.hz + tol) :
    |dot (projectPlane p q F.normal) d - proj| ≤ 2 * tol ∧
    8 * lengthSqr (cross (projectPlane p q F.normal - p) d) ≤ lengthSqr (projectPlane p q F.normal - p) := by
  constructor
  · rw [hF.project hq]
    exact h.near ht hx hz ht.le (by linarith) ho.1 ho.2
  · rw [project_step]
    exact step_normal hF.un (hF.inclined hd h ht hx hz).1

/-- The point of the plane through the centre of a flat face. -/
theorem centre_contact {F : FaceAt} {tol proj : ℝ} (ht : 0 < tol) {d : V3 ℝ} {n : V3 ℝ} (hn : lengthSqr n = 1)
    (hdn : d = n ∨ d = -n) (h : F.Flat d tol proj) (hx : 0 < F.hx) (hz : 0 < F.hz) (p : V3 ℝ) :
    |dot (projectPlane p F.center n) d - proj| ≤ 2 * tol ∧
    8 * lengthSqr (cross (projectPlane p F.center n - p) d) ≤ lengthSqr (projectPlane p F.center n - p) := by
  have nn : dot n n = 1 := hn
  have e : dot (projectPlane p F.center n) n = dot F.center n := by
    unfold projectPlane; rw [dot_sub_left, dot_smul_left, nn, dot_sub_left]; ring
  have e' : dot (projectPlane p F.center n) d = dot F.center d := by
    rcases hdn with rfl | rfl
    · exact e
    · rw [dot_neg_right, dot_neg_right, e]
  constructor
  · rw [e']
    have := h.center
    have b : 0 ≤ |dot F.x d| * F.hx + |dot F.z d| * F.hz := by positivity
    rw [abs_le] at *
    obtain ⟨h1, h2⟩ := this
    constructor <;> linarith
  · rw [project_step]
    have c0 : lengthSqr (cross (smul (-dot (p - F.center) n) n) d) = 0 := by
      rcases hdn with rfl | rfl
      · simp [lengthSqr, dot, cross]; ring
      · simp [lengthSqr, dot, cross]; ring
    rw [c0]
    unfold lengthSqr
    simp only [dot]; nlinarith [mul_self_nonneg (smul (-dot (p - F.center) n) n).x, mul_self_nonneg (smul (-dot (p - F.center) n) n).y,
      mul_self_nonneg (smul (-dot (p - F.center) n) n).z]

/-- **C87, the contact points.** For boxes that are not thin: no assertion fails, at most four points are reported, none
if the distance is above the threshold, and all of them have the normal and the distance found by the search, pivots
near the supporting planes, at least one of which is a point of its box. -/
theorem box_box_points {eps tol : ℝ} (hT : Tols eps tol) (K : Consts ℝ) {hA hB : V3 ℝ} (sA : Sized tol hA) (sB : Sized tol hB)
    {c : Ctx} (hc : c.Ok) :
    ∃ x n l, boxBoxAxis eps hA hB c = some (x, n) ∧ boxBox eps tol K hA hB c = some l ∧ l.length ≤ 4 ∧
      (c.thr < x → l = []) ∧ ∀ p ∈ l, BoxContact tol hA hB c x n p := by
  have tp := hT.tpos
  have he := hT.pos
  have et : eps ≤ tol := by nlinarith [hT.sq, hT.one]
  have pA : PosExt hA := ⟨by linarith [sA.1], by linarith [sA.2.1], by linarith [sA.2.2]⟩
  have pB : PosExt hB := ⟨by linarith [sB.1], by linarith [sB.2.1], by linarith [sB.2.2]⟩
  obtain ⟨x, n, hax, hn, -, hgap⟩ := box_box_axis he.le pA pB hc
  obtain ⟨kA, iA, jA, fA, qA, oA, tA⟩ := feature_of tp sA c.posA hc.1 (-n)
  obtain ⟨kB, iB, jB, fB, qB, oB, tB⟩ := feature_of tp sB c.posB hc.2.1 n
  have hnn : lengthSqr (-n) = 1 := neg_unit hn
  refine ⟨x, n, ?_⟩
  have hx : x = -jA - jB := by
    obtain ⟨g1, a, b, ha, hb, e⟩ := hgap
    obtain ⟨⟨a', ha', ea⟩, hA'⟩ := qA
    obtain ⟨⟨b', hb', eb⟩, hB'⟩ := qB
    have := g1 a' b' ha' hb'
    have h1 := hA' a ha
    have h2 := hB' b hb
    rw [dot_neg_right] at ea h1
    rw [dot_sub_left] at this e
    linarith
  by_cases hthr : c.thr < x
  · refine ⟨[], hax, ?_, by simp, fun _ => rfl, by simp⟩
    unfold boxBox; rw [hax, Option.bind_some]; simp only; rw [if_pos hthr]
  suffices hs : ∃ l, boxBox eps tol K hA hB c = some l ∧ l.length ≤ 4 ∧ ∀ p ∈ l, BoxContact tol hA hB c x n p by
    obtain ⟨l, h1, h2, h3⟩ := hs
    exact ⟨l, hax, h1, h2, fun h => absurd h hthr, h3⟩
  unfold boxBox
  rw [hax, Option.bind_some]
  simp only
  rw [if_neg hthr, fA, Option.bind_some, fB, Option.bind_some]
  simp only
  -- a point with pivots given in the world
  have mk : ∀ (att : Att) (_ : (att = .onA ∧ kA = .face) ∨ (att = .onB ∧ kB = .face) ∨ (att = .none ∧ kA = .edge ∧ kB = .edge))
      (wA wB : V3 ℝ), |dot wA (-n) - jA| ≤ 2 * tol → |dot wB n - jB| ≤ 2 * tol →
      (c.boxA hA wA ∨ c.boxB hB wB) → ((c.boxA hA wA ∧ c.boxB hB wB) ∨ 8 * lengthSqr (cross (wA - wB) n) ≤ lengthSqr (wA - wB)) →
      BoxContact tol hA hB c x n ⟨toObjectSpace wA c.posA c.ornA, toObjectSpace wB c.posB c.ornB, n, x, att,
        some ⟨boxKind kA, some iA⟩, some ⟨boxKind kB, some iB⟩⟩ := by
    intro att hatt wA wB a1 a2 a3 a4
    have e1 : toWorldSpace (toObjectSpace wA c.posA c.ornA) c.posA c.ornA = wA := world_object wA c.posA hc.1
    have e2 : toWorldSpace (toObjectSpace wB c.posB c.ornB) c.posB c.ornB = wB := world_object wB c.posB hc.2.1
    refine ⟨rfl, rfl, ?_, ?_, ?_, ?_, kA, iA, kB, iB, rfl, rfl, tA, tB, hatt⟩
    · intro s hs
      rw [projection_unique hs qA]
      simp only [Ctx.wA, e1]; exact a1
    · intro s hs
      rw [projection_unique hs qB]
      simp only [Ctx.wB, e2]; exact a2
    · simp only [Ctx.wA, Ctx.wB, e1, e2]; exact a3
    · simp only [Ctx.wA, Ctx.wB, e1, e2]; exact a4
  have lev : ∀ {S : V3 ℝ → Prop} {d v : V3 ℝ} {j : ℝ}, IsProjection S d j → S v → j - tol ≤ dot v d → |dot v d - j| ≤ 2 * tol := by
    intro S d v j hj hv hl
    have := hj.2 v hv
    rw [abs_le]; constructor <;> linarith
  have dotn : ∀ u, |dot u (-n)| = |dot u n| := by intro u; rw [dot_neg_right, abs_neg]
  have slope : ∀ {S : V3 ℝ → Prop} {d v w : V3 ℝ} {j : ℝ}, IsProjection S d j → S v → S w → j - tol ≤ dot v d → j - tol ≤ dot w d →
      |dot (w - v) d| ≤ tol := by
    intro S d v w j hj hv hw hl hl'
    have := hj.2 v hv
    have := hj.2 w hw
    rw [dot_sub_left, abs_le]; constructor <;> linarith
  cases kA with
  | face =>
    obtain ⟨FA, gA, ofA, vA, xA, zA⟩ := oA
    have flA := ofA.level qA vA
    cases kB with
    | face =>
      obtain ⟨FB, gB, ofB, vB, xB, zB⟩ := oB
      have flB := ofB.level qB vB
      simp only [gA, gB, Option.bind_some]
      have key := faceFace_spec (eps := eps) (K := K) ofA ofB
        (mk := fun wA wB => ⟨toObjectSpace wA c.posA c.ornA, toObjectSpace wB c.posB c.ornB, n, x, .onB,
          some ⟨boxKind .face, some iA⟩, some ⟨boxKind .face, some iB⟩⟩)
        (P := BoxContact tol hA hB c x n) ?_ ?_ ?_
      · obtain ⟨l, h1, h2, h3, -⟩ := key
        exact ⟨l, h1, h2, h3⟩
      · intro v hv ho
        obtain ⟨a, b⟩ := over_contact ofA tp hnn flA xA zA ofA.v0_plane (over_near ofA hT xA zA ho)
        rw [cross_neg_len] at b
        exact mk _ (by simp) _ _ a (lev qB (ofB.verts_in hv) (vB v hv)) (.inr (ofB.verts_in hv)) (.inr b)
      · intro v hv ho
        obtain ⟨a, b⟩ := over_contact ofB tp hn flB xB zB ofB.v0_plane (over_near ofB hT xB zB ho)
        refine mk _ (by simp) _ _ (lev qA (ofA.verts_in hv) (vA v hv)) a (.inl (ofA.verts_in hv)) (.inr ?_)
        obtain ⟨e1, e2⟩ := cross_sub_swap v (projectPlane v FB.v0 FB.normal) n
        rw [e1, e2]; exact b
      · intro e hm s hs
        obtain ⟨k1, k2, k3⟩ := side_long ofB tp xB zB hm
        have m1 := ofB.verts_in k2
        have m2 := ofB.verts_in k3
        have up := not_upright ofA hT hnn flA xA zA k1 (by rw [dotn]; exact slope qB m1 m2 (vB _ k2) (vB _ k3))
        obtain ⟨c1, c2⟩ := cut_near ofA he up hs
        have mi := seg_in m1 m2 hs.2.1 hs.2.2
        obtain ⟨a, b⟩ := over_contact ofA tp hnn flA xA zA (q := FA.center) (by rw [dot_sub_left]; ring)
          ⟨by linarith, by linarith⟩ (p := smul (1 - s) e.1 + smul s e.2)
        rw [cross_neg_len] at b
        exact mk _ (by simp) _ _ a (lev qB mi (seg_level (vB _ k2) (vB _ k3) (qB.2 _ m1) (qB.2 _ m2) hs.2.1 hs.2.2).1) (.inr mi) (.inr b)
    | edge =>
      obtain ⟨e, gB, m1, m2, l1, l2, k1⟩ := oB
      simp only [gA, gB, Option.bind_some]
      have key := faceEdge_spec (eps := eps) ofA (sep := n) (e0 := e.1) (e1 := e.2)
        (mk := fun wA wB => ⟨toObjectSpace wA c.posA c.ornA, toObjectSpace wB c.posB c.ornB, n, x, .onA,
          some ⟨boxKind .face, some iA⟩, some ⟨boxKind .edge, some iB⟩⟩)
        (P := BoxContact tol hA hB c x n) ?_ ?_
      · obtain ⟨l, h1, h2, h3, -⟩ := key
        exact ⟨l, h1, h2, h3⟩
      · intro v hv ho
        obtain ⟨a, b⟩ := over_contact ofA tp hnn flA xA zA ofA.v0_plane (over_near ofA hT xA zA ho)
        rw [cross_neg_len] at b
        simp only [List.mem_cons, List.not_mem_nil, or_false] at hv
        rcases hv with rfl | rfl
        · exact mk _ (by simp) _ _ a (lev qB m1 l1) (.inr m1) (.inr b)
        · exact mk _ (by simp) _ _ a (lev qB m2 l2) (.inr m2) (.inr b)
      · intro s hs
        have mi := seg_in m1 m2 hs.2.1 hs.2.2
        obtain ⟨a, b⟩ := centre_contact tp hn (.inr rfl) flA ofA.px ofA.pz (smul (1 - s) e.1 + smul s e.2)
        rw [cross_neg_len] at b
        exact mk _ (by simp) _ _ a (lev qB mi (seg_level l1 l2 (qB.2 _ m1) (qB.2 _ m2) hs.2.1 hs.2.2).1) (.inr mi) (.inr b)
    | vertex =>
      obtain ⟨v, gB, m1, l1⟩ := oB
      simp only [gB, Option.bind_some]
      refine ⟨_, by unfold addPoint; rw [if_pos (by simp)], by simp, ?_⟩
      intro p hp
      simp only [List.nil_append, List.mem_singleton] at hp
      subst hp
      have nn : dot n n = 1 := hn
      have e1 : toWorldSpace (toObjectSpace (toWorldSpace v c.posB c.ornB + smul x n) c.posA c.ornA) c.posA c.ornA
          = toWorldSpace v c.posB c.ornB + smul x n := world_object _ c.posA hc.1
      refine ⟨rfl, rfl, ?_, ?_, .inr m1, .inr ?_, .face, iA, .vertex, iB, rfl, rfl, tA, tB, .inl ⟨rfl, rfl⟩⟩
      · intro s hs
        rw [projection_unique hs qA]
        simp only [Ctx.wA, e1]
        rw [dot_neg_right, dot_add_left, l1, dot_smul_left, nn, abs_le]; constructor <;> linarith
      · intro s hs
        rw [projection_unique hs qB]
        simp only [Ctx.wB, l1, sub_self, abs_zero]; linarith
      · simp only [Ctx.wA, Ctx.wB, e1]
        rw [show toWorldSpace v c.posB c.ornB + smul x n - toWorldSpace v c.posB c.ornB = smul x n by ext <;> simp]
        exact step_normal hn (by simp [lengthSqr, dot, cross]; ring_nf; norm_num)
  | edge =>
    obtain ⟨e, gA, m1, m2, l1, l2, k1⟩ := oA
    cases kB with
    | face =>
      obtain ⟨FB, gB, ofB, vB, xB, zB⟩ := oB
      have flB := ofB.level qB vB
      simp only [gA, gB, Option.bind_some]
      have key := faceEdge_spec (eps := eps) ofB (sep := n) (e0 := e.1) (e1 := e.2)
        (mk := fun wB wA => ⟨toObjectSpace wA c.posA c.ornA, toObjectSpace wB c.posB c.ornB, n, x, .onB,
          some ⟨boxKind .edge, some iA⟩, some ⟨boxKind .face, some iB⟩⟩)
        (P := BoxContact tol hA hB c x n) ?_ ?_
      · obtain ⟨l, h1, h2, h3, -⟩ := key
        exact ⟨l, h1, h2, h3⟩
      · intro v hv ho
        obtain ⟨a, b⟩ := over_contact ofB tp hn flB xB zB ofB.v0_plane (over_near ofB hT xB zB ho)
        obtain ⟨e1, e2⟩ := cross_sub_swap v (projectPlane v FB.v0 FB.normal) n
        rw [← e1, ← e2] at b
        simp only [List.mem_cons, List.not_mem_nil, or_false] at hv
        rcases hv with rfl | rfl
        · exact mk _ (by simp) _ _ (lev qA m1 l1) a (.inl m1) (.inr b)
        · exact mk _ (by simp) _ _ (lev qA m2 l2) a (.inl m2) (.inr b)
      · intro s hs
        have mi := seg_in m1 m2 hs.2.1 hs.2.2
        obtain ⟨a, b⟩ := centre_contact tp hn (.inl rfl) flB ofB.px ofB.pz (smul (1 - s) e.1 + smul s e.2)
        obtain ⟨e1, e2⟩ := cross_sub_swap (smul (1 - s) e.1 + smul s e.2) (projectPlane (smul (1 - s) e.1 + smul s e.2) FB.center n) n
        rw [← e1, ← e2] at b
        exact mk _ (by simp) _ _ (lev qA mi (seg_level l1 l2 (qA.2 _ m1) (qA.2 _ m2) hs.2.1 hs.2.2).1) a (.inl mi) (.inr b)
    | edge =>
      obtain ⟨f, gB, m3, m4, l3, l4, k2⟩ := oB
      simp only [gA, gB, Option.bind_some]
      have big : eps < 16 * (tol * tol) := by nlinarith [hT.sq]
      have key := edgeEdge_spec (eps := eps) (a := e) (b := f) (by linarith) (by linarith) he.le
        (mk := fun wA wB => ⟨toObjectSpace wA c.posA c.ornA, toObjectSpace wB c.posB c.ornB, n, x, .none,
          some ⟨boxKind .edge, some iA⟩, some ⟨boxKind .edge, some iB⟩⟩)
        (P := BoxContact tol hA hB c x n) ?_
      · obtain ⟨l, h1, h2, h3, -⟩ := key
        exact ⟨l, h1, h2, h3⟩
      · rintro p q ⟨s, s0, s1, rfl⟩ ⟨t, t0, t1, rfl⟩
        have e1 : e.1 + smul s (e.2 - e.1) = smul (1 - s) e.1 + smul s e.2 := by ext <;> simp <;> ring
        have e2 : f.1 + smul t (f.2 - f.1) = smul (1 - t) f.1 + smul t f.2 := by ext <;> simp <;> ring
        rw [e1, e2]
        have mi := seg_in m1 m2 s0 s1
        have mj := seg_in m3 m4 t0 t1
        exact mk _ (by simp) _ _ (lev qA mi (seg_level l1 l2 (qA.2 _ m1) (qA.2 _ m2) s0 s1).1)
          (lev qB mj (seg_level l3 l4 (qB.2 _ m3) (qB.2 _ m4) t0 t1).1) (.inl mi) (.inl ⟨mi, mj⟩)
    | vertex => exact ⟨[], rfl, by simp, by simp⟩
  | vertex =>
    cases kB with
    | face =>
      obtain ⟨v, gA, m1, l1⟩ := oA
      simp only [gA, Option.bind_some]
      refine ⟨_, by unfold addPoint; rw [if_pos (by simp)], by simp, ?_⟩
      intro p hp
      simp only [List.nil_append, List.mem_singleton] at hp
      subst hp
      have nn : dot n n = 1 := hn
      have e1 : toWorldSpace (toObjectSpace (toWorldSpace v c.posA c.ornA - smul x n) c.posB c.ornB) c.posB c.ornB
          = toWorldSpace v c.posA c.ornA - smul x n := world_object _ c.posB hc.2.1
      refine ⟨rfl, rfl, ?_, ?_, .inl m1, .inr ?_, .vertex, iA, .face, iB, rfl, rfl, tA, tB, .inr (.inl ⟨rfl, rfl⟩)⟩
      · intro s hs
        rw [projection_unique hs qA]
        simp only [Ctx.wA, l1, sub_self, abs_zero]; linarith
      · intro s hs
        rw [projection_unique hs qB]
        simp only [Ctx.wB, e1]
        rw [dot_neg_right] at l1
        rw [dot_sub_left, dot_smul_left, nn, abs_le]; constructor <;> linarith
      · simp only [Ctx.wA, Ctx.wB, e1]
        rw [show toWorldSpace v c.posA c.ornA - (toWorldSpace v c.posA c.ornA - smul x n) = smul x n by ext <;> simp]
        exact step_normal hn (by simp [lengthSqr, dot, cross]; ring_nf; norm_num)
    | edge => exact ⟨[], rfl, by simp, by simp⟩
    | vertex => exact ⟨[], rfl, by simp, by simp⟩

/-- Two cubes of which one rests on the other, with the tolerances of the code. -/
noncomputable def cubes : Ctx := ⟨⟨0, 1, 0⟩, ⟨0, 0, 0, 1⟩, ⟨0, 0, 0⟩, ⟨0, 0, 0, 1⟩, 1 / 50⟩

noncomputable def cube : V3 ℝ := ⟨1 / 2, 1 / 2, 1 / 2⟩

example : Tols (12 / 100000000) (5 / 1000) ∧ Sized (5 / 1000) cube ∧ cubes.Ok ∧ PosExt cube ∧ ClearEdges (12 / 100000000) cubes := by
  refine ⟨⟨by norm_num, by norm_num, by norm_num, by norm_num⟩, by norm_num [Sized, cube], by norm_num [Ctx.Ok, cubes, Quat.lengthSqr],
    by norm_num [PosExt, cube], ?_⟩
  intro e he f hf
  have r : ∀ v, Quat.rotate (⟨0, 0, 0, 1⟩ : Quat ℝ) v = v := rotate_one
  show cross (Quat.rotate ⟨0, 0, 0, 1⟩ e) (Quat.rotate ⟨0, 0, 0, 1⟩ f) = 0 ∨
    _ < lengthSqr (cross (Quat.rotate ⟨0, 0, 0, 1⟩ e) (Quat.rotate ⟨0, 0, 0, 1⟩ f))
  rw [r, r]
  simp only [List.mem_cons, List.not_mem_nil, or_false] at he hf
  rcases he with rfl | rfl | rfl <;> rcases hf with rfl | rfl | rfl <;>
    first | (left; ext <;> simp [cross, ex, ey, ez]; done) | (right; norm_num [lengthSqr, dot, cross, ex, ey, ez]; done)

end Edyn.Collide
