import Verif.Collide.BoxPoints

/-!
# Contact points between two boxes: where they are (C87)
-/

namespace Edyn.Collide

open Edyn.Math hiding lengthSqr_nonneg
open V3 Edyn.Geom Edyn.Contact

/-! ## Specification -/

/-- The tolerances are related as those of the code are: `EDYN_EPSILON` is 1.2·10⁻⁷, `support_feature_tolerance` is
0.005. -/
structure Tols (eps tol : ℝ) : Prop where
  pos : 0 < eps
  tpos : 0 < tol
  sq : eps ≤ tol * tol
  one : tol ≤ 1

/-- No side of the box is shorter than four times the tolerance (2 cm). -/
def Sized (tol : ℝ) (h : V3 ℝ) : Prop := 2 * tol ≤ h.x ∧ 2 * tol ≤ h.y ∧ 2 * tol ≤ h.z

/-- The corners of a feature of a placed box are within the tolerance of its furthest point along the direction. -/
def Touches (tol : ℝ) (h pos : V3 ℝ) (orn : Quat ℝ) (d : V3 ℝ) (k : BoxFeat) (i : ℕ) : Prop :=
  ∃ vs, boxFeatVerts h k i = some vs ∧ ∀ v ∈ vs, ∀ w, Placed (boxSet h) pos orn w → dot w d - tol ≤ dot (toWorldSpace v pos orn) d

/-- What holds for a contact point between two boxes, with the given distance and axis: the pivots are within twice the
tolerance of the supporting planes of the boxes, at least one of them is a point of its box, and if not both are, then
the step between them is not inclined to the axis by more than 21°.  The recorded features touch the supporting planes
within the tolerance, and the box the normal is attached to, if any, does so with a face. -/
structure BoxContact (tol : ℝ) (hA hB : V3 ℝ) (c : Ctx) (x : ℝ) (n : V3 ℝ) (p : Point) : Prop where
  normal : p.n = n
  dist : p.dist = x
  levelA : ∀ s, IsProjection (c.boxA hA) (-n) s → |dot (c.wA p) (-n) - s| ≤ 2 * tol
  levelB : ∀ s, IsProjection (c.boxB hB) n s → |dot (c.wB p) n - s| ≤ 2 * tol
  on : c.boxA hA (c.wA p) ∨ c.boxB hB (c.wB p)
  opposite : (c.boxA hA (c.wA p) ∧ c.boxB hB (c.wB p)) ∨
    8 * lengthSqr (cross (c.wA p - c.wB p) n) ≤ lengthSqr (c.wA p - c.wB p)
  features : ∃ kA iA kB iB, p.fA = some ⟨boxKind kA, some iA⟩ ∧ p.fB = some ⟨boxKind kB, some iB⟩ ∧
    Touches tol hA c.posA c.ornA (-n) kA iA ∧ Touches tol hB c.posB c.ornB n kB iB ∧
    ((p.att = .onA ∧ kA = .face) ∨ (p.att = .onB ∧ kB = .face) ∨ (p.att = .none ∧ kA = .edge ∧ kB = .edge))

/-! ## Features -/

/-- The selected feature of a placed box. -/
def FeatOf (h pos : V3 ℝ) (orn : Quat ℝ) (d : V3 ℝ) (tol proj : ℝ) : BoxFeat → ℕ → Prop
  | .vertex, i => ∃ v, boxVertex h i = some v ∧ Placed (boxSet h) pos orn (toWorldSpace v pos orn) ∧ dot (toWorldSpace v pos orn) d = proj
  | .edge, i => ∃ e, edgeAt h i pos orn = some e ∧ Placed (boxSet h) pos orn e.1 ∧ Placed (boxSet h) pos orn e.2 ∧
      proj - tol ≤ dot e.1 d ∧ proj - tol ≤ dot e.2 d ∧ 16 * (tol * tol) ≤ lengthSqr (e.2 - e.1)
  | .face, i => ∃ F, faceAt h i pos orn = some F ∧ F.Of (Placed (boxSet h) pos orn) ∧ (∀ v ∈ F.verts, proj - tol ≤ dot v d) ∧
      2 * tol ≤ F.hx ∧ 2 * tol ≤ F.hz

theorem FaceAt.Of.verts_in {F : FaceAt} {S : V3 ℝ → Prop} (hF : F.Of S) {v : V3 ℝ} (hv : v ∈ F.verts) : S v := by
  obtain ⟨s, t, hs, ht, e⟩ := hF.verts_mem v hv
  obtain ⟨hy, h0, hb⟩ := hF.box
  have ux : dot F.x F.x = 1 := hF.ux
  have uz : dot F.z F.z = 1 := hF.uz
  have zx : dot F.z F.x = 0 := (dot_comm _ _).trans hF.xz
  have ev : v - F.center = smul (s * F.hx) F.x + smul (t * F.hz) F.z := by rw [e]; ext <;> simp <;> ring
  rw [hb, ev]
  simp only [dot_add_left, dot_smul_left, ux, uz, zx, hF.xz, hF.xn, hF.zn]
  have px := hF.px
  have pz := hF.pz
  refine ⟨?_, ?_, by linarith, by linarith⟩
  · rcases hs with rfl | rfl <;> rw [abs_le] <;> constructor <;> linarith
  · rcases ht with rfl | rfl <;> rw [abs_le] <;> constructor <;> linarith

theorem feature_of {h : V3 ℝ} {tol : ℝ} (ht : 0 < tol) (hs : Sized tol h) (pos : V3 ℝ) {orn : Quat ℝ} (ho : orn.lengthSqr = 1) (d : V3 ℝ) :
    ∃ k i proj, boxSupportFeatureAt h pos orn 0 d tol = some (k, i, proj) ∧ IsProjection (Placed (boxSet h) pos orn) d proj ∧
      FeatOf h pos orn d tol proj k i ∧ Touches tol h pos orn d k i := by
  obtain ⟨s1, s2, s3⟩ := hs
  have hp : PosExt h := ⟨by linarith, by linarith, by linarith⟩
  obtain ⟨k, i, proj, vs, h1, h2, h3, ⟨v, hv, hvd⟩, h5⟩ := box_support_feature_at h hp.1.le hp.2.1.le hp.2.2.le pos orn ho 0 d tol
  have d0 : dot (0 : V3 ℝ) d = 0 := by simp [dot]
  rw [d0, add_zero] at h3
  have e0 : ∀ v : V3 ℝ, pos + Quat.rotate orn v - 0 = toWorldSpace v pos orn := by intro v; ext <;> simp [toWorldSpace]
  simp only [e0] at hvd h5
  have lev : ∀ v ∈ vs, proj - tol ≤ dot (toWorldSpace v pos orn) d := by
    intro v hv
    rcases (h5 v hv).2 with e | e
    · rw [e]; linarith
    · exact e.le
  have ins : ∀ v ∈ vs, Placed (boxSet h) pos orn (toWorldSpace v pos orn) := fun v hv =>
    ⟨v, corner_box hp.1.le hp.2.1.le hp.2.2.le (h5 v hv).1, rfl⟩
  refine ⟨k, i, proj, h1, h3, ?_, vs, h2, fun v hv w hw => by linarith [lev v hv, h3.2 w hw]⟩
  have hc := (box_feature_corners h hp.1 hp.2.1 hp.2.2 k i)
  have hi := hc.2.1 ⟨vs, h2⟩
  have hc := hc.1 vs h2
  cases k with
  | vertex =>
    simp only [boxFeatVerts, Option.map_eq_some_iff] at h2
    obtain ⟨w, hw, rfl⟩ := h2
    simp only [List.mem_singleton] at hv
    subst hv
    exact ⟨v, hw, ins v (by simp), hvd⟩
  | edge =>
    obtain ⟨hc1, a, b, rfl, hab⟩ := hc
    simp only [boxFeatVerts] at h2
    refine ⟨(toWorldSpace a pos orn, toWorldSpace b pos orn), by unfold edgeAt; rw [h2], ins a (by simp), ins b (by simp),
      lev a (by simp), lev b (by simp), ?_⟩
    have ew : toWorldSpace b pos orn - toWorldSpace a pos orn = Quat.rotate orn (b - a) := by
      unfold toWorldSpace; rw [rotate_sub]; ext <;> simp
    simp only
    rw [ew]
    show _ ≤ dot (Quat.rotate orn (b - a)) (Quat.rotate orn (b - a))
    rw [rotate_dot orn ho]
    obtain ⟨k1, k2, k3⟩ := hc1 a (by simp)
    have sq : ∀ {m u : ℝ}, 2 * tol ≤ m → (u = m ∨ u = -m) → 16 * (tol * tol) ≤ (-u - u) * (-u - u) := by
      intro m u hm hu
      rcases hu with rfl | rfl <;> nlinarith
    rcases hab with ⟨e1, e2, e3⟩ | ⟨e1, e2, e3⟩ | ⟨e1, e2, e3⟩ <;> simp only [dot, V3.sub_x, V3.sub_y, V3.sub_z, e1, e2, e3]
    · have := sq s1 k1; nlinarith
    · have := sq s2 k2; nlinarith
    · have := sq s3 k3; nlinarith
  | face =>
    simp only at hi
    obtain ⟨F, f1, f2, ⟨vs', f3, f4⟩, f5⟩ := faceAt_spec hp hi pos ho
    simp only [boxFeatVerts] at h2
    rw [f3] at h2
    cases h2
    refine ⟨F, f1, f2, ?_, ?_⟩
    · intro v hv
      rw [f4] at hv
      obtain ⟨u, hu, rfl⟩ := List.mem_map.1 hv
      exact lev u hu
    · unfold boxFaceHalf at f5
      split_ifs at f5 <;> (obtain ⟨a, b⟩ := Prod.mk.inj f5; rw [← a, ← b]; constructor <;> assumption)

/-! ## Levels over a face -/

/-- A face whose corners are all within the tolerance of the furthest point along a direction. -/
structure FaceAt.Flat (F : FaceAt) (d : V3 ℝ) (tol proj : ℝ) : Prop where
  ax : |dot F.x d| * F.hx + |dot F.z d| * F.hz ≤ tol / 2
  center : |dot F.center d - (proj - tol / 2)| ≤ tol / 2 - (|dot F.x d| * F.hx + |dot F.z d| * F.hz)

theorem FaceAt.Of.level {F : FaceAt} {S : V3 ℝ → Prop} (hF : F.Of S) {d : V3 ℝ} {tol proj : ℝ} (hpr : IsProjection S d proj)
    (hv : ∀ v ∈ F.verts, proj - tol ≤ dot v d) : F.Flat d tol proj := by
  have key : ∀ s t : ℝ, (s = 1 ∨ s = -1) → (t = 1 ∨ t = -1) →
      proj - tol ≤ dot F.center d + s * F.hx * dot F.x d + t * F.hz * dot F.z d ∧
      dot F.center d + s * F.hx * dot F.x d + t * F.hz * dot F.z d ≤ proj := by
    intro s t hs ht
    have hm := hF.mem_verts s t hs ht
    have a := hv _ hm
    have b := hpr.2 _ (hF.verts_in hm)
    simp only [dot_add_left, dot_smul_left] at a b
    exact ⟨a, b⟩
  have k1 := key 1 1 (.inl rfl) (.inl rfl)
  have k2 := key 1 (-1) (.inl rfl) (.inr rfl)
  have k3 := key (-1) 1 (.inr rfl) (.inl rfl)
  have k4 := key (-1) (-1) (.inr rfl) (.inr rfl)
  have e1 : ∃ s : ℝ, (s = 1 ∨ s = -1) ∧ |dot F.x d| * F.hx = s * F.hx * dot F.x d := by
    rcases abs_cases (dot F.x d) with ⟨e, _⟩ | ⟨e, _⟩
    · exact ⟨1, .inl rfl, by rw [e]; ring⟩
    · exact ⟨-1, .inr rfl, by rw [e]; ring⟩
  have e2 : ∃ s : ℝ, (s = 1 ∨ s = -1) ∧ |dot F.z d| * F.hz = s * F.hz * dot F.z d := by
    rcases abs_cases (dot F.z d) with ⟨e, _⟩ | ⟨e, _⟩
    · exact ⟨1, .inl rfl, by rw [e]; ring⟩
    · exact ⟨-1, .inr rfl, by rw [e]; ring⟩
  obtain ⟨s, hs, es⟩ := e1
  obtain ⟨t, ht, et⟩ := e2
  constructor
  · rw [es, et]
    rcases hs with rfl | rfl <;> rcases ht with rfl | rfl <;> linarith [k1.1, k1.2, k2.1, k2.2, k3.1, k3.2, k4.1, k4.2]
  · rw [es, et, abs_le]
    rcases hs with rfl | rfl <;> rcases ht with rfl | rfl <;> constructor <;>
      linarith [k1.1, k1.2, k2.1, k2.2, k3.1, k3.2, k4.1, k4.2]

/-- The point of the plane of the face at the given coordinates. -/
noncomputable def FaceAt.at (F : FaceAt) (α β : ℝ) : V3 ℝ := F.center + smul α F.x + smul β F.z

theorem FaceAt.Flat.near {F : FaceAt} {d : V3 ℝ} {tol proj : ℝ} (h : F.Flat d tol proj) (ht : 0 < tol) (hx : 2 * tol ≤ F.hx)
    (hz : 2 * tol ≤ F.hz) {α β δ : ℝ} (hδ : 0 ≤ δ) (hδ1 : δ ≤ 2 * tol) (hα : |α| ≤ F.hx + δ) (hβ : |β| ≤ F.hz + δ) :
    |dot (F.at α β) d - proj| ≤ 2 * tol := by
  obtain ⟨ax, hc⟩ := h
  have e : dot (F.at α β) d = dot F.center d + α * dot F.x d + β * dot F.z d := by
    unfold FaceAt.at; simp only [dot_add_left, dot_smul_left]
  have m1 : |α * dot F.x d| ≤ 2 * (|dot F.x d| * F.hx) := by
    rw [abs_mul]; nlinarith [abs_nonneg (dot F.x d), abs_nonneg α]
  have m2 : |β * dot F.z d| ≤ 2 * (|dot F.z d| * F.hz) := by
    rw [abs_mul]; nlinarith [abs_nonneg (dot F.z d), abs_nonneg β]
  rw [abs_le] at *
  rw [e]
  obtain ⟨c1, c2⟩ := hc
  obtain ⟨a1, a2⟩ := m1
  obtain ⟨b1, b2⟩ := m2
  constructor <;> linarith

theorem FaceAt.Of.project {F : FaceAt} {S : V3 ℝ → Prop} (hF : F.Of S) {q : V3 ℝ} (hq : dot (q - F.center) F.normal = 0) (p : V3 ℝ) :
    projectPlane p q F.normal = F.at (dot (p - F.center) F.x) (dot (p - F.center) F.z) := by
  have e : dot (p - q) F.normal = dot (p - F.center) F.normal := by
    rw [dot_sub_left] at hq ⊢; rw [dot_sub_left]; linarith
  unfold projectPlane FaceAt.at
  rw [e]
  conv_lhs => rw [show p - smul (dot (p - F.center) F.normal) F.normal =
    (F.center + smul (dot (p - F.center) F.x) F.x + smul (dot (p - F.center) F.normal) F.normal
    + smul (dot (p - F.center) F.z) F.z) - smul (dot (p - F.center) F.normal) F.normal by rw [← hF.split p]]
  ext <;> simp <;> ring

theorem FaceAt.Of.v0_plane {F : FaceAt} {S : V3 ℝ → Prop} (hF : F.Of S) : dot (F.v0 - F.center) F.normal = 0 := by
  obtain ⟨s, t, _, _, e⟩ := hF.verts_mem F.v0 (by simp [FaceAt.verts])
  have ev : F.v0 - F.center = smul (s * F.hx) F.x + smul (t * F.hz) F.z := by
    conv_lhs => rw [e]
    ext <;> simp <;> ring
  rw [ev, dot_add_left, dot_smul_left, dot_smul_left, hF.xn, hF.zn]; ring

/-- Pythagoras in the frame of the face. -/
theorem FaceAt.Of.parseval {F : FaceAt} {S : V3 ℝ → Prop} (hF : F.Of S) (u v : V3 ℝ) :
    dot u v = dot u F.x * dot v F.x + dot u F.normal * dot v F.normal + dot u F.z * dot v F.z := by
  have e := hF.split (F.center + u)
  have e' : F.center + u - F.center = u := by ext <;> simp
  rw [e'] at e
  have eu : u = smul (dot u F.x) F.x + smul (dot u F.normal) F.normal + smul (dot u F.z) F.z := by
    have hx := congrArg V3.x e; have hy := congrArg V3.y e; have hz := congrArg V3.z e
    simp only [V3.add_x, V3.add_y, V3.add_z] at hx hy hz
    ext <;> simp only [V3.add_x, V3.add_y, V3.add_z] <;> linarith
  conv_lhs => rw [eu]
  simp only [dot_add_left, dot_smul_left]
  rw [dot_comm F.x v, dot_comm F.normal v, dot_comm F.z v]

theorem FaceAt.Flat.small {F : FaceAt} {d : V3 ℝ} {tol proj : ℝ} (h : F.Flat d tol proj) (ht : 0 < tol) (hx : 2 * tol ≤ F.hx)
    (hz : 2 * tol ≤ F.hz) : |dot F.x d| ≤ 1 / 4 ∧ |dot F.z d| ≤ 1 / 4 := by
  have h1 := h.ax
  have a := abs_nonneg (dot F.x d)
  have b := abs_nonneg (dot F.z d)
  constructor
  · by_contra hc; nlinarith
  · by_contra hc; nlinarith

theorem lagrange (u v : V3 ℝ) : lengthSqr (cross u v) = lengthSqr u * lengthSqr v - dot u v * dot u v := by
  simp only [lengthSqr, dot, cross]; ring

/-- The normal of a flat face is inclined to the direction by at most 21°. -/
theorem FaceAt.Of.inclined {F : FaceAt} {S : V3 ℝ → Prop} (hF : F.Of S) {d : V3 ℝ} (hd : lengthSqr d = 1) {tol proj : ℝ}
    (h : F.Flat d tol proj) (ht : 0 < tol) (hx : 2 * tol ≤ F.hx) (hz : 2 * tol ≤ F.hz) :
    8 * lengthSqr (cross F.normal d) ≤ 1 ∧ 7 / 8 ≤ dot F.normal d * dot F.normal d := by
  obtain ⟨a, b⟩ := h.small ht hx hz
  have e := hF.parseval d d
  have dd : dot d d = 1 := hd
  rw [dd, dot_comm d F.x, dot_comm d F.normal, dot_comm d F.z] at e
  have a2 : dot F.x d * dot F.x d ≤ 1 / 16 := by
    have := abs_mul_abs_self (dot F.x d); nlinarith [abs_nonneg (dot F.x d)]
  have b2 : dot F.z d * dot F.z d ≤ 1 / 16 := by
    have := abs_mul_abs_self (dot F.z d); nlinarith [abs_nonneg (dot F.z d)]
  rw [lagrange, hF.un, hd]
  constructor <;> linarith

/-- A cut is not beyond the border by more than the tolerance, for segments which are not perpendicular to the face. -/
theorem cut_near {F : FaceAt} {S : V3 ℝ → Prop} (hF : F.Of S) {eps : ℝ} (he : 0 < eps) {e0 e1 : V3 ℝ}
    (hne : eps ≤ |dot (e1 - e0) F.x| ∨ eps ≤ |dot (e1 - e0) F.z|) {s : ℝ} (hs : F.Cut eps e0 e1 s) :
    |dot (smul (1 - s) e0 + smul s e1 - F.center) F.x| ≤ F.hx + eps ∧ |dot (smul (1 - s) e0 + smul s e1 - F.center) F.z| ≤ F.hz + eps := by
  obtain ⟨hm, s0, s1⟩ := hs
  have lin : ∀ u, dot (smul (1 - s) e0 + smul s e1 - F.center) u = dot (e0 - F.center) u + s * dot (e1 - e0) u := by
    intro u; simp only [dot_sub_left, dot_add_left, dot_smul_left]; ring
  have dif : ∀ u, dot (e1 - F.center) u - dot (e0 - F.center) u = dot (e1 - e0) u := by
    intro u; simp only [dot_sub_left]; ring
  rw [lin, lin]
  by_cases a1 : |dot (e1 - e0) F.x| < eps
  · have a2 : eps ≤ |dot (e1 - e0) F.z| := by
      rcases hne with h | h
      · exact absurd a1 (not_lt.2 h)
      · exact h
    have z0 : dot (e1 - e0) F.z ≠ 0 := by
      intro h; rw [h, abs_zero] at a2; linarith
    unfold FaceAt.cuts lineAabb at hm
    simp only [sub2, FaceAt.flat, dif] at hm
    rw [if_pos a1] at hm
    split_ifs at hm with hin
    · have hx : |s * dot (e1 - e0) F.x| ≤ eps := by
        rw [abs_mul, abs_of_nonneg s0]; nlinarith [abs_nonneg (dot (e1 - e0) F.x)]
      rw [abs_le] at hx
      refine ⟨by rw [abs_le]; constructor <;> linarith, ?_⟩
      have hz : dot (e0 - F.center) F.z + s * dot (e1 - e0) F.z = -F.hz ∨ dot (e0 - F.center) F.z + s * dot (e1 - e0) F.z = F.hz := by
        simp only [List.mem_cons, List.not_mem_nil, or_false] at hm
        rcases hm with rfl | rfl
        · left; field_simp; ring
        · right; field_simp; ring
      have pz := hF.pz
      rcases hz with h | h <;> rw [h, abs_le] <;> constructor <;> linarith
    · simp at hm
  · by_cases a2 : |dot (e1 - e0) F.z| < eps
    · have x0 : dot (e1 - e0) F.x ≠ 0 := by
        intro h; rw [h, abs_zero] at a1; linarith
      unfold FaceAt.cuts lineAabb at hm
      simp only [sub2, FaceAt.flat, dif] at hm
      rw [if_neg a1, if_pos a2] at hm
      split_ifs at hm with hin
      · have hz : |s * dot (e1 - e0) F.z| ≤ eps := by
          rw [abs_mul, abs_of_nonneg s0]; nlinarith [abs_nonneg (dot (e1 - e0) F.z)]
        rw [abs_le] at hz
        refine ⟨?_, by rw [abs_le]; constructor <;> linarith⟩
        have hx : dot (e0 - F.center) F.x + s * dot (e1 - e0) F.x = -F.hx ∨ dot (e0 - F.center) F.x + s * dot (e1 - e0) F.x = F.hx := by
          simp only [List.mem_cons, List.not_mem_nil, or_false] at hm
          rcases hm with rfl | rfl
          · left; field_simp; ring
          · right; field_simp; ring
        have px := hF.px
        rcases hx with h | h <;> rw [h, abs_le] <;> constructor <;> linarith
      · simp at hm
    · have px := hF.px
      have pz := hF.pz
      have := (line_aabb_partial eps he (F.flat e0) (F.flat e1) ⟨-F.hx, -F.hz⟩ ⟨F.hx, F.hz⟩ (by simp only; linarith)
        (by simp only; linarith) (by simp only [FaceAt.flat, dif]; exact not_lt.1 a1)
        (by simp only [FaceAt.flat, dif]; exact not_lt.1 a2)).1 s hm
      obtain ⟨⟨⟨x1, x2⟩, z1, z2⟩, _⟩ := this
      simp only [along2, FaceAt.flat, dif] at x1 x2 z1 z2
      rw [abs_le, abs_le]
      refine ⟨⟨?_, ?_⟩, ?_, ?_⟩ <;> linarith

theorem over_near {F : FaceAt} {S : V3 ℝ → Prop} (hF : F.Of S) {eps tol : ℝ} (hT : Tols eps tol) (hx : 2 * tol ≤ F.hx)
    (hz : 2 * tol ≤ F.hz) {p : V3 ℝ} (h : F.Over eps p) :
    |dot (p - F.center) F.x| ≤ F.hx + tol ∧ |dot (p - F.center) F.z| ≤ F.hz + tol := by
  obtain ⟨h1, h2⟩ := h
  have t0 := hT.tpos
  have t1 := hT.sq
  constructor
  · by_contra hc; nlinarith
  · by_contra hc; nlinarith

/-- An edge of a flat face of one box is not perpendicular to a flat face of the other. -/
theorem not_upright {F : FaceAt} {S : V3 ℝ → Prop} (hF : F.Of S) {eps tol proj : ℝ} (hT : Tols eps tol) {d : V3 ℝ}
    (hd : lengthSqr d = 1) (h : F.Flat d tol proj) (hx : 2 * tol ≤ F.hx) (hz : 2 * tol ≤ F.hz) {u : V3 ℝ}
    (hu : 16 * (tol * tol) ≤ lengthSqr u) (hl : |dot u d| ≤ tol) : eps ≤ |dot u F.x| ∨ eps ≤ |dot u F.z| := by
  by_contra hc
  simp only [not_or, not_le] at hc
  obtain ⟨c1, c2⟩ := hc
  obtain ⟨a, b⟩ := h.small hT.tpos hx hz
  obtain ⟨-, hn⟩ := hF.inclined hd h hT.tpos hx hz
  have e1 := hF.parseval u u
  have e2 := hF.parseval u d
  rw [dot_comm d F.x, dot_comm d F.normal, dot_comm d F.z] at e2
  have hu' : 16 * (tol * tol) ≤ dot u u := hu
  have t0 := hT.tpos
  have et : eps ≤ tol := by nlinarith [hT.sq, hT.one]
  have m1 : |dot u F.x * dot F.x d| ≤ tol / 4 := by
    rw [abs_mul]; nlinarith [abs_nonneg (dot u F.x), abs_nonneg (dot F.x d)]
  have m2 : |dot u F.z * dot F.z d| ≤ tol / 4 := by
    rw [abs_mul]; nlinarith [abs_nonneg (dot u F.z), abs_nonneg (dot F.z d)]
  have q1 : dot u F.x * dot u F.x ≤ tol * tol := by
    have := abs_mul_abs_self (dot u F.x); nlinarith [abs_nonneg (dot u F.x)]
  have q2 : dot u F.z * dot u F.z ≤ tol * tol := by
    have := abs_mul_abs_self (dot u F.z); nlinarith [abs_nonneg (dot u F.z)]
  have m3 : |dot u F.normal * dot F.normal d| ≤ 3 / 2 * tol := by
    rw [abs_le] at *
    obtain ⟨_, _⟩ := m1
    obtain ⟨_, _⟩ := m2
    obtain ⟨_, _⟩ := hl
    constructor <;> linarith
  have m4 : (dot u F.normal * dot F.normal d) * (dot u F.normal * dot F.normal d) ≤ 9 / 4 * (tol * tol) := by
    have := abs_mul_abs_self (dot u F.normal * dot F.normal d)
    nlinarith [abs_nonneg (dot u F.normal * dot F.normal d)]
  have q3 : 14 * (tol * tol) ≤ dot u F.normal * dot u F.normal := by linarith
  have : 14 * (tol * tol) * (7 / 8) ≤ (dot u F.normal * dot u F.normal) * (dot F.normal d * dot F.normal d) := by
    apply mul_le_mul q3 hn (by norm_num) (by nlinarith)
  nlinarith

theorem side_long {F : FaceAt} {S : V3 ℝ → Prop} (hF : F.Of S) {tol : ℝ} (ht : 0 < tol) (hx : 2 * tol ≤ F.hx)
    (hz : 2 * tol ≤ F.hz) {e : V3 ℝ × V3 ℝ} (he : e ∈ F.edges) : 16 * (tol * tol) ≤ lengthSqr (e.2 - e.1) ∧ e.1 ∈ F.verts ∧ e.2 ∈ F.verts := by
  have ux : dot F.x F.x = 1 := hF.ux
  have uz : dot F.z F.z = 1 := hF.uz
  refine ⟨?_, ?_⟩
  · rcases hF.sides e he with h | h | h | h <;> rw [h] <;> unfold lengthSqr <;> rw [dot_smul_left, dot_smul_right] <;>
      first | rw [ux] | rw [uz]
    all_goals nlinarith
  · simp only [FaceAt.edges, List.mem_cons, List.not_mem_nil, or_false] at he
    rcases he with rfl | rfl | rfl | rfl <;> simp [FaceAt.verts]

end Edyn.Collide
