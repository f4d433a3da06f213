import Verif.Collide.BoxExact
import Mathlib.Topology.Order.IntermediateValue

/-!
# Boxes in clear position which meet get a contact point (C87)
-/

namespace Edyn.Collide

open Edyn.Math hiding lengthSqr_nonneg
open V3 Edyn.Geom Edyn.Contact

/-! ## Specification -/

/-- The boxes are in clear position with respect to the axis `n`: their edges are parallel or clearly not so, the ends of
each edge are level along the axis or at least the tolerance apart, and, seen along the axis, no corner of one of them
lies on the line through an edge of the other, except for edges parallel to an edge of the first one. -/
structure General (eps tol : ℝ) (hA hB : V3 ℝ) (c : Ctx) (n : V3 ℝ) : Prop where
  edges : ClearEdges eps c
  featA : ClearFeature tol hA c.ornA n
  featB : ClearFeature tol hB c.ornB n
  cornerA : ∀ v w, WorldCorner hA c.posA c.ornA v → WorldCorner hB c.posB c.ornB w → ∀ b ∈ [ex, ey, ez],
    (∀ a ∈ [ex, ey, ez], cross (Quat.rotate c.ornA a) (Quat.rotate c.ornB b) ≠ 0) →
    ∀ s, cross (v - (w + smul s (Quat.rotate c.ornB b))) n ≠ 0
  cornerB : ∀ v w, WorldCorner hA c.posA c.ornA v → WorldCorner hB c.posB c.ornB w → ∀ a ∈ [ex, ey, ez],
    (∀ b ∈ [ex, ey, ez], cross (Quat.rotate c.ornB b) (Quat.rotate c.ornA a) ≠ 0) →
    ∀ s, cross (w - (v + smul s (Quat.rotate c.ornA a))) n ≠ 0

/-! ## Segments and rectangles in the plane -/

theorem mid {a d h s t : ℝ} (hs : |a + s * d| ≤ h) (ht : |a + t * d| ≤ h) (s0 : s ≤ 0) (t0 : 0 ≤ t) (hst : s < t) : |a| ≤ h := by
  rw [abs_le] at *
  have e : (t - s) * a = t * (a + s * d) + -s * (a + t * d) := by ring
  have h0 : 0 < t - s := by linarith
  constructor
  · have : (t - s) * -h ≤ (t - s) * a := by rw [e]; nlinarith [hs.1, ht.1]
    exact le_of_mul_le_mul_left this h0
  · have : (t - s) * a ≤ (t - s) * h := by rw [e]; nlinarith [hs.2, ht.2]
    exact le_of_mul_le_mul_left this h0

/-- A segment from outside of a rectangle to a point in it crosses the border. -/
theorem crosses {a d b e hx hz t : ℝ} (t0 : 0 ≤ t) (h0 : ¬ (|a| ≤ hx ∧ |b| ≤ hz)) (h1 : |a + t * d| ≤ hx ∧ |b + t * e| ≤ hz) :
    ∃ τ, 0 ≤ τ ∧ τ ≤ t ∧ |a + τ * d| ≤ hx ∧ |b + τ * e| ≤ hz ∧ (|a + τ * d| = hx ∨ |b + τ * e| = hz) := by
  have hc : ContinuousOn (fun τ : ℝ => max (|a + τ * d| - hx) (|b + τ * e| - hz)) (Set.Icc 0 t) := by fun_prop
  have f0 : 0 ≤ max (|a + 0 * d| - hx) (|b + 0 * e| - hz) := by
    by_contra hn
    rw [not_le, max_lt_iff] at hn
    apply h0
    simp only [zero_mul, add_zero] at hn
    exact ⟨by linarith [hn.1], by linarith [hn.2]⟩
  have f1 : max (|a + t * d| - hx) (|b + t * e| - hz) ≤ 0 := max_le (by linarith [h1.1]) (by linarith [h1.2])
  obtain ⟨τ, ⟨τ0, τ1⟩, hτ⟩ := intermediate_value_Icc' t0 hc ⟨f1, f0⟩
  have hτ : max (|a + τ * d| - hx) (|b + τ * e| - hz) = 0 := hτ
  have u1 := le_max_left (|a + τ * d| - hx) (|b + τ * e| - hz)
  have u2 := le_max_right (|a + τ * d| - hx) (|b + τ * e| - hz)
  refine ⟨τ, τ0, τ1, by linarith, by linarith, ?_⟩
  rcases max_choice (|a + τ * d| - hx) (|b + τ * e| - hz) with e | e
  · left; linarith
  · right; linarith

/-- A segment with both ends outside which meets the rectangle is cut. -/
theorem seg_cut {eps hx hz : ℝ} (he : 0 < eps) (px : 0 < hx) (pz : 0 < hz) (p0 p1 : V2) (o0 : ¬ (|p0.x| ≤ hx ∧ |p0.y| ≤ hz))
    (o1 : ¬ (|p1.x| ≤ hx ∧ |p1.y| ≤ hz)) {t : ℝ} (t0 : 0 ≤ t) (t1 : t ≤ 1)
    (hin : |(along2 p0 p1 t).x| ≤ hx ∧ |(along2 p0 p1 t).y| ≤ hz) (dx : p1.x - p0.x = 0 ∨ eps ≤ |p1.x - p0.x|)
    (dy : p1.y - p0.y = 0 ∨ eps ≤ |p1.y - p0.y|)
    (bad : p1.x - p0.x ≠ 0 → p1.y - p0.y ≠ 0 → ∀ s, along2 p0 p1 s ≠ ⟨-hx, hz⟩ ∧ along2 p0 p1 s ≠ ⟨hx, -hz⟩) :
    ∃ s ∈ lineAabb eps p0 p1 ⟨-hx, -hz⟩ ⟨hx, hz⟩, 0 ≤ s ∧ s ≤ 1 := by
  simp only [along2] at hin
  have unit : ∀ s, |p0.x + s * (p1.x - p0.x)| ≤ hx → |p0.y + s * (p1.y - p0.y)| ≤ hz → 0 ≤ s ∧ s ≤ 1 := by
    intro s h1 h2
    constructor
    · by_contra hs
      rw [not_le] at hs
      exact o0 ⟨mid h1 hin.1 hs.le t0 (by linarith), mid h2 hin.2 hs.le t0 (by linarith)⟩
    · by_contra hs
      rw [not_le] at hs
      have e : ∀ a b r : ℝ, a + r * (b - a) = b + (r - 1) * (b - a) := by intro a b r; ring
      rw [e] at h1 h2
      obtain ⟨g1, g2⟩ := hin
      rw [e] at g1 g2
      exact o1 ⟨mid g1 h1 (by linarith) (by linarith) (by linarith), mid g2 h2 (by linarith) (by linarith) (by linarith)⟩
  rcases dx with dx | dx
  · -- parallel to the second axis
    have dy0 : p1.y - p0.y ≠ 0 := by
      intro h
      rw [dx, h, mul_zero, add_zero, add_zero] at hin
      exact o0 hin
    rw [dx, mul_zero, add_zero] at hin
    have hx' := abs_le.1 hin.1
    refine ⟨(-hz - p0.y) / (p1.y - p0.y), ?_, unit _ ?_ ?_⟩
    · unfold lineAabb
      simp only [sub2, dx, abs_zero]
      rw [if_pos he, if_pos ⟨by linarith, by linarith⟩]
      simp
    · rw [dx, mul_zero, add_zero]; exact hin.1
    · rw [div_mul_cancel₀ _ dy0, show p0.y + (-hz - p0.y) = -hz by ring, abs_neg, abs_of_pos pz]
  have dx0 : p1.x - p0.x ≠ 0 := by intro h; rw [h, abs_zero] at dx; linarith
  rcases dy with dy | dy
  · rw [dy, mul_zero, add_zero] at hin
    have hy' := abs_le.1 hin.2
    refine ⟨(-hx - p0.x) / (p1.x - p0.x), ?_, unit _ ?_ ?_⟩
    · unfold lineAabb
      simp only [sub2, dy, abs_zero]
      rw [if_neg (not_lt.2 dx), if_pos he, if_pos ⟨by linarith, by linarith⟩]
      simp
    · rw [div_mul_cancel₀ _ dx0, show p0.x + (-hx - p0.x) = -hx by ring, abs_neg, abs_of_pos px]
    · rw [dy, mul_zero, add_zero]; exact hin.2
  have dy0 : p1.y - p0.y ≠ 0 := by intro h; rw [h, abs_zero] at dy; linarith
  obtain ⟨k1, k2⟩ := line_aabb_partial eps he p0 p1 ⟨-hx, -hz⟩ ⟨hx, hz⟩ (by simp only; linarith) (by simp only; linarith) dx dy
  obtain ⟨τ, -, -, i1, i2, i3⟩ := crosses t0 o0 hin
  have on : onBox2 ⟨-hx, -hz⟩ ⟨hx, hz⟩ (along2 p0 p1 τ) := by
    rw [abs_le] at i1 i2
    refine ⟨⟨i1, i2⟩, ?_⟩
    simp only [along2]
    rcases i3 with i3 | i3
    · rcases abs_cases (p0.x + τ * (p1.x - p0.x)) with ⟨e, _⟩ | ⟨e, _⟩
      · exact .inr (.inl (by linarith))
      · exact .inl (by linarith)
    · rcases abs_cases (p0.y + τ * (p1.y - p0.y)) with ⟨e, _⟩ | ⟨e, _⟩
      · exact .inr (.inr (.inr (by linarith)))
      · exact .inr (.inr (.inl (by linarith)))
  obtain ⟨s, hs, -⟩ := k2 τ on (bad dx0 dy0 τ).1 (bad dx0 dy0 τ).2
  obtain ⟨⟨s1, s2⟩, -⟩ := k1 s hs
  simp only [along2] at s1 s2
  exact ⟨s, hs, unit s (abs_le.2 s1) (abs_le.2 s2)⟩

/-! ## Segments and faces -/

/-- The point is over the face, exactly. -/
def FaceAt.Inside (F : FaceAt) (p : V3 ℝ) : Prop := |dot (p - F.center) F.x| ≤ F.hx ∧ |dot (p - F.center) F.z| ≤ F.hz

theorem FaceAt.Inside.over {F : FaceAt} {S : V3 ℝ → Prop} (hF : F.Of S) {eps : ℝ} (he : 0 ≤ eps) {p : V3 ℝ} (h : F.Inside p) : F.Over eps p := by
  have := hF.px; have := hF.pz
  obtain ⟨h1, h2⟩ := h
  constructor
  · nlinarith
  · nlinarith

theorem seg_dot (e0 e1 p u : V3 ℝ) (t : ℝ) : dot (smul (1 - t) e0 + smul t e1 - p) u = dot (e0 - p) u + t * dot (e1 - e0) u := by
  simp only [dot_sub_left, dot_add_left, dot_smul_left]; ring

theorem FaceAt.Of.upright {F : FaceAt} {S : V3 ℝ → Prop} (hF : F.Of S) {u : V3 ℝ} (hx : dot u F.x = 0) (hz : dot u F.z = 0) :
    cross u F.normal = 0 := by
  by_contra hc
  refine lengthSqr_ne hc ?_
  rw [lagrange, hF.un]
  have := hF.parseval u u
  rw [hx, hz] at this
  unfold lengthSqr
  linarith

theorem face_cut {F : FaceAt} {S : V3 ℝ → Prop} (hF : F.Of S) {eps : ℝ} (he : 0 < eps) {e0 e1 : V3 ℝ} (o0 : ¬ F.Inside e0) (o1 : ¬ F.Inside e1)
    {t : ℝ} (t0 : 0 ≤ t) (t1 : t ≤ 1) (hin : F.Inside (smul (1 - t) e0 + smul t e1))
    (dx : dot (e1 - e0) F.x = 0 ∨ eps ≤ |dot (e1 - e0) F.x|) (dz : dot (e1 - e0) F.z = 0 ∨ eps ≤ |dot (e1 - e0) F.z|)
    (bad : dot (e1 - e0) F.x ≠ 0 → dot (e1 - e0) F.z ≠ 0 → ∀ v ∈ F.verts, ∀ s, cross (v - (e0 + smul s (e1 - e0))) F.normal ≠ 0) :
    ∃ s, F.Cut eps e0 e1 s := by
  have dif : ∀ u, dot (e1 - F.center) u - dot (e0 - F.center) u = dot (e1 - e0) u := by
    intro u; simp only [dot_sub_left]; ring
  have ux : dot F.x F.x = 1 := hF.ux
  have uz : dot F.z F.z = 1 := hF.uz
  have zx : dot F.z F.x = 0 := (dot_comm _ _).trans hF.xz
  have key := seg_cut (eps := eps) he hF.px hF.pz (F.flat e0) (F.flat e1) o0 o1 t0 t1 ?_ ?_ ?_ ?_
  · obtain ⟨s, h1, h2, h3⟩ := key
    exact ⟨s, h1, h2, h3⟩
  · unfold FaceAt.Inside at hin
    simp only [along2, FaceAt.flat, dif]
    rw [seg_dot, seg_dot] at hin
    exact hin
  · simp only [FaceAt.flat, dif]; exact dx
  · simp only [FaceAt.flat, dif]; exact dz
  · simp only [FaceAt.flat, along2, dif]
    intro n1 n2 s
    have corner : ∀ σ τ : ℝ, (σ = 1 ∨ σ = -1) → (τ = 1 ∨ τ = -1) → dot (e0 - F.center) F.x + s * dot (e1 - e0) F.x = σ * F.hx →
        dot (e0 - F.center) F.z + s * dot (e1 - e0) F.z = τ * F.hz → False := by
      intro σ τ hσ hτ a1 a2
      refine bad n1 n2 _ (hF.mem_verts σ τ hσ hτ) s (hF.upright ?_ ?_)
      · simp only [dot_sub_left, dot_add_left, dot_smul_left, ux, zx] at a1 ⊢; linarith
      · simp only [dot_sub_left, dot_add_left, dot_smul_left, uz, hF.xz] at a2 ⊢; linarith
    constructor
    · intro h
      obtain ⟨h1, h2⟩ := V2.mk.inj h
      exact corner (-1) 1 (.inr rfl) (.inl rfl) (by linarith) (by linarith)
    · intro h
      obtain ⟨h1, h2⟩ := V2.mk.inj h
      exact corner 1 (-1) (.inl rfl) (.inr rfl) (by linarith) (by linarith)

/-! ## Edges of the other box along a face -/

theorem axes_dot {a b : V3 ℝ} (ha : a ∈ [ex, ey, ez]) (hb : b ∈ [ex, ey, ez]) : a = b ∨ dot a b = 0 := by
  simp only [List.mem_cons, List.not_mem_nil, or_false] at ha hb
  rcases ha with rfl | rfl | rfl <;> rcases hb with rfl | rfl | rfl <;>
    first | exact .inl rfl | (right; simp [dot, ex, ey, ez]; done)

theorem axis_unit {a : V3 ℝ} (ha : a ∈ [ex, ey, ez]) : lengthSqr a = 1 := by
  simp only [List.mem_cons, List.not_mem_nil, or_false] at ha
  rcases ha with rfl | rfl | rfl <;> simp [lengthSqr, dot, ex, ey, ez]

theorem axis_other {a : V3 ℝ} (ha : a ∈ [ex, ey, ez]) : ∃ e ∈ [ex, ey, ez], dot e a = 0 := by
  simp only [List.mem_cons, List.not_mem_nil, or_false] at ha
  rcases ha with rfl | rfl | rfl
  · exact ⟨ey, by simp, by simp [dot, ex, ey]⟩
  · exact ⟨ex, by simp, by simp [dot, ex, ey]⟩
  · exact ⟨ex, by simp, by simp [dot, ex, ez]⟩

theorem cross_pm {r x u : V3 ℝ} (h : x = r ∨ x = -r) : lengthSqr (cross x u) = lengthSqr (cross r u) := by
  rcases h with rfl | rfl
  · rfl
  · simp [lengthSqr, dot, cross]; ring

theorem along_face {F : FaceAt} {S : V3 ℝ → Prop} (hF : F.Of S) {eps tol : ℝ} (hT : Tols eps tol) {q : Quat ℝ} (hq : q.lengthSqr = 1)
    (hX : ∃ a ∈ [ex, ey, ez], F.x = Quat.rotate q a ∨ F.x = -Quat.rotate q a) (hZ : ∃ a ∈ [ex, ey, ez], F.z = Quat.rotate q a ∨ F.z = -Quat.rotate q a)
    {u : V3 ℝ} (hu : lengthSqr u = 1) (hn : dot u F.normal = 0)
    (hcl : ∀ a ∈ [ex, ey, ez], cross (Quat.rotate q a) u = 0 ∨ eps < lengthSqr (cross (Quat.rotate q a) u)) {k : ℝ} (hk : 4 * tol ≤ |k|) :
    (dot (smul k u) F.x = 0 ∨ eps ≤ |dot (smul k u) F.x|) ∧ (dot (smul k u) F.z = 0 ∨ eps ≤ |dot (smul k u) F.z|) ∧
    (dot (smul k u) F.x ≠ 0 → dot (smul k u) F.z ≠ 0 → ∀ a ∈ [ex, ey, ez], cross (Quat.rotate q a) u ≠ 0) := by
  have he := hT.pos
  have tp := hT.tpos
  have sq : dot u F.x * dot u F.x + dot u F.z * dot u F.z = 1 := by
    have e := hF.parseval u u
    rw [hn, show dot u u = 1 from hu] at e; linarith
  have cx : lengthSqr (cross F.x u) = dot u F.z * dot u F.z := by rw [lagrange, hF.ux, hu, dot_comm F.x u]; linarith
  have cz : lengthSqr (cross F.z u) = dot u F.x * dot u F.x := by rw [lagrange, hF.uz, hu, dot_comm F.z u]; linarith
  have z0 : lengthSqr (0 : V3 ℝ) = 0 := by simp [lengthSqr, dot]
  have one : ∀ m : ℝ, (m * m = 0 ∨ eps < m * m) → k * m = 0 ∨ eps ≤ |k * m| := by
    rintro m (h | h)
    · left; rw [mul_self_eq_zero.1 h, mul_zero]
    · right
      by_contra hc
      rw [not_le] at hc
      have a0 := abs_nonneg (k * m)
      have h1 : |k * m| * |k * m| < eps * eps := by nlinarith
      rw [abs_mul_abs_self] at h1
      have h2 : 16 * (tol * tol) ≤ k * k := by
        rw [← abs_mul_abs_self k]; nlinarith
      have h3 : eps * eps ≤ tol * tol * (m * m) := by
        have := hT.sq
        have : 0 ≤ tol * tol := by positivity
        nlinarith
      have h4 : 0 ≤ m * m := mul_self_nonneg m
      nlinarith
  rw [dot_smul_left, dot_smul_left]
  obtain ⟨a1, m1, hX⟩ := hX
  obtain ⟨a2, m2, hZ⟩ := hZ
  have ex1 := cross_pm (u := u) hX
  have ez1 := cross_pm (u := u) hZ
  refine ⟨one _ ?_, one _ ?_, ?_⟩
  · rw [← cz, ez1]
    rcases hcl a2 m2 with h | h
    · left; rw [h, z0]
    · exact .inr h
  · rw [← cx, ex1]
    rcases hcl a1 m1 with h | h
    · left; rw [h, z0]
    · exact .inr h
  · intro n1 n2 a ha h0
    rcases axes_dot ha m1 with rfl | d1
    · rw [h0, z0, cx] at ex1
      rw [mul_self_eq_zero.1 ex1, mul_zero] at n2; exact n2 rfl
    rcases axes_dot ha m2 with rfl | d2
    · rw [h0, z0, cz] at ez1
      rw [mul_self_eq_zero.1 ez1, mul_zero] at n1; exact n1 rfl
    have r1 : dot (Quat.rotate q a) F.x = 0 := by
      rcases hX with e | e <;> rw [e]
      · rw [rotate_dot q hq, d1]
      · rw [dot_neg_right, rotate_dot q hq, d1, neg_zero]
    have r2 : dot (Quat.rotate q a) F.z = 0 := by
      rcases hZ with e | e <;> rw [e]
      · rw [rotate_dot q hq, d2]
      · rw [dot_neg_right, rotate_dot q hq, d2, neg_zero]
    have e := hF.parseval u (Quat.rotate q a)
    rw [r1, r2, hn] at e
    have l := lagrange (Quat.rotate q a) u
    rw [h0, z0, hu, rotate_unit hq (axis_unit ha), dot_comm, e] at l
    norm_num at l

/-! ## The axis -/

theorem towardsA_pm (c : Ctx) (u : V3 ℝ) : towardsA c u = u ∨ towardsA c u = -u := by
  unfold towardsA; split
  · exact .inr rfl
  · exact .inl rfl

theorem dot_cross_left (a b : V3 ℝ) : dot a (cross a b) = 0 := by simp [dot, cross]; ring
theorem dot_cross_right (a b : V3 ℝ) : dot b (cross a b) = 0 := by simp [dot, cross]; ring

theorem boxAxes_mem {h : V3 ℝ} {q : Quat ℝ} {a : V3 ℝ × ℝ} (ha : a ∈ boxAxes h q) : ∃ e ∈ [ex, ey, ez], a.1 = Quat.rotate q e := by
  simp only [boxAxes, List.mem_cons, List.not_mem_nil, or_false] at ha
  rcases ha with rfl | rfl | rfl
  · exact ⟨ex, by simp, rfl⟩
  · exact ⟨ey, by simp, rfl⟩
  · exact ⟨ez, by simp, rfl⟩

/-- The axis is one of the box A, or one of the box B, or perpendicular to an edge of each. -/
theorem cand_dir {eps : ℝ} {hA hB : V3 ℝ} {c : Ctx} {x : ℝ} {n : V3 ℝ} (h : (x, n) ∈ boxBoxCands eps hA hB c) :
    (∃ a ∈ [ex, ey, ez], n = Quat.rotate c.ornA a ∨ n = -Quat.rotate c.ornA a) ∨
    (∃ b ∈ [ex, ey, ez], n = Quat.rotate c.ornB b ∨ n = -Quat.rotate c.ornB b) ∨
    ∃ a ∈ [ex, ey, ez], ∃ b ∈ [ex, ey, ez], dot (Quat.rotate c.ornA a) n = 0 ∧ dot (Quat.rotate c.ornB b) n = 0 := by
  unfold boxBoxCands at h
  rcases List.mem_append.1 h with h | h
  · rcases List.mem_append.1 h with h | h
    · obtain ⟨a, ha, e⟩ := List.mem_map.1 h
      obtain ⟨f, hf, ef⟩ := boxAxes_mem ha
      have e := congrArg Prod.snd e
      simp only [candFaceA] at e
      left
      refine ⟨f, hf, ?_⟩
      rw [← e, ← ef]; exact towardsA_pm c a.1
    · obtain ⟨a, ha, e⟩ := List.mem_map.1 h
      obtain ⟨f, hf, ef⟩ := boxAxes_mem ha
      have e := congrArg Prod.snd e
      simp only [candFaceB] at e
      right; left
      refine ⟨f, hf, ?_⟩
      rw [← e, ← ef]; exact towardsA_pm c a.1
  · obtain ⟨a, ha, h⟩ := List.mem_flatMap.1 h
    obtain ⟨b, hb, h⟩ := List.mem_flatMap.1 h
    obtain ⟨f, hf, ef⟩ := boxAxes_mem ha
    obtain ⟨g, hg, eg⟩ := boxAxes_mem hb
    unfold candEdge at h
    simp only at h
    split at h
    · simp only [List.mem_singleton] at h
      have e := congrArg Prod.snd h
      simp only at e
      right; right
      refine ⟨f, hf, g, hg, ?_⟩
      rw [e, ← ef, ← eg]
      rcases towardsA_pm c (smul (1 / Real.sqrt (lengthSqr (cross a.1 b.1))) (cross a.1 b.1)) with k | k <;> rw [k]
      · rw [dot_smul_right, dot_smul_right, dot_cross_left, dot_cross_right]; simp
      · rw [dot_neg_right, dot_neg_right, dot_smul_right, dot_smul_right, dot_cross_left, dot_cross_right]; simp
    · simp at h

theorem clear_neg {tol : ℝ} {h : V3 ℝ} {q : Quat ℝ} {n : V3 ℝ} (hc : ClearFeature tol h q n) : ClearFeature tol h q (-n) := by
  unfold ClearFeature at *
  simpa only [dot_neg_right, abs_neg, neg_eq_zero] using hc

/-- A face and an edge of the other box with a point of the edge over the face. -/
theorem face_edge_hit {F : FaceAt} {S : V3 ℝ → Prop} (hF : F.Of S) {eps tol : ℝ} (hT : Tols eps tol) {q : Quat ℝ} (hq : q.lengthSqr = 1)
    (hX : ∃ a ∈ [ex, ey, ez], F.x = Quat.rotate q a ∨ F.x = -Quat.rotate q a) (hZ : ∃ a ∈ [ex, ey, ez], F.z = Quat.rotate q a ∨ F.z = -Quat.rotate q a)
    {u : V3 ℝ} (hu : lengthSqr u = 1) (hn : dot u F.normal = 0)
    (hcl : ∀ a ∈ [ex, ey, ez], cross (Quat.rotate q a) u = 0 ∨ eps < lengthSqr (cross (Quat.rotate q a) u)) {k : ℝ} (hk : 4 * tol ≤ |k|)
    {e0 e1 : V3 ℝ} (hek : e1 - e0 = smul k u)
    (bad : (∀ a ∈ [ex, ey, ez], cross (Quat.rotate q a) u ≠ 0) → ∀ v ∈ F.verts, ∀ s, cross (v - (e0 + smul s u)) F.normal ≠ 0)
    {t : ℝ} (t0 : 0 ≤ t) (t1 : t ≤ 1) (hin : F.Inside (smul (1 - t) e0 + smul t e1)) :
    F.Inside e0 ∨ F.Inside e1 ∨ ∃ s, F.Cut eps e0 e1 s := by
  by_cases o0 : F.Inside e0
  · exact .inl o0
  by_cases o1 : F.Inside e1
  · exact .inr (.inl o1)
  right; right
  obtain ⟨a1, a2, a3⟩ := along_face hF hT hq hX hZ hu hn hcl hk
  refine face_cut hF hT.pos o0 o1 t0 t1 hin (by rw [hek]; exact a1) (by rw [hek]; exact a2) ?_
  rw [hek]
  intro n1 n2 v hv s
  have := bad (a3 n1 n2) v hv (s * k)
  rwa [show smul (s * k) u = smul s (smul k u) by ext <;> simp <;> ring] at this

/-- Two faces with a point over both. -/
theorem face_face_hit {FA FB : FaceAt} {SA SB : V3 ℝ → Prop} (hA : FA.Of SA) (hB : FB.Of SB) {eps tol : ℝ} (hT : Tols eps tol)
    {q r : Quat ℝ} (hq : q.lengthSqr = 1) (hr : r.lengthSqr = 1)
    (hX : ∃ a ∈ [ex, ey, ez], FA.x = Quat.rotate q a ∨ FA.x = -Quat.rotate q a) (hZ : ∃ a ∈ [ex, ey, ez], FA.z = Quat.rotate q a ∨ FA.z = -Quat.rotate q a)
    (kX : ∃ a ∈ [ex, ey, ez], FB.x = Quat.rotate r a ∨ FB.x = -Quat.rotate r a) (kZ : ∃ a ∈ [ex, ey, ez], FB.z = Quat.rotate r a ∨ FB.z = -Quat.rotate r a)
    (hn : FA.normal = -FB.normal) (sx : 2 * tol ≤ FB.hx) (sz : 2 * tol ≤ FB.hz)
    (hcl : ∀ a ∈ [ex, ey, ez], ∀ b ∈ [ex, ey, ez], cross (Quat.rotate q a) (Quat.rotate r b) = 0 ∨
      eps < lengthSqr (cross (Quat.rotate q a) (Quat.rotate r b)))
    (bad : ∀ b ∈ [ex, ey, ez], (∀ a ∈ [ex, ey, ez], cross (Quat.rotate q a) (Quat.rotate r b) ≠ 0) → ∀ v ∈ FA.verts, ∀ w ∈ FB.verts,
      ∀ s, cross (v - (w + smul s (Quat.rotate r b))) FA.normal ≠ 0)
    {p : V3 ℝ} (pA : FA.Inside p) (pB : FB.Inside p) :
    (∃ v ∈ FB.verts, FA.Inside v) ∨ (∃ v ∈ FA.verts, FB.Inside v) ∨ ∃ e ∈ FB.edges, ∃ s, FA.Cut eps e.1 e.2 s := by
  have ux : dot FA.x FA.x = 1 := hA.ux
  have uz : dot FA.z FA.z = 1 := hA.uz
  have nA : ∀ u, dot u FB.normal = -dot u FA.normal := by intro u; rw [hn, dot_neg_right, neg_neg]
  by_cases o : ∃ v ∈ FA.verts, FB.Inside v
  · exact .inr (.inl o)
  have mv : FA.v0 ∈ FA.verts := by simp [FaceAt.verts]
  have ov : ¬ FB.Inside FA.v0 := fun h => o ⟨_, mv, h⟩
  have iv : FA.Inside FA.v0 := by
    obtain ⟨hy, -, hb⟩ := hA.box
    have := (hb FA.v0).1 (hA.verts_in mv)
    exact ⟨this.1, this.2.1⟩
  -- the way from a corner of A to the common point crosses the border of B
  obtain ⟨τ, τ0, τ1, i1, i2, i3⟩ := crosses (a := dot (FA.v0 - FB.center) FB.x) (d := dot (p - FA.v0) FB.x)
    (b := dot (FA.v0 - FB.center) FB.z) (e := dot (p - FA.v0) FB.z) (hx := FB.hx) (hz := FB.hz) (t := 1) (by norm_num) ov (by
      have e : ∀ u, dot (FA.v0 - FB.center) u + 1 * dot (p - FA.v0) u = dot (p - FB.center) u := by
        intro u; simp only [dot_sub_left]; ring
      rw [e, e]; exact pB)
  rw [← seg_dot, ← seg_dot] at i3
  rw [← seg_dot] at i1 i2
  set m := smul (1 - τ) FA.v0 + smul τ p with hm
  have im : FA.Inside m := by
    have conv : ∀ {a b h : ℝ}, |a| ≤ h → |a + b| ≤ h → |a + τ * b| ≤ h := by
      intro a b h h1 h2
      rw [abs_le] at *
      constructor
      · nlinarith
      · nlinarith
    have e : ∀ u, dot (FA.v0 - FA.center) u + dot (p - FA.v0) u = dot (p - FA.center) u := by
      intro u; simp only [dot_sub_left]; ring
    constructor
    · rw [hm, seg_dot]; exact conv iv.1 (by rw [e]; exact pA.1)
    · rw [hm, seg_dot]; exact conv iv.2 (by rw [e]; exact pA.2)
  obtain ⟨e, he, k, k0, k1, ek⟩ := hB.rim _ _ i1 i2 i3
  have em : smul (1 - k) e.1 + smul k e.2 = m - smul (dot (m - FB.center) FB.normal) FB.normal := by
    rw [← ek]
    have := hB.split m
    have hx := congrArg V3.x this; have hy := congrArg V3.y this; have hz := congrArg V3.z this
    simp only [V3.add_x, V3.add_y, V3.add_z, smul_x, smul_y, smul_z] at hx hy hz
    ext <;> simp only [V3.add_x, V3.add_y, V3.add_z, V3.sub_x, V3.sub_y, V3.sub_z, smul_x, smul_y, smul_z] <;> linarith
  have ie : FA.Inside (smul (1 - k) e.1 + smul k e.2) := by
    have z : ∀ u, dot u FA.normal = 0 → dot (smul (1 - k) e.1 + smul k e.2 - FA.center) u = dot (m - FA.center) u := by
      intro u hu
      rw [em]
      simp only [dot_sub_left, dot_smul_left, dot_comm FB.normal u, nA, hu]; ring
    unfold FaceAt.Inside
    rw [z _ hA.xn, z _ hA.zn]
    exact im
  obtain ⟨-, v1, v2⟩ := side_long hB hT.tpos sx sz he
  have go : ∀ (u b : V3 ℝ) (l : ℝ), 4 * tol ≤ |l| → e.2 - e.1 = smul l u → b ∈ [ex, ey, ez] → (u = Quat.rotate r b ∨ u = -Quat.rotate r b) →
      dot u FB.normal = 0 → (∃ v ∈ FB.verts, FA.Inside v) ∨ (∃ v ∈ FA.verts, FB.Inside v) ∨ ∃ e ∈ FB.edges, ∃ s, FA.Cut eps e.1 e.2 s := by
    intro u b l hl el hb hub hun
    obtain ⟨l', hl', el', d0⟩ : ∃ l', 4 * tol ≤ |l'| ∧ e.2 - e.1 = smul l' (Quat.rotate r b) ∧ dot (Quat.rotate r b) FA.normal = 0 := by
      rcases hub with h | h
      · refine ⟨l, hl, by rw [el, h], ?_⟩
        rw [← h, hn, dot_neg_right, hun, neg_zero]
      · refine ⟨-l, by rw [abs_neg]; exact hl, by rw [el, h]; ext <;> simp, ?_⟩
        rw [h, dot_neg_left] at hun
        rw [hn, dot_neg_right]; exact hun
    rcases face_edge_hit hA hT hq hX hZ (rotate_unit hr (axis_unit hb)) d0 (fun a ha => hcl a ha b hb) hl' el'
      (fun hp v hv s => bad b hb hp v hv e.1 v1 s) k0 k1 ie with h | h | h
    · exact .inl ⟨_, v1, h⟩
    · exact .inl ⟨_, v2, h⟩
    · exact .inr (.inr ⟨e, he, h⟩)
  have px := hB.px
  have pz := hB.pz
  obtain ⟨a1, m1, h1⟩ := kX
  obtain ⟨a2, m2, h2⟩ := kZ
  rcases hB.sides e he with h | h | h | h
  · exact go _ _ _ (by rw [abs_of_pos (by linarith)]; linarith) h m1 h1 hB.xn
  · exact go _ _ _ (by rw [abs_neg, abs_of_pos (by linarith)]; linarith) h m1 h1 hB.xn
  · exact go _ _ _ (by rw [abs_of_pos (by linarith)]; linarith) h m2 h2 hB.zn
  · exact go _ _ _ (by rw [abs_neg, abs_of_pos (by linarith)]; linarith) h m2 h2 hB.zn

/-! ## Theorem -/

/-- **C87, contact.** Boxes in clear position which have a point in common get at least one contact point.  Missing:
boxes which are not in clear position (`box_box_contact_refuted`). -/
theorem box_box_contact_partial {eps tol : ℝ} (hT : Tols eps tol) (K : Consts ℝ) {hA hB : V3 ℝ} (sA : Sized tol hA) (sB : Sized tol hB)
    {c : Ctx} (hc : c.Ok) {x : ℝ} {n : V3 ℝ} (hax : boxBoxAxis eps hA hB c = some (x, n)) (hg : General eps tol hA hB c n)
    (hm : Meet (c.boxA hA) (c.boxB hB)) : ∃ l, boxBox eps tol K hA hB c = some l ∧ l ≠ [] := by
  have tp := hT.tpos
  have he := hT.pos
  have pA : PosExt hA := ⟨by linarith [sA.1], by linarith [sA.2.1], by linarith [sA.2.2]⟩
  have pB : PosExt hB := ⟨by linarith [sB.1], by linarith [sB.2.1], by linarith [sB.2.2]⟩
  have hx0 := (box_box_overlap_partial he.le pA pB hc hg.edges hax).2 hm
  obtain ⟨x', n', hax', hcand, ⟨hn, hgp, hpos⟩, -⟩ := axis_found he.le hA hB hc
  rw [hax] at hax'
  obtain ⟨rfl, rfl⟩ := Prod.mk.inj (Option.some.inj hax')
  have hn : lengthSqr n = 1 := hn
  have nn : dot n n = 1 := hn
  have hgap := gap_along pA pB hc hpos
  rw [← show x = gap hA hB c n from hgp] at hgap
  obtain ⟨w, wA, wB⟩ := (box_box_depth_partial he.le pA pB hc hg.edges hax).1 (smul (-x) n) hx0 (by
    simp only [lengthSqr]; rw [dot_smul_left, dot_smul_right, nn]; linarith)
  have wA : c.boxA hA (w - smul (-x) n) := wA
  set a := w - smul (-x) n with ha
  obtain ⟨kA, iA, jA, fA, qA, oA⟩ := feature_exact tp sA c.posA hc.1 (neg_unit hn) (clear_neg hg.featA)
  obtain ⟨kB, iB, jB, fB, qB, oB⟩ := feature_exact tp sB c.posB hc.2.1 hn hg.featB
  have hx : x = -jA - jB := by
    obtain ⟨g1, a, b, ha, hb, e⟩ := hgap
    obtain ⟨⟨a', ha', ea⟩, hA'⟩ := qA
    obtain ⟨⟨b', hb', eb⟩, hB'⟩ := qB
    have := g1 a' b' ha' hb'
    have h1 := hA' a ha
    have h2 := hB' b hb
    rw [dot_neg_right] at ea h1
    rw [dot_sub_left] at this e
    linarith
  have la : dot a n = dot w n + x := by rw [ha, dot_sub_left, dot_smul_left, nn]; ring
  have lA : dot a (-n) = jA := by
    have h1 := qA.2 a wA
    have h2 := qB.2 w wB
    rw [dot_neg_right] at h1 ⊢
    linarith
  have lB : dot w n = jB := by
    rw [dot_neg_right] at lA
    linarith
  have sh : ∀ p u, dot u n = 0 → dot (a - p) u = dot (w - p) u := by
    intro p u hu
    rw [ha]; simp only [dot_sub_left, dot_smul_left, dot_comm n u, hu]; ring
  have hcl := hg.edges
  have hthr : ¬ c.thr < x := by have := hc.2.2; linarith
  have axis_perp : ∀ (q : Quat ℝ) (_ : q.lengthSqr = 1) (d : V3 ℝ), (∃ a ∈ [ex, ey, ez], d = Quat.rotate q a ∨ d = -Quat.rotate q a) →
      ∃ e ∈ [ex, ey, ez], dot (Quat.rotate q e) d = 0 := by
    rintro q hq d ⟨a, ha, h⟩
    obtain ⟨e, h1, h2⟩ := axis_other ha
    refine ⟨e, h1, ?_⟩
    rcases h with rfl | rfl
    · rw [rotate_dot q hq, h2]
    · rw [dot_neg_right, rotate_dot q hq, h2, neg_zero]
  have swap : ∀ u v : V3 ℝ, cross u v = 0 ∨ eps < lengthSqr (cross u v) → cross v u = 0 ∨ eps < lengthSqr (cross v u) := by
    rintro u v (h | h)
    · left
      have hx := congrArg V3.x h; have hy := congrArg V3.y h; have hz := congrArg V3.z h
      simp only [cross, V3.zero_x, V3.zero_y, V3.zero_z] at hx hy hz
      ext <;> simp only [cross, V3.zero_x, V3.zero_y, V3.zero_z] <;> linarith
    · right
      rw [show lengthSqr (cross v u) = lengthSqr (cross u v) by simp only [lengthSqr, dot, cross]; ring]; exact h
  have crn : ∀ u : V3 ℝ, cross u (-n) ≠ 0 ↔ cross u n ≠ 0 := by
    intro u
    rw [not_iff_not]
    constructor <;> intro h <;>
      (have hx := congrArg V3.x h; have hy := congrArg V3.y h; have hz := congrArg V3.z h
       simp only [cross, V3.zero_x, V3.zero_y, V3.zero_z, neg_x, neg_y, neg_z] at hx hy hz
       ext <;> simp only [cross, V3.zero_x, V3.zero_y, V3.zero_z, neg_x, neg_y, neg_z] <;> linarith)
  unfold boxBox
  rw [hax, Option.bind_some]
  simp only
  rw [if_neg hthr, fA, Option.bind_some, fB, Option.bind_some]
  simp only
  cases kA with
  | face =>
    obtain ⟨FA, gA, ofA, eA, vA, -, xA, zA, axA, azA⟩ := oA
    have inA : FA.Inside a := by
      obtain ⟨hy, -, hb⟩ := ofA.box
      have := (hb a).1 wA
      exact ⟨this.1, this.2.1⟩
    have xn : dot FA.x n = 0 := by have := ofA.xn; rw [eA, dot_neg_right] at this; linarith
    have zn : dot FA.z n = 0 := by have := ofA.zn; rw [eA, dot_neg_right] at this; linarith
    have inW : FA.Inside w := by
      unfold FaceAt.Inside at inA ⊢
      rwa [sh _ _ xn, sh _ _ zn] at inA
    cases kB with
    | face =>
      obtain ⟨FB, gB, ofB, eB, vB, -, xB, zB, axB, azB⟩ := oB
      simp only [gA, gB, Option.bind_some]
      have inB : FB.Inside w := by
        obtain ⟨hy, -, hb⟩ := ofB.box
        have := (hb w).1 wB
        exact ⟨this.1, this.2.1⟩
      have hit := face_face_hit ofA ofB hT hc.1 hc.2.1 axA azA axB azB (by rw [eA, eB]) xB zB hcl
        (fun b hb hp v hv u hu s => by rw [eA, crn]; exact hg.cornerA v u (vA v hv) (vB u hu) b hb hp s) inW inB
      obtain ⟨l, h1, -, -, h4⟩ := faceFace_spec (eps := eps) (K := K) ofA ofB
        (mk := fun wA wB => ⟨toObjectSpace wA c.posA c.ornA, toObjectSpace wB c.posB c.ornB, n, x, .onB,
          some ⟨boxKind .face, some iA⟩, some ⟨boxKind .face, some iB⟩⟩)
        (P := fun _ => True) (fun _ _ _ => trivial) (fun _ _ _ => trivial) (fun _ _ _ _ => trivial)
      refine ⟨l, h1, h4 ?_⟩
      rcases hit with ⟨v, hv, h⟩ | ⟨v, hv, h⟩ | h
      · exact .inl ⟨v, hv, h.over ofA he.le⟩
      · exact .inr (.inl ⟨v, hv, h.over ofB he.le⟩)
      · exact .inr (.inr h)
    | edge =>
      obtain ⟨-, e, gB, c1, c2, ⟨b, hb, k, hk, ek, bn⟩, hseg⟩ := oB
      simp only [gA, gB, Option.bind_some]
      obtain ⟨s, s0, s1, es⟩ := hseg w wB lB
      have hit := face_edge_hit ofA hT hc.1 axA azA (rotate_unit hc.2.1 (axis_unit hb)) (by rw [eA, dot_neg_right, bn, neg_zero])
        (fun a ha => hcl a ha b hb) hk ek
        (fun hp v hv s => by rw [eA, crn]; exact hg.cornerA v e.1 (vA v hv) c1 b hb hp s) s0 s1 (by rw [← es]; exact inW)
      obtain ⟨l, h1, -, -, h4⟩ := faceEdge_spec (eps := eps) ofA (sep := n) (e0 := e.1) (e1 := e.2)
        (mk := fun wA wB => ⟨toObjectSpace wA c.posA c.ornA, toObjectSpace wB c.posB c.ornB, n, x, .onA,
          some ⟨boxKind .face, some iA⟩, some ⟨boxKind .edge, some iB⟩⟩)
        (P := fun _ => True) (fun _ _ _ => trivial) (fun _ _ => trivial)
      refine ⟨l, h1, h4 ?_⟩
      rcases hit with h | h | h
      · exact .inl (h.over ofA he.le)
      · exact .inr (.inl (h.over ofA he.le))
      · exact .inr (.inr h)
    | vertex =>
      obtain ⟨⟨v, gB⟩, -⟩ := oB
      simp only [gB, Option.bind_some]
      exact ⟨_, by unfold addPoint; rw [if_pos (by simp)], by simp⟩
  | edge =>
    obtain ⟨nax, e, gA, c1, c2, ⟨b, hb, k, hk, ek, bn⟩, hseg⟩ := oA
    have bn : dot (Quat.rotate c.ornA b) n = 0 := by rw [dot_neg_right] at bn; linarith
    cases kB with
    | face =>
      obtain ⟨FB, gB, ofB, eB, vB, -, xB, zB, axB, azB⟩ := oB
      simp only [gA, gB, Option.bind_some]
      have inB : FB.Inside a := by
        obtain ⟨hy, -, hb⟩ := ofB.box
        have := (hb w).1 wB
        unfold FaceAt.Inside
        rw [sh _ _ (by rw [← eB]; exact ofB.xn), sh _ _ (by rw [← eB]; exact ofB.zn)]
        exact ⟨this.1, this.2.1⟩
      obtain ⟨s, s0, s1, es⟩ := hseg a wA lA
      have hit := face_edge_hit ofB hT hc.2.1 axB azB (rotate_unit hc.1 (axis_unit hb)) (by rw [eB, bn])
        (fun a ha => swap _ _ (hcl b hb a ha)) hk ek
        (fun hp v hv s => by rw [eB]; exact hg.cornerB e.1 v c1 (vB v hv) b hb hp s) s0 s1 (by rw [← es]; exact inB)
      obtain ⟨l, h1, -, -, h4⟩ := faceEdge_spec (eps := eps) ofB (sep := n) (e0 := e.1) (e1 := e.2)
        (mk := fun wB wA => ⟨toObjectSpace wA c.posA c.ornA, toObjectSpace wB c.posB c.ornB, n, x, .onB,
          some ⟨boxKind .edge, some iA⟩, some ⟨boxKind .face, some iB⟩⟩)
        (P := fun _ => True) (fun _ _ _ => trivial) (fun _ _ => trivial)
      refine ⟨l, h1, h4 ?_⟩
      rcases hit with h | h | h
      · exact .inl (h.over ofB he.le)
      · exact .inr (.inl (h.over ofB he.le))
      · exact .inr (.inr h)
    | edge =>
      obtain ⟨-, f, gB, -, -, ⟨b', hb', k', hk', ek', -⟩, -⟩ := oB
      simp only [gA, gB, Option.bind_some]
      have len : ∀ (r : Quat ℝ) (_ : r.lengthSqr = 1) (b : V3 ℝ), b ∈ [ex, ey, ez] → ∀ k : ℝ, 4 * tol ≤ |k| → eps < lengthSqr (smul k (Quat.rotate r b)) := by
        intro r hr b hb k hk
        have u : dot (Quat.rotate r b) (Quat.rotate r b) = 1 := rotate_unit hr (axis_unit hb)
        unfold lengthSqr
        rw [dot_smul_left, dot_smul_right, u, mul_one, ← abs_mul_abs_self]
        have := hT.sq
        nlinarith
      obtain ⟨l, h1, -, -, h4⟩ := edgeEdge_spec (eps := eps) (a := e) (b := f) (by rw [ek]; exact len _ hc.1 _ hb _ hk)
        (by rw [ek']; exact len _ hc.2.1 _ hb' _ hk') he.le
        (mk := fun wA wB => ⟨toObjectSpace wA c.posA c.ornA, toObjectSpace wB c.posB c.ornB, n, x, .none,
          some ⟨boxKind .edge, some iA⟩, some ⟨boxKind .edge, some iB⟩⟩)
        (P := fun _ => True) (fun _ _ _ _ => trivial)
      exact ⟨l, h1, h4⟩
    | vertex =>
      exfalso
      obtain ⟨-, nz⟩ := oB
      rcases cand_dir hcand with ⟨a, ha, h⟩ | h | ⟨-, -, b, hb, -, h⟩
      · rcases h with h | h
        · exact (nax a ha).2 (by rw [h])
        · exact (nax a ha).1 (by rw [h]; ext <;> simp)
      · obtain ⟨e, h1, h2⟩ := axis_perp _ hc.2.1 n h
        exact nz e h1 h2
      · exact nz b hb h
  | vertex =>
    obtain ⟨⟨v, gA⟩, nz⟩ := oA
    have nz : ∀ e ∈ [ex, ey, ez], dot (Quat.rotate c.ornA e) n ≠ 0 := by
      intro e h1 h2
      exact nz e h1 (by rw [dot_neg_right, h2, neg_zero])
    cases kB with
    | face =>
      simp only [gA, Option.bind_some]
      exact ⟨_, by unfold addPoint; rw [if_pos (by simp)], by simp⟩
    | edge =>
      exfalso
      obtain ⟨nax, -⟩ := oB
      rcases cand_dir hcand with h | ⟨b, hb, h⟩ | ⟨a, ha, -, -, h, -⟩
      · obtain ⟨e, h1, h2⟩ := axis_perp _ hc.1 n h
        exact nz e h1 h2
      · rcases h with h | h
        · exact (nax b hb).1 h
        · exact (nax b hb).2 h
      · exact nz a ha h
    | vertex =>
      exfalso
      obtain ⟨-, nz'⟩ := oB
      rcases cand_dir hcand with h | h | ⟨a, ha, -, -, h, -⟩
      · obtain ⟨e, h1, h2⟩ := axis_perp _ hc.1 n h
        exact nz e h1 h2
      · obtain ⟨e, h1, h2⟩ := axis_perp _ hc.2.1 n h
        exact nz' e h1 h2
      · exact nz a ha h

/-! ## A case: a cube resting on another one, turned about the vertical axis -/

noncomputable def turned : Ctx := ⟨⟨0, 99 / 100, 0⟩, ⟨0, 0, 0, 1⟩, ⟨0, 0, 0⟩, ⟨0, 3 / 5, 0, 4 / 5⟩, 1 / 50⟩

theorem turned_ok : turned.Ok := by
  refine ⟨?_, ?_, ?_⟩ <;> norm_num [turned, Quat.lengthSqr]

theorem turned_A (v : V3 ℝ) : Quat.rotate turned.ornA v = v := by
  ext <;> simp [turned, Quat.rotate, cross, dot, smul]

theorem turned_B (v : V3 ℝ) : Quat.rotate turned.ornB v = ⟨7 / 25 * v.x + 24 / 25 * v.z, v.y, -(24 / 25) * v.x + 7 / 25 * v.z⟩ := by
  ext <;> simp [turned, Quat.rotate, cross, dot, smul] <;> ring

theorem turned_gap (u : V3 ℝ) : gap cube cube turned u = -(1 / 100) * |u.y| - 1 / 2 * (|u.x| + |u.z|)
    - 1 / 2 * (|7 / 25 * u.x - 24 / 25 * u.z| + |24 / 25 * u.x + 7 / 25 * u.z|) := by
  unfold gap
  rw [ext1_eq turned_ok.1, ext1_eq turned_ok.2.1, turned_A, turned_A, turned_A, turned_B, turned_B, turned_B]
  simp only [dot, cube, turned, V3.sub_x, V3.sub_y, V3.sub_z, ex, ey, ez]
  rw [show (0 - 0) * u.x + (99 / 100 - 0) * u.y + (0 - 0) * u.z = 99 / 100 * u.y by ring, abs_mul, abs_of_pos (by norm_num : (0 : ℝ) < 99 / 100)]
  norm_num
  simp only [sub_eq_add_neg]
  ring

theorem turned_axis {eps : ℝ} (he : 0 ≤ eps) : boxBoxAxis eps cube cube turned = some (-(1 / 100), ⟨0, 1, 0⟩) := by
  obtain ⟨x, n, h1, -, ⟨hu, hx, hd⟩, hA, -⟩ := axis_found he cube cube turned_ok
  simp only at hu hx hd
  have hy := hA ey (by simp)
  rw [turned_A, turned_gap] at hy
  rw [turned_gap] at hx
  have e : -(1 / 100) * |ey.y| - 1 / 2 * (|ey.x| + |ey.z|)
    - 1 / 2 * (|7 / 25 * ey.x - 24 / 25 * ey.z| + |24 / 25 * ey.x + 7 / 25 * ey.z|) = (-(1 / 100) : ℝ) := by norm_num [ey]
  rw [e] at hy
  have q1 : |n.x| * |n.x| + |n.y| * |n.y| + |n.z| * |n.z| = 1 := by
    rw [abs_mul_abs_self, abs_mul_abs_self, abs_mul_abs_self]; exact hu
  have x0 := abs_nonneg n.x
  have y0 := abs_nonneg n.y
  have z0 := abs_nonneg n.z
  have g0 := abs_nonneg (7 / 25 * n.x - 24 / 25 * n.z)
  have g1 := abs_nonneg (24 / 25 * n.x + 7 / 25 * n.z)
  have sum : 1 ≤ |n.x| + |n.y| + |n.z| := by nlinarith [mul_nonneg x0 y0, mul_nonneg y0 z0, mul_nonneg x0 z0]
  have nx : n.x = 0 := by apply abs_eq_zero.1; linarith
  have nz : n.z = 0 := by apply abs_eq_zero.1; linarith
  have ny : n.y = 1 := by
    simp only [lengthSqr, dot, nx, nz] at hu
    simp only [turned, dot, V3.sub_x, V3.sub_y, V3.sub_z, nx, nz] at hd
    nlinarith
  have en : n = ⟨0, 1, 0⟩ := by ext <;> simp [nx, ny, nz]
  have ex' : x = -(1 / 100) := by rw [hx, nx, nz, ny]; norm_num
  rw [h1, ex', en]

theorem turned_corner_B {w : V3 ℝ} (h : WorldCorner cube turned.posB turned.ornB w) :
    ∃ a b : ℝ, (a = 1 ∨ a = -1) ∧ (b = 1 ∨ b = -1) ∧ w.x = 7 / 50 * a + 24 / 50 * b ∧ w.z = -(24 / 50) * a + 7 / 50 * b := by
  obtain ⟨v, ⟨h1, -, h3⟩, rfl⟩ := h
  refine ⟨2 * v.x, 2 * v.z, ?_, ?_, ?_, ?_⟩
  · rcases h1 with h | h <;> rw [h] <;> norm_num [cube]
  · rcases h3 with h | h <;> rw [h] <;> norm_num [cube]
  all_goals
    unfold toWorldSpace
    rw [turned_B]
    simp [turned]; ring

theorem turned_corner_A {w : V3 ℝ} (h : WorldCorner cube turned.posA turned.ornA w) : (w.x = 1 / 2 ∨ w.x = -(1 / 2)) ∧ (w.z = 1 / 2 ∨ w.z = -(1 / 2)) := by
  obtain ⟨v, ⟨h1, -, h3⟩, rfl⟩ := h
  unfold toWorldSpace
  rw [turned_A]
  simp only [cube] at h1 h3
  simpa [turned] using And.intro h1 h3

theorem turned_general : General (12 / 100000000) (5 / 1000) cube cube turned ⟨0, 1, 0⟩ := by
  refine ⟨?_, ?_, ?_, ?_, ?_⟩
  · intro e he f hf
    rw [turned_A, turned_B]
    simp only [List.mem_cons, List.not_mem_nil, or_false] at he hf
    rcases he with rfl | rfl | rfl <;> rcases hf with rfl | rfl | rfl <;>
      first | (left; ext <;> simp [cross, ex, ey, ez]; done) | (right; norm_num [lengthSqr, dot, cross, ex, ey, ez]; done)
  · unfold ClearFeature
    rw [turned_A, turned_A, turned_A]
    norm_num [dot, ex, ey, ez, cube]
  · unfold ClearFeature
    rw [turned_B, turned_B, turned_B]
    norm_num [dot, ex, ey, ez, cube]
  · intro v w hv hw b hb hp s h0
    obtain ⟨v1, v3⟩ := turned_corner_A hv
    obtain ⟨α, β, hα, hβ, w1, w3⟩ := turned_corner_B hw
    rw [turned_B] at h0
    have hx := congrArg V3.x h0; have hz := congrArg V3.z h0
    simp only [cross, V3.zero_x, V3.zero_z, V3.sub_x, V3.sub_z, V3.add_x, V3.add_z, smul_x, smul_z, w1, w3] at hx hz
    simp only [List.mem_cons, List.not_mem_nil, or_false] at hb
    rcases hb with rfl | rfl | rfl
    · simp only [ex] at hx hz
      have : 24 / 25 * v.x + 7 / 25 * v.z = 1 / 2 * β := by linarith
      rcases v1 with e | e <;> rcases v3 with e' | e' <;> rcases hβ with rfl | rfl <;> rw [e, e'] at this <;> norm_num at this
    · exact hp ey (by simp) (by rw [turned_A, turned_B]; ext <;> simp [cross, ey])
    · simp only [ez] at hx hz
      have : 7 / 25 * v.x - 24 / 25 * v.z = 1 / 2 * α := by linarith
      rcases v1 with e | e <;> rcases v3 with e' | e' <;> rcases hα with rfl | rfl <;> rw [e, e'] at this <;> norm_num at this
  · intro v w hv hw a ha hp s h0
    obtain ⟨v1, v3⟩ := turned_corner_A hv
    obtain ⟨α, β, hα, hβ, w1, w3⟩ := turned_corner_B hw
    rw [turned_A] at h0
    have hx := congrArg V3.x h0; have hz := congrArg V3.z h0
    simp only [cross, V3.zero_x, V3.zero_z, V3.sub_x, V3.sub_z, V3.add_x, V3.add_z, smul_x, smul_z, w1, w3] at hx hz
    simp only [List.mem_cons, List.not_mem_nil, or_false] at ha
    rcases ha with rfl | rfl | rfl
    · simp only [ex] at hx hz
      have : -(24 / 50) * α + 7 / 50 * β = v.z := by linarith
      rcases v3 with e' | e' <;> rcases hα with rfl | rfl <;> rcases hβ with rfl | rfl <;> rw [e'] at this <;> norm_num at this
    · exact hp ey (by simp) (by rw [turned_A, turned_B]; ext <;> simp [cross, ey])
    · simp only [ez] at hx hz
      have : 7 / 50 * α + 24 / 50 * β = v.x := by linarith
      rcases v1 with e' | e' <;> rcases hα with rfl | rfl <;> rcases hβ with rfl | rfl <;> rw [e'] at this <;> norm_num at this

/-- The theorem applies. -/
example (K : Consts ℝ) : ∃ l, boxBox (12 / 100000000) (5 / 1000) K cube cube turned = some l ∧ l ≠ [] := by
  refine box_box_contact_partial ⟨by norm_num, by norm_num, by norm_num, by norm_num⟩ K (by norm_num [Sized, cube]) (by norm_num [Sized, cube])
    turned_ok (turned_axis (by norm_num)) turned_general ⟨⟨0, 1 / 2, 0⟩, ⟨⟨0, -(49 / 100), 0⟩, ?_, ?_⟩, ⟨⟨0, 1 / 2, 0⟩, ?_, ?_⟩⟩
  · norm_num [boxSet, cube, abs_of_pos]
  · rw [turned_A]; ext <;> norm_num [turned]
  · norm_num [boxSet, cube, abs_of_pos]
  · rw [turned_B]; ext <;> norm_num [turned]

end Edyn.Collide
