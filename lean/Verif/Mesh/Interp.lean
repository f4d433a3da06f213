import Verif.Math.Vec
import Mathlib.Algebra.Order.Field.Basic
import Mathlib.Algebra.Order.Field.Rat
import Mathlib.Tactic.FieldSimp
import Mathlib.Tactic.Linarith
import Mathlib.Tactic.NormNum

/-!
# Values given at the vertices of a mesh

Friction, restitution and material ids can be given per vertex; on edges and faces they are
interpolated.  Scalars are elements of an ordered field instead of floating point numbers.
-/

namespace Edyn.Mesh.Interp

open Edyn.Math V3

variable {T : Type} [Field T]

/-- `lerp` (include/edyn/math/math.hpp 68-71). -/
def lerp (a b s : T) : T := a * (1 - s) + b * s

/-- `triangle_mesh::barycentric_coordinates` (src/edyn/shapes/triangle_mesh.cpp 248-267) of `p` in the
triangle with vertices `v0`, `v1`, `v2` and face normal `n`. -/
def bary (v0 v1 v2 n p : V3 T) : V3 T :=
  let edge_normal0 := cross (v2 - v1) n
  let t0 := dot (p - v1) edge_normal0 / dot (v0 - v1) edge_normal0
  let edge_normal1 := cross (v0 - v2) n
  let t1 := dot (p - v2) edge_normal1 / dot (v1 - v2) edge_normal1
  ⟨t0, t1, 1 - t0 - t1⟩

/-- `get_face_friction`, `get_face_restitution` with `interpolate_triangle`
(src/edyn/shapes/triangle_mesh.cpp 177-182, 205-210, 269-273); `f` are the values at the
vertices of the face. -/
def faceValue (v0 v1 v2 n p : V3 T) (f : V3 T) : T := dot (bary v0 v1 v2 n p) f

/-- The fraction along an edge (src/edyn/shapes/triangle_mesh.cpp 171-175, 199-203, 230-234). -/
def edgeFraction (v0 v1 p : V3 T) : T := distanceSqr p v0 / distanceSqr v1 v0

/-- `get_edge_friction`, `get_edge_restitution` at a point
(src/edyn/shapes/triangle_mesh.cpp 165-175, 193-203). -/
def edgeValue (v0 v1 p : V3 T) (f0 f1 : T) : T := lerp f0 f1 (edgeFraction v0 v1 p)

/-- `get_edge_material_id` at a point (src/edyn/shapes/triangle_mesh.cpp 221-234): the influence of
the materials of the two ends. -/
def edgeInfluence (v0 v1 p : V3 T) : T × T := (1 - edgeFraction v0 v1 p, edgeFraction v0 v1 p)

/-- The point with weights `a`, `b`, `c` at the vertices. -/
def combine (a b c : T) (v0 v1 v2 : V3 T) : V3 T := smul a v0 + smul b v1 + smul c v2

/-- **Barycentric coordinates.**  A point of the plane of a triangle, given as a weighted sum of the
vertices and possibly moved along the normal, has these weights as its coordinates.  The triangle
must have an area, and the normal must be along the product of two sides (which is how normals are
calculated). -/
theorem bary_weights (v0 v1 v2 : V3 T) (s a b c h : T) (habc : a + b + c = 1) (hs : s ≠ 0)
    (harea : lengthSqr (cross (v1 - v0) (v2 - v1)) ≠ 0) :
    bary v0 v1 v2 (smul s (cross (v1 - v0) (v2 - v1)))
      (combine a b c v0 v1 v2 + smul h (smul s (cross (v1 - v0) (v2 - v1)))) = ⟨a, b, c⟩ := by
  have hc : c = 1 - a - b := by linear_combination habc
  subst hc
  set N := cross (v1 - v0) (v2 - v1) with hN
  have d0 : dot (v0 - v1) (cross (v2 - v1) (smul s N)) = -(s * lengthSqr N) := by
    rw [hN]
    simp only [dot, lengthSqr, cross_x, cross_y, cross_z, smul_x, smul_y, smul_z, sub_x, sub_y, sub_z]
    ring
  have d1 : dot (v1 - v2) (cross (v0 - v2) (smul s N)) = -(s * lengthSqr N) := by
    rw [hN]
    simp only [dot, lengthSqr, cross_x, cross_y, cross_z, smul_x, smul_y, smul_z, sub_x, sub_y, sub_z]
    ring
  have n0 : dot (combine a b (1 - a - b) v0 v1 v2 + smul h (smul s N) - v1) (cross (v2 - v1) (smul s N))
      = a * -(s * lengthSqr N) := by
    rw [hN]
    simp only [combine, dot, lengthSqr, cross_x, cross_y, cross_z, smul_x, smul_y, smul_z, sub_x, sub_y,
      sub_z, add_x, add_y, add_z]
    ring
  have n1 : dot (combine a b (1 - a - b) v0 v1 v2 + smul h (smul s N) - v2) (cross (v0 - v2) (smul s N))
      = b * -(s * lengthSqr N) := by
    rw [hN]
    simp only [combine, dot, lengthSqr, cross_x, cross_y, cross_z, smul_x, smul_y, smul_z, sub_x, sub_y,
      sub_z, add_x, add_y, add_z]
    ring
  have hne : -(s * lengthSqr N) ≠ 0 := neg_ne_zero.mpr (mul_ne_zero hs harea)
  simp only [bary, d0, d1, n0, n1, mul_div_assoc, div_self hne, mul_one]

/-- **Values on a face** are the weighted mean of the values at its vertices. -/
theorem face_value (v0 v1 v2 : V3 T) (s a b c h f0 f1 f2 : T) (habc : a + b + c = 1) (hs : s ≠ 0)
    (harea : lengthSqr (cross (v1 - v0) (v2 - v1)) ≠ 0) :
    faceValue v0 v1 v2 (smul s (cross (v1 - v0) (v2 - v1)))
      (combine a b c v0 v1 v2 + smul h (smul s (cross (v1 - v0) (v2 - v1)))) ⟨f0, f1, f2⟩
      = a * f0 + b * f1 + c * f2 := by
  unfold faceValue
  rw [bary_weights v0 v1 v2 s a b c h habc hs harea]
  rfl

/-- **Coordinates add up to one**, wherever the point is. -/
theorem bary_sum (v0 v1 v2 n p : V3 T) :
    (bary v0 v1 v2 n p).x + (bary v0 v1 v2 n p).y + (bary v0 v1 v2 n p).z = 1 := by
  simp only [bary]; ring

/-- **Values on an edge**, a fraction `s` of the way along it: the code uses the square of the
fraction. -/
theorem edge_value_is (v0 v1 : V3 T) (s f0 f1 : T) (hlen : lengthSqr (v1 - v0) ≠ 0) :
    edgeValue v0 v1 (v0 + smul s (v1 - v0)) f0 f1 = f0 * (1 - s * s) + f1 * (s * s) := by
  have hf : edgeFraction v0 v1 (v0 + smul s (v1 - v0)) = s * s := by
    unfold edgeFraction
    rw [div_eq_iff (by simpa [distanceSqr] using hlen)]
    simp only [distanceSqr, lengthSqr, dot, smul_x, smul_y, smul_z, sub_x, sub_y, sub_z, add_x, add_y,
      add_z]
    ring
  rw [edgeValue, hf, lerp]

/-- The value a fraction `s` of the way along an edge is the mean with weights `1 - s` and `s`. -/
def edgeValueFull : Prop :=
  ∀ (v0 v1 : V3 ℚ) (s f0 f1 : ℚ), lengthSqr (v1 - v0) ≠ 0 → 0 ≤ s → s ≤ 1 →
    edgeValue v0 v1 (v0 + smul s (v1 - v0)) f0 f1 = f0 * (1 - s) + f1 * s

/-- Halfway along an edge from friction 0 to friction 1 the friction is a quarter. -/
theorem edge_value_refuted : ¬ edgeValueFull := by
  intro h
  have h1 := h ⟨0, 0, 0⟩ ⟨1, 0, 0⟩ (1 / 2) 0 1
    (by norm_num [lengthSqr, dot]) (by norm_num) (by norm_num)
  rw [edge_value_is _ _ _ _ _ (by norm_num [lengthSqr, dot])] at h1
  norm_num at h1

/-- **Materials on an edge** get influences that add up to one; the code uses the square of the
fraction here as well. -/
theorem edge_influence (v0 v1 : V3 T) (s : T) (hlen : lengthSqr (v1 - v0) ≠ 0) :
    edgeInfluence v0 v1 (v0 + smul s (v1 - v0)) = (1 - s * s, s * s) := by
  have h := edge_value_is v0 v1 s 0 1 hlen
  have h' : edgeFraction v0 v1 (v0 + smul s (v1 - v0)) = s * s := by
    simpa [edgeValue, lerp] using h
  simp [edgeInfluence, h']

variable [LinearOrder T] [IsStrictOrderedRing T]

/-- **Values at the ends of an edge** are those of the vertices, and values between are between. -/
theorem edge_value_partial (v0 v1 : V3 T) (f0 f1 : T) (hlen : lengthSqr (v1 - v0) ≠ 0) :
    edgeValue v0 v1 v0 f0 f1 = f0 ∧ edgeValue v0 v1 v1 f0 f1 = f1 ∧
      ∀ s, 0 ≤ s → s ≤ 1 → min f0 f1 ≤ edgeValue v0 v1 (v0 + smul s (v1 - v0)) f0 f1 ∧
        edgeValue v0 v1 (v0 + smul s (v1 - v0)) f0 f1 ≤ max f0 f1 := by
  have e0 : v0 + smul 0 (v1 - v0) = v0 := by ext <;> simp
  have e1 : v0 + smul 1 (v1 - v0) = v1 := by ext <;> simp
  refine ⟨?_, ?_, ?_⟩
  · have := edge_value_is v0 v1 0 f0 f1 hlen
    rw [e0] at this; rw [this]; ring
  · have := edge_value_is v0 v1 1 f0 f1 hlen
    rw [e1] at this; rw [this]; ring
  · intro s h0 h1
    rw [edge_value_is v0 v1 s f0 f1 hlen]
    have hs0 : 0 ≤ s * s := mul_nonneg h0 h0
    have hs1 : s * s ≤ 1 := by nlinarith
    have a1 := mul_le_mul_of_nonneg_right (min_le_left f0 f1) (sub_nonneg.mpr hs1)
    have a2 := mul_le_mul_of_nonneg_right (min_le_right f0 f1) hs0
    have b1 := mul_le_mul_of_nonneg_right (le_max_left f0 f1) (sub_nonneg.mpr hs1)
    have b2 := mul_le_mul_of_nonneg_right (le_max_right f0 f1) hs0
    constructor <;> nlinarith

/-- **Values inside a face** lie between those of its vertices. -/
theorem face_value_between (v0 v1 v2 : V3 T) (s a b c h f0 f1 f2 : T) (habc : a + b + c = 1) (hs : s ≠ 0)
    (harea : lengthSqr (cross (v1 - v0) (v2 - v1)) ≠ 0) (ha : 0 ≤ a) (hb : 0 ≤ b) (hc : 0 ≤ c) (lo hi : T)
    (hf : lo ≤ f0 ∧ lo ≤ f1 ∧ lo ≤ f2 ∧ f0 ≤ hi ∧ f1 ≤ hi ∧ f2 ≤ hi) :
    let v := faceValue v0 v1 v2 (smul s (cross (v1 - v0) (v2 - v1)))
      (combine a b c v0 v1 v2 + smul h (smul s (cross (v1 - v0) (v2 - v1)))) ⟨f0, f1, f2⟩
    lo ≤ v ∧ v ≤ hi := by
  intro v
  have hv : v = a * f0 + b * f1 + c * f2 := face_value v0 v1 v2 s a b c h f0 f1 f2 habc hs harea
  rw [hv]
  obtain ⟨l0, l1, l2, u0, u1, u2⟩ := hf
  have hlo : lo = a * lo + b * lo + c * lo := by linear_combination (-lo) * habc
  have hhi : hi = a * hi + b * hi + c * hi := by linear_combination (-hi) * habc
  constructor
  · have := mul_le_mul_of_nonneg_left l0 ha
    have := mul_le_mul_of_nonneg_left l1 hb
    have := mul_le_mul_of_nonneg_left l2 hc
    linarith
  · have := mul_le_mul_of_nonneg_left u0 ha
    have := mul_le_mul_of_nonneg_left u1 hb
    have := mul_le_mul_of_nonneg_left u2 hc
    linarith

/-- A triangle that meets the hypotheses: sides 3 and 4, the point with weights 1/2, 1/4, 1/4. -/
example : lengthSqr (cross ((⟨3, 0, 0⟩ : V3 ℚ) - ⟨0, 0, 0⟩) (⟨0, 4, 0⟩ - ⟨3, 0, 0⟩)) ≠ 0 ∧
    bary (⟨0, 0, 0⟩ : V3 ℚ) ⟨3, 0, 0⟩ ⟨0, 4, 0⟩ ⟨0, 0, 1⟩ ⟨3 / 4, 1, 7⟩ = ⟨1 / 2, 1 / 4, 1 / 4⟩ := by
  constructor
  · norm_num [lengthSqr, dot, cross]
  · ext <;> norm_num [bary, dot, cross]

/-! ## Convexity of an edge -/

/-- The test for a convex edge (src/edyn/shapes/triangle_mesh.cpp 109-110, 122-125): `nf` is the normal
of the face, `d` the direction of the edge in it, `ng` the normal of the face on the other side. -/
def convexEdge (eps : T) (nf d ng : V3 T) : Prop := dot ng (cross nf d) < -eps

/-- **Both faces agree.**  Seen from the other face, in which the edge runs the other way, the test
gives the same answer. -/
theorem convex_same (eps : T) (nf d ng : V3 T) :
    convexEdge eps nf d ng ↔ convexEdge eps ng (-d) nf := by
  unfold convexEdge
  have : dot nf (cross ng (-d)) = dot ng (cross nf d) := by
    simp only [dot, cross_x, cross_y, cross_z, neg_x, neg_y, neg_z]; ring
  rw [this]

/-- **Convex means that the other face bends down.**  Face `f` has the edge from `a` to `b` and the
normal `nf`; the other face has the vertices `b`, `a`, `w` and a normal along the product of its
sides.  The edge counts as convex exactly when the depth of `w` below the plane of `f`, scaled by
the length of the edge and the normalization, exceeds the tolerance. -/
theorem convex_below (eps sg : T) (a b w nf : V3 T) (hperp : dot nf (b - a) = 0) :
    convexEdge eps nf (b - a) (smul sg (cross (a - b) (w - a)))
      ↔ eps < -(dot nf (w - a)) * (sg * lengthSqr (b - a)) := by
  unfold convexEdge
  have : dot (smul sg (cross (a - b) (w - a))) (cross nf (b - a))
      = dot nf (w - a) * (sg * lengthSqr (b - a)) - sg * dot (w - a) (b - a) * dot nf (b - a) := by
    simp only [dot, lengthSqr, cross_x, cross_y, cross_z, smul_x, smul_y, smul_z, sub_x, sub_y, sub_z]
    ring
  rw [this, hperp]
  constructor <;> intro h <;> linarith

/-- **Without tolerance** the edge is convex exactly when the third vertex of the other face is below
the plane of the first. -/
theorem convex_iff_below (sg : T) (a b w nf : V3 T) (hperp : dot nf (b - a) = 0) (hsg : 0 < sg)
    (hlen : 0 < lengthSqr (b - a)) :
    convexEdge 0 nf (b - a) (smul sg (cross (a - b) (w - a))) ↔ dot nf (w - a) < 0 := by
  rw [convex_below 0 sg a b w nf hperp]
  have hk : 0 < sg * lengthSqr (b - a) := mul_pos hsg hlen
  constructor
  · intro h
    have := (mul_pos_iff_of_pos_right hk).mp h
    linarith
  · intro h
    exact mul_pos (by linarith) hk

/-- **A convex edge** always has the other face below the plane. -/
theorem convex_implies_below (eps sg : T) (a b w nf : V3 T) (hperp : dot nf (b - a) = 0) (heps : 0 ≤ eps)
    (hsg : 0 < sg) (hlen : 0 < lengthSqr (b - a))
    (h : convexEdge eps nf (b - a) (smul sg (cross (a - b) (w - a)))) : dot nf (w - a) < 0 := by
  rw [convex_below eps sg a b w nf hperp] at h
  have hk : 0 < sg * lengthSqr (b - a) := mul_pos hsg hlen
  have := (mul_pos_iff_of_pos_right hk).mp (lt_of_le_of_lt heps h)
  linarith

/-- A roof: the second triangle bends down, the edge is convex. -/
example : convexEdge (1 / 1000) (⟨0, 0, 1⟩ : V3 ℚ) (⟨1, 0, 0⟩ - ⟨0, 0, 0⟩)
    (smul (1 / 2) (cross (⟨0, 0, 0⟩ - ⟨1, 0, 0⟩) (⟨0, -1, -1⟩ - ⟨0, 0, 0⟩))) := by
  norm_num [convexEdge, dot, cross, smul]

end Edyn.Mesh.Interp
