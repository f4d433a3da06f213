import Verif.Geom.ClosestMore
import Mathlib.Tactic.LinearCombination
import Mathlib.Tactic.FinCases
import Mathlib.Data.Fin.VecNotation

/-!
# Intersection tests of primitives (C72)

`src/edyn/math/geom.cpp`.  Scalars are exact reals; `eps` is `EDYN_EPSILON`.  The test of two boxes is in
`Verif/DynTree/Box.lean`.
-/

namespace Edyn.Geom

open Edyn.Math V3

/-! ## Specification -/

/-- The point of the line through `p0` and `p1` with the parameter `t`; for `t` between 0 and 1 it is on the
segment (`lerp`). -/
noncomputable def along (p0 p1 : V3 ℝ) (t : ℝ) : V3 ℝ := p0 + smul t (p1 - p0)

/-- Vectors of the plane, `vector2.hpp` 14-16. -/
@[ext] structure V2 where
  x : ℝ
  y : ℝ

/-- The point of a line in the plane with the parameter `t`. -/
noncomputable def along2 (p0 p1 : V2) (t : ℝ) : V2 := ⟨p0.x + t * (p1.x - p0.x), p0.y + t * (p1.y - p0.y)⟩

/-- The points of the circle with the given centre and radius. -/
def onCircle (c : V2) (r : ℝ) (p : V2) : Prop := (p.x - c.x) * (p.x - c.x) + (p.y - c.y) * (p.y - c.y) = r * r

/-! ## Segment and axis-aligned box -/

/-- `intersect_segment_aabb`, `geom.cpp` 1185-1223. -/
noncomputable def segmentAabb (eps : ℝ) (p0 p1 : V3 ℝ) (b : AABB) : Bool :=
  let center := smul (1 / 2) (b.min + b.max)
  let he := b.max - center
  let mid0 := smul (1 / 2) (p0 + p1)
  let hl := p1 - mid0
  let mid := mid0 - center
  if he.x + |hl.x| < |mid.x| then false else
  if he.y + |hl.y| < |mid.y| then false else
  if he.z + |hl.z| < |mid.z| then false else
  let ax := |hl.x| + eps
  let ay := |hl.y| + eps
  let az := |hl.z| + eps
  if he.y * az + he.z * ay < |mid.y * hl.z - mid.z * hl.y| then false else
  if he.z * ax + he.x * az < |mid.z * hl.x - mid.x * hl.z| then false else
  if he.x * ay + he.y * ax < |mid.x * hl.y - mid.y * hl.x| then false else
  true

/-- The segment has a point in the box. -/
def SegmentMeets (p0 p1 : V3 ℝ) (b : AABB) : Prop := ∃ t, 0 ≤ t ∧ t ≤ 1 ∧ b.Has (along p0 p1 t)

/-- The conditions in one formula. -/
theorem segmentAabb_iff (eps : ℝ) (p0 p1 : V3 ℝ) (b : AABB) :
    segmentAabb eps p0 p1 b = true ↔
      let e := b.max - smul (1 / 2) (b.min + b.max)
      let h := p1 - smul (1 / 2) (p0 + p1)
      let m := smul (1 / 2) (p0 + p1) - smul (1 / 2) (b.min + b.max)
      (|m.x| ≤ e.x + |h.x| ∧ |m.y| ≤ e.y + |h.y| ∧ |m.z| ≤ e.z + |h.z|) ∧
      |m.y * h.z - m.z * h.y| ≤ e.y * (|h.z| + eps) + e.z * (|h.y| + eps) ∧
      |m.z * h.x - m.x * h.z| ≤ e.z * (|h.x| + eps) + e.x * (|h.z| + eps) ∧
      |m.x * h.y - m.y * h.x| ≤ e.x * (|h.y| + eps) + e.y * (|h.x| + eps) := by
  unfold segmentAabb
  simp only
  split_ifs <;> simp only [Bool.false_eq_true, false_iff, true_iff] <;> first
    | (refine ⟨⟨?_, ?_, ?_⟩, ?_, ?_, ?_⟩ <;> apply le_of_not_gt <;> assumption)
    | (rintro ⟨⟨h1, h2, h3⟩, h4, h5, h6⟩; exact absurd ‹_ < _› (not_lt_of_ge (by assumption)))

/-- Membership with the parameter `s` between -1 and 1 of the segment `m + s h`, relative to the centre. -/
theorem meets_iff (p0 p1 : V3 ℝ) (b : AABB) :
    SegmentMeets p0 p1 b ↔
      let e := b.max - smul (1 / 2) (b.min + b.max)
      let h := p1 - smul (1 / 2) (p0 + p1)
      let m := smul (1 / 2) (p0 + p1) - smul (1 / 2) (b.min + b.max)
      ∃ s, |s| ≤ 1 ∧ |m.x + s * h.x| ≤ e.x ∧ |m.y + s * h.y| ≤ e.y ∧ |m.z + s * h.z| ≤ e.z := by
  simp only [SegmentMeets, AABB.Has, along]
  constructor
  · rintro ⟨t, h0, h1, ⟨a, b'⟩, ⟨c, d⟩, e', f⟩
    refine ⟨2 * t - 1, abs_le.mpr ⟨by linarith, by linarith⟩, ?_, ?_, ?_⟩ <;>
      simp only [add_x, sub_x, smul_x, add_y, sub_y, smul_y, add_z, sub_z, smul_z] at * <;>
      rw [abs_le] <;> constructor <;> linarith
  · rintro ⟨s, hs, h1, h2, h3⟩
    rw [abs_le] at hs h1 h2 h3
    simp only [add_x, sub_x, smul_x, add_y, sub_y, smul_y, add_z, sub_z, smul_z] at *
    refine ⟨(s + 1) / 2, by linarith, by linarith, ⟨?_, ?_⟩, ⟨?_, ?_⟩, ?_, ?_⟩ <;> linarith

theorem cross_bound {m h e m' h' e' s eps : ℝ} (he : 0 ≤ e) (he' : 0 ≤ e') (heps : 0 ≤ eps)
    (h1 : |m + s * h| ≤ e) (h2 : |m' + s * h'| ≤ e') :
    |m * h' - m' * h| ≤ e * (|h'| + eps) + e' * (|h| + eps) := by
  have : m * h' - m' * h = (m + s * h) * h' - (m' + s * h') * h := by ring
  rw [this]
  have a1 : |(m + s * h) * h'| ≤ e * |h'| := by
    rw [abs_mul]; exact mul_le_mul_of_nonneg_right h1 (abs_nonneg _)
  have a2 : |(m' + s * h') * h| ≤ e' * |h| := by
    rw [abs_mul]; exact mul_le_mul_of_nonneg_right h2 (abs_nonneg _)
  have := abs_sub ((m + s * h) * h') ((m' + s * h') * h)
  have b1 := mul_nonneg he heps
  have b2 := mul_nonneg he' heps
  nlinarith

theorem axis_bound {m h e s : ℝ} (hs : |s| ≤ 1) (h1 : |m + s * h| ≤ e) : |m| ≤ e + |h| := by
  have : m = (m + s * h) + (-(s * h)) := by ring
  have h2 := abs_add_le (m + s * h) (-(s * h))
  rw [← this, abs_neg, abs_mul] at h2
  have : |s| * |h| ≤ 1 * |h| := mul_le_mul_of_nonneg_right hs (abs_nonneg _)
  linarith

/-- The parameters for which a coordinate is within the extent. -/
theorem slab_interval {m h e : ℝ} (hh : h ≠ 0) :
    ∀ s, |m + s * h| ≤ e ↔ (-m / h - e / |h|) ≤ s ∧ s ≤ (-m / h + e / |h|) := by
  intro s
  have hp := abs_pos.mpr hh
  have key : |m + s * h| = |s - (-m / h)| * |h| := by
    rw [← abs_mul]; congr 1; field_simp; ring
  rw [key, ← le_div_iff₀ hp, abs_le]
  constructor <;> rintro ⟨a, b⟩ <;> constructor <;> linarith

theorem slab_overlap {m h e m' h' e' : ℝ} (hh : h ≠ 0) (hh' : h' ≠ 0)
    (hc : |m * h' - m' * h| ≤ e * |h'| + e' * |h|) :
    (-m / h - e / |h|) ≤ (-m' / h' + e' / |h'|) := by
  have hp := abs_pos.mpr hh
  have hp' := abs_pos.mpr hh'
  have h1 : -m / h - -m' / h' = -((m * h' - m' * h) / (h * h')) := by field_simp; ring
  have h2 : |(m * h' - m' * h) / (h * h')| ≤ e / |h| + e' / |h'| := by
    rw [abs_div, abs_mul, div_le_iff₀ (by positivity)]
    have : (e / |h| + e' / |h'|) * (|h| * |h'|) = e * |h'| + e' * |h| := by field_simp
    rw [this]; exact hc
  have := neg_abs_le ((m * h' - m' * h) / (h * h'))
  linarith

/-- Four intervals with pairwise common points have a common point. -/
theorem helly (l u : Fin 4 → ℝ) (h : ∀ i j, l i ≤ u j) : ∃ s, ∀ i, l i ≤ s ∧ s ≤ u i := by
  refine ⟨max (max (l 0) (l 1)) (max (l 2) (l 3)), fun i => ⟨?_, ?_⟩⟩
  · fin_cases i <;> simp
  · simp only [max_le_iff]
    exact ⟨⟨h 0 i, h 1 i⟩, h 2 i, h 3 i⟩

/-- The interval of the parameters for which a coordinate is within the extent, cut to `-1 ≤ s ≤ 1` if the
coordinate does not depend on the parameter. -/
noncomputable def lo (m h e : ℝ) : ℝ := if h = 0 then -1 else -m / h - e / |h|
noncomputable def hi (m h e : ℝ) : ℝ := if h = 0 then 1 else -m / h + e / |h|

theorem lo_le_hi {m h e m' h' e' : ℝ} (he : 0 ≤ e) (he' : 0 ≤ e') (h1 : |m| ≤ e + |h|) (h2 : |m'| ≤ e' + |h'|)
    (hc : |m * h' - m' * h| ≤ e * |h'| + e' * |h|) : lo m h e ≤ hi m' h' e' := by
  have one : ∀ m h e : ℝ, h ≠ 0 → |m| ≤ e + |h| → -m / h - e / |h| ≤ 1 ∧ -1 ≤ -m / h + e / |h| := by
    intro m h e hh hm
    have hp := abs_pos.mpr hh
    have h3 : |-m / h| ≤ e / |h| + 1 := by
      rw [abs_div, abs_neg, div_le_iff₀ hp]
      have : (e / |h| + 1) * |h| = e + |h| := by field_simp
      rw [this]; exact hm
    rw [abs_le] at h3
    constructor <;> linarith
  unfold lo hi
  by_cases hz : h = 0
  · by_cases hz' : h' = 0
    · rw [if_pos hz, if_pos hz']; norm_num
    · rw [if_pos hz, if_neg hz']; exact (one m' h' e' hz' h2).2
  · by_cases hz' : h' = 0
    · rw [if_neg hz, if_pos hz']; exact (one m h e hz h1).1
    · rw [if_neg hz, if_neg hz']; exact slab_overlap hz hz' hc

theorem of_interval {m h e s : ℝ} (hm : |m| ≤ e + |h|) (h1 : lo m h e ≤ s) (h2 : s ≤ hi m h e) :
    |m + s * h| ≤ e := by
  unfold lo at h1
  unfold hi at h2
  by_cases hz : h = 0
  · subst hz; simpa using hm
  · rw [if_neg hz] at h1 h2
    exact (slab_interval hz s).mpr ⟨h1, h2⟩

/-- The full statement: exactness for the tolerance of the code. -/
def SegmentAabbFull (eps : ℝ) : Prop :=
  ∀ (p0 p1 : V3 ℝ) (b : AABB), (b.min.x ≤ b.max.x ∧ b.min.y ≤ b.max.y ∧ b.min.z ≤ b.max.z) →
    (segmentAabb eps p0 p1 b = true ↔ SegmentMeets p0 p1 b)

/-- **C72, segment and box.** No segment which meets the box is rejected, whatever the tolerance; without
tolerance the test is exact.  Missing: with the tolerance some segments which just miss the box are accepted. -/
theorem segment_aabb_partial (eps : ℝ) (heps : 0 ≤ eps) (p0 p1 : V3 ℝ) (b : AABB)
    (hb : b.min.x ≤ b.max.x ∧ b.min.y ≤ b.max.y ∧ b.min.z ≤ b.max.z) :
    (SegmentMeets p0 p1 b → segmentAabb eps p0 p1 b = true) ∧
    (segmentAabb 0 p0 p1 b = true → SegmentMeets p0 p1 b) := by
  rw [segmentAabb_iff, segmentAabb_iff, meets_iff]
  obtain ⟨hb1, hb2, hb3⟩ := hb
  have ex : 0 ≤ (b.max - smul (1 / 2) (b.min + b.max)).x := by
    simp only [add_x, sub_x, smul_x]; linarith
  have ey : 0 ≤ (b.max - smul (1 / 2) (b.min + b.max)).y := by
    simp only [add_y, sub_y, smul_y]; linarith
  have ez : 0 ≤ (b.max - smul (1 / 2) (b.min + b.max)).z := by
    simp only [add_z, sub_z, smul_z]; linarith
  generalize b.max - smul (1 / 2) (b.min + b.max) = e at *
  generalize p1 - smul (1 / 2) (p0 + p1) = h
  generalize smul (1 / 2) (p0 + p1) - smul (1 / 2) (b.min + b.max) = m
  simp only
  constructor
  · rintro ⟨s, hs, h1, h2, h3⟩
    exact ⟨⟨axis_bound hs h1, axis_bound hs h2, axis_bound hs h3⟩, cross_bound ey ez heps h2 h3,
      cross_bound ez ex heps h3 h1, cross_bound ex ey heps h1 h2⟩
  · rintro ⟨⟨h1, h2, h3⟩, c1, c2, c3⟩
    simp only [add_zero] at c1 c2 c3
    have self : ∀ m h e : ℝ, 0 ≤ e → |m * h - m * h| ≤ e * |h| + e * |h| := by
      intro m h e he
      rw [sub_self, abs_zero]; positivity
    have flip : ∀ {m h e m' h' e' : ℝ}, |m * h' - m' * h| ≤ e * |h'| + e' * |h| →
        |m' * h - m * h'| ≤ e' * |h| + e * |h'| := by
      intro m h e m' h' e' hc
      rw [abs_sub_comm]; linarith
    have n1 : ∀ m h e : ℝ, |m| ≤ e + |h| → lo m h e ≤ 1 := by
      intro m h e hm
      have := lo_le_hi (m' := 0) (h' := 0) (e' := 0) (m := m) (h := h) (e := max e 0) (le_max_right _ _) le_rfl
        (by have := le_max_left e 0; linarith) (by simp) (by simp)
      unfold lo hi at *
      by_cases hz : h = 0
      · rw [if_pos hz]; norm_num
      · rw [if_neg hz]
        have hp := abs_pos.mpr hz
        have h3 : |-m / h| ≤ e / |h| + 1 := by
          rw [abs_div, abs_neg, div_le_iff₀ hp]
          have : (e / |h| + 1) * |h| = e + |h| := by field_simp
          rw [this]; exact hm
        rw [abs_le] at h3
        linarith
    have n2 : ∀ m h e : ℝ, |m| ≤ e + |h| → -1 ≤ hi m h e := by
      intro m h e hm
      unfold hi
      by_cases hz : h = 0
      · rw [if_pos hz]; norm_num
      · rw [if_neg hz]
        have hp := abs_pos.mpr hz
        have h3 : |-m / h| ≤ e / |h| + 1 := by
          rw [abs_div, abs_neg, div_le_iff₀ hp]
          have : (e / |h| + 1) * |h| = e + |h| := by field_simp
          rw [this]; exact hm
        rw [abs_le] at h3
        linarith
    obtain ⟨s, hs⟩ := helly ![lo m.x h.x e.x, lo m.y h.y e.y, lo m.z h.z e.z, -1]
      ![hi m.x h.x e.x, hi m.y h.y e.y, hi m.z h.z e.z, 1] (by
        intro i j
        fin_cases i <;> fin_cases j <;> simp
        · exact lo_le_hi ex ex h1 h1 (self _ _ _ ex)
        · exact lo_le_hi ex ey h1 h2 c3
        · exact lo_le_hi ex ez h1 h3 (flip c2)
        · exact n1 _ _ _ h1
        · exact lo_le_hi ey ex h2 h1 (flip c3)
        · exact lo_le_hi ey ey h2 h2 (self _ _ _ ey)
        · exact lo_le_hi ey ez h2 h3 c1
        · exact n1 _ _ _ h2
        · exact lo_le_hi ez ex h3 h1 c2
        · exact lo_le_hi ez ey h3 h2 (flip c1)
        · exact lo_le_hi ez ez h3 h3 (self _ _ _ ez)
        · exact n1 _ _ _ h3
        · exact n2 _ _ _ h1
        · exact n2 _ _ _ h2
        · exact n2 _ _ _ h3)
    have s0 := hs 0
    have s1 := hs 1
    have s2 := hs 2
    have s3 := hs 3
    simp at s0 s1 s2 s3
    exact ⟨s, abs_le.mpr s3, of_interval h1 s0.1 s0.2, of_interval h2 s1.1 s1.2, of_interval h3 s2.1 s2.2⟩

/-- **Finding** (small): with any positive tolerance (at most one) a segment which passes a corner at a distance is
accepted. -/
theorem segment_aabb_refuted (eps : ℝ) (he : 0 < eps) (he1 : eps ≤ 1) : ¬ SegmentAabbFull eps := by
  intro h
  have := (h ⟨2 + eps, eps, 0⟩ ⟨eps, 2 + eps, 0⟩ ⟨⟨-1, -1, -1⟩, ⟨1, 1, 1⟩⟩ (by norm_num)).mp (by
    rw [segmentAabb_iff]
    simp only [add_x, sub_x, smul_x, add_y, sub_y, smul_y, add_z, sub_z, smul_z]
    have e1 : (1 / 2 : ℝ) * (2 + eps + eps) - 1 / 2 * (-1 + 1) = 1 + eps := by ring
    have e2 : (1 / 2 : ℝ) * (eps + (2 + eps)) - 1 / 2 * (-1 + 1) = 1 + eps := by ring
    have e3 : (1 / 2 : ℝ) * (0 + 0) - 1 / 2 * (-1 + 1) = 0 := by ring
    have f1 : eps - (1 / 2 : ℝ) * (2 + eps + eps) = -1 := by ring
    have f2 : 2 + eps - (1 / 2 : ℝ) * (eps + (2 + eps)) = 1 := by ring
    have f3 : (0 : ℝ) - 1 / 2 * (0 + 0) = 0 := by ring
    have g : (1 : ℝ) - 1 / 2 * (-1 + 1) = 1 := by ring
    have a3 : |1 + eps| = 1 + eps := abs_of_pos (by linarith)
    have a4 : |(1 + eps) * 1 - (1 + eps) * -1| = 2 + 2 * eps := by
      rw [show (1 + eps) * 1 - (1 + eps) * -1 = 2 + 2 * eps by ring]; exact abs_of_pos (by linarith)
    rw [e1, e2, e3, f1, f2, f3, g, a3, a4]
    norm_num
    refine ⟨?_, ?_, ?_, ?_⟩ <;> linarith)
  obtain ⟨t, h0, h1, ⟨_, a⟩, ⟨_, b⟩, _⟩ := this
  simp only [along, add_x, sub_x, smul_x, add_y, sub_y, smul_y] at a b
  nlinarith

end Edyn.Geom
