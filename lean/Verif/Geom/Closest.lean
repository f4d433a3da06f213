import Verif.Geom.Shapes
import Mathlib.Data.Real.Sqrt
import Mathlib.Tactic.NormNum
import Mathlib.Tactic.FieldSimp
import Mathlib.Tactic.Set

/-!
# Closest points (C68): points, lines, segments, discs and boxes

`src/edyn/math/geom.cpp`.  Scalars are exact reals; `EDYN_EPSILON` is a parameter.  `none` is a failed
assertion or a division by zero.
-/

namespace Edyn.Geom

open Edyn.Math V3

/-! ## Model -/

/-- `clamp_unit`, `math.hpp` 46-48, `std::clamp`. -/
noncomputable def clampUnit (s : ℝ) : ℝ := if s < 0 then 0 else if 1 < s then 1 else s

/-- What the closest-point functions of one curve return: the squared distance, the parameter and the
point. -/
structure ClosestPt where
  distSqr : ℝ
  t : ℝ
  q : V3 ℝ

/-- `closest_point_segment`, `geom.cpp` 12-22. -/
noncomputable def closestSegment (eps : ℝ) (q0 q1 p : V3 ℝ) : Option ClosestPt :=
  let v := q1 - q0
  let w := p - q0
  let a := dot w v
  let b := dot v v
  if eps < b then
    let t := clampUnit (a / b)
    let q := q0 + smul t v
    some ⟨lengthSqr (p - q), t, q⟩
  else none

/-- `closest_point_line`, `geom.cpp` 35-44. -/
noncomputable def closestLine (eps : ℝ) (q0 dir p : V3 ℝ) : Option ClosestPt :=
  let w := p - q0
  let a := dot w dir
  let b := dot dir dir
  if eps < b then
    let t := a / b
    let q := q0 + smul t dir
    some ⟨lengthSqr (p - q), t, q⟩
  else none

/-- `distance_sqr_line`, `geom.cpp` 24-33. -/
noncomputable def distanceSqrLine (eps : ℝ) (q0 dir p : V3 ℝ) : Option ℝ :=
  let w := p - q0
  let a := dot w dir
  let b := dot dir dir
  if eps < b then
    let t := a / b
    let q := q0 + smul t dir
    some (lengthSqr (p - q))
  else none

/-- `closest_point_line_line`, `geom.cpp` 46-70; `none` is the return value `false`. -/
noncomputable def closestLineLine (eps : ℝ) (p1 q1 p2 q2 : V3 ℝ) : Option (ℝ × ℝ) :=
  let d1 := q1 - p1
  let d2 := q2 - p2
  let r := p1 - p2
  let a := dot d1 d1
  let b := dot d1 d2
  let c := dot d1 r
  let e := dot d2 d2
  let f := dot d2 r
  let d := a * e - b * b
  if eps < d then some ((b * f - c * e) * (1 / d), (a * f - b * c) * (1 / d)) else none

/-- What `closest_point_segment_segment` writes: parameters, points, squared distance, the number of
points (`none`: not written) and the second pair (`none`: not written). -/
structure SegSeg where
  s : ℝ
  t : ℝ
  c1 : V3 ℝ
  c2 : V3 ℝ
  distSqr : ℝ
  num : Option ℕ
  second : Option (ℝ × ℝ × V3 ℝ × V3 ℝ)

/-- The last part of `closest_point_segment_segment`, `geom.cpp` 149-163: the parameter on the second
segment for the one on the first, and the corrected one on the first. -/
noncomputable def segFinish (a b c e f s : ℝ) : ℝ × ℝ :=
  let tnom := b * s + f
  if tnom < 0 then (clampUnit (-c / a), 0)
  else if e < tnom then (clampUnit ((b - c) / a), 1)
  else (s, tnom / e)

/-- `closest_point_segment_segment`, `geom.cpp` 73-170.  `multi` tells whether `num_points` is given; the
pointers to the second pair are then given as well. -/
noncomputable def closestSegSeg (eps : ℝ) (multi : Bool) (p1 q1 p2 q2 : V3 ℝ) : SegSeg :=
  let d1 := q1 - p1
  let d2 := q2 - p2
  let r := p1 - p2
  let a := dot d1 d1
  let e := dot d2 d2
  let f := dot d2 r
  let pack (st : ℝ × ℝ) (num : Option ℕ) (second : Option (ℝ × ℝ × V3 ℝ × V3 ℝ)) : SegSeg :=
    let c1 := p1 + smul st.1 d1
    let c2 := p2 + smul st.2 d2
    ⟨st.1, st.2, c1, c2, lengthSqr (c1 - c2), num, second⟩
  if a ≤ eps ∧ e ≤ eps then ⟨0, 0, p1, p2, lengthSqr (p1 - p2), none, none⟩
  else if a ≤ eps then pack (0, clampUnit (f / e)) none none
  else
    let c := dot d1 r
    if e ≤ eps then pack (clampUnit (-c / a), 0) none none
    else
      let b := dot d1 d2
      let denom := a * e - b * b
      if eps < denom then
        pack (segFinish a b c e f (clampUnit ((b * f - c * e) / denom))) (if multi then some 1 else none) none
      else if multi then
        let r1 := p1 - q2
        let f1 := dot d1 r1
        let ainv := 1 / a
        let s := clampUnit (min (-c * ainv) (-f1 * ainv))
        let sp := clampUnit (max (-c * ainv) (-f1 * ainv))
        let r2 := p2 - q1
        let f2 := dot d2 r2
        let einv := 1 / e
        let tp := clampUnit (max (-f * einv) (-f2 * einv))
        if eps < |s - sp| then
          pack (segFinish a b c e f s) (some 2) (some (sp, tp, p1 + smul sp d1, p2 + smul tp d2))
        else pack (segFinish a b c e f s) (some 1) none
      else pack (segFinish a b c e f 0) none none

/-- `closest_point_disc`, `geom.cpp` 172-192: the squared distance and the point. -/
noncomputable def closestDisc (dpos : V3 ℝ) (dorn : Quat ℝ) (radius : ℝ) (axis : Axis) (p : V3 ℝ) :
    Option (ℝ × V3 ℝ) :=
  let normal := Quat.rotate dorn axis.vec
  let ln := dot (p - dpos) normal
  let proj := p - smul ln normal
  let d := proj - dpos
  let l2 := lengthSqr d
  if l2 < radius * radius then some (ln * ln, proj)
  else
    let l := Real.sqrt l2
    if l = 0 then none
    else
      let dn := smul (1 / l) d
      let q := dpos + smul radius dn
      some (lengthSqr (p - q), q)

/-- `closest_point_box_outside`, `geom.cpp` 987-996. -/
noncomputable def closestBoxOutside (h p : V3 ℝ) : V3 ℝ :=
  ⟨max (-h.x) (min h.x p.x), max (-h.y) (min h.y p.y), max (-h.z) (min h.z p.z)⟩

/-- One comparison of `closest_point_box_inside`, `geom.cpp` 1006-1039. -/
noncomputable def insideStep (dist : ℝ) (c n : V3 ℝ) (m : ℝ × V3 ℝ × V3 ℝ) : ℝ × V3 ℝ × V3 ℝ :=
  if dist < m.1 then (dist, c, n) else m

/-- `closest_point_box_inside`, `geom.cpp` 998-1042: the returned distance, the point and the normal.
`none`: the assertion that the point lies in the box fails.  The function returns `dist`, the last
distance computed, and not `min_dist`. -/
noncomputable def closestBoxInside (h p : V3 ℝ) : Option (ℝ × V3 ℝ × V3 ℝ) :=
  if (-h.x ≤ p.x ∧ -h.y ≤ p.y ∧ -h.z ≤ p.z) ∧ p.x ≤ h.x ∧ p.y ≤ h.y ∧ p.z ≤ h.z then
    let m := (h.x - p.x, (⟨h.x, p.y, p.z⟩ : V3 ℝ), (⟨1, 0, 0⟩ : V3 ℝ))
    let m := insideStep (h.x + p.x) ⟨-h.x, p.y, p.z⟩ ⟨-1, 0, 0⟩ m
    let m := insideStep (h.y - p.y) ⟨p.x, h.y, p.z⟩ ⟨0, 1, 0⟩ m
    let m := insideStep (h.y + p.y) ⟨p.x, -h.y, p.z⟩ ⟨0, -1, 0⟩ m
    let m := insideStep (h.z - p.z) ⟨p.x, p.y, h.z⟩ ⟨0, 0, 1⟩ m
    let m := insideStep (h.z + p.z) ⟨p.x, p.y, -h.z⟩ ⟨0, 0, -1⟩ m
    some (h.z + p.z, m.2)
  else none

/-! ## Clamping and quadratics -/

theorem clampUnit_mem (s : ℝ) : 0 ≤ clampUnit s ∧ clampUnit s ≤ 1 := by
  unfold clampUnit
  by_cases h : s < 0
  · rw [if_pos h]; norm_num
  · rw [if_neg h]
    by_cases h' : 1 < s
    · rw [if_pos h']; norm_num
    · rw [if_neg h']; exact ⟨not_lt.mp h, not_lt.mp h'⟩

/-- The clamped minimum of a parabola is its minimum on the unit interval. -/
theorem clamp_min {A : ℝ} (hA : 0 ≤ A) (m : ℝ) {u : ℝ} (h0 : 0 ≤ u) (h1 : u ≤ 1) :
    A * (clampUnit m - m) ^ 2 ≤ A * (u - m) ^ 2 := by
  apply mul_le_mul_of_nonneg_left _ hA
  unfold clampUnit
  by_cases h : m < 0
  · rw [if_pos h]; nlinarith
  · rw [if_neg h]
    by_cases h' : 1 < m
    · rw [if_pos h']; nlinarith
    · rw [if_neg h']; nlinarith [sq_nonneg (u - m)]

/-- The squared distance from `p` to a point of the line through `q0` along `v`. -/
theorem line_dist (q0 v p : V3 ℝ) (hv : dot v v ≠ 0) (u : ℝ) :
    lengthSqr (p - (q0 + smul u v)) = dot v v * (u - dot (p - q0) v / dot v v) ^ 2 +
      (lengthSqr (p - q0) - dot (p - q0) v * dot (p - q0) v / dot v v) := by
  have h1 : lengthSqr (p - (q0 + smul u v)) =
      lengthSqr (p - q0) - 2 * u * dot (p - q0) v + u * u * dot v v := by
    simp only [lengthSqr, dot, sub_x, sub_y, sub_z, add_x, add_y, add_z, smul_x, smul_y, smul_z]; ring
  rw [h1]
  field_simp
  ring

/-! ## Segment and line -/

/-- **C68, segments.** The point returned for a segment is the one at the returned parameter, the
parameter is between 0 and 1, no point of the segment is closer and the returned value is the squared
distance. -/
theorem closest_segment_spec (eps : ℝ) (he : 0 ≤ eps) (q0 q1 p : V3 ℝ)
    (h : eps < lengthSqr (q1 - q0)) :
    ∃ r, closestSegment eps q0 q1 p = some r ∧ (0 ≤ r.t ∧ r.t ≤ 1) ∧
      r.q = q0 + smul r.t (q1 - q0) ∧ r.distSqr = lengthSqr (p - r.q) ∧
      ∀ u, 0 ≤ u → u ≤ 1 → lengthSqr (p - r.q) ≤ lengthSqr (p - (q0 + smul u (q1 - q0))) := by
  have h' : eps < dot (q1 - q0) (q1 - q0) := h
  have hp : 0 < dot (q1 - q0) (q1 - q0) := lt_of_le_of_lt he h'
  refine ⟨_, if_pos h', clampUnit_mem _, rfl, rfl, ?_⟩
  intro u hu0 hu1
  simp only
  rw [line_dist q0 _ p hp.ne', line_dist q0 _ p hp.ne']
  have := clamp_min hp.le (dot (p - q0) (q1 - q0) / dot (q1 - q0) (q1 - q0)) hu0 hu1
  linarith

/-- **C68, lines.** -/
theorem closest_line_spec (eps : ℝ) (he : 0 ≤ eps) (q0 dir p : V3 ℝ) (h : eps < lengthSqr dir) :
    ∃ r, closestLine eps q0 dir p = some r ∧ r.q = q0 + smul r.t dir ∧
      r.distSqr = lengthSqr (p - r.q) ∧ distanceSqrLine eps q0 dir p = some (lengthSqr (p - r.q)) ∧
      ∀ u, lengthSqr (p - r.q) ≤ lengthSqr (p - (q0 + smul u dir)) := by
  have h' : eps < dot dir dir := h
  have hp : 0 < dot dir dir := lt_of_le_of_lt he h'
  refine ⟨_, if_pos h', rfl, rfl, if_pos h', ?_⟩
  intro u
  simp only
  rw [line_dist q0 _ p hp.ne', line_dist q0 _ p hp.ne']
  have := mul_nonneg hp.le (sq_nonneg (u - dot (p - q0) dir / dot dir dir))
  simp only [sub_self]
  linarith

/-- **C68, degenerate segments and lines.** Without a direction the functions fail. -/
theorem closest_degenerate (eps : ℝ) (q0 q1 dir p : V3 ℝ) :
    (lengthSqr (q1 - q0) ≤ eps → closestSegment eps q0 q1 p = none) ∧
      (lengthSqr dir ≤ eps → closestLine eps q0 dir p = none ∧ distanceSqrLine eps q0 dir p = none) :=
  ⟨fun h => if_neg (not_lt.mpr h), fun h => ⟨if_neg (not_lt.mpr h), if_neg (not_lt.mpr h)⟩⟩

/-! ## Two lines -/

/-- The squared distance of two points of two lines is a sum of two squares and a constant. -/
theorem line_line_dist (d1 d2 r : V3 ℝ) (s t : ℝ) :
    lengthSqr (r + smul s d1 - smul t d2) =
      dot d1 d1 * s * s + dot d2 d2 * t * t - 2 * dot d1 d2 * s * t + 2 * dot d1 r * s - 2 * dot d2 r * t +
        lengthSqr r := by
  simp only [lengthSqr, dot, sub_x, sub_y, sub_z, add_x, add_y, add_z, smul_x, smul_y, smul_z]; ring

theorem pair_diff (p1 d1 p2 d2 : V3 ℝ) (s t : ℝ) :
    p1 + smul s d1 - (p2 + smul t d2) = (p1 - p2) + smul s d1 - smul t d2 := by
  ext <;> simp <;> ring

/-- The squared distance over `t` for fixed `s`, and what is left over `s`. -/
theorem seg_complete {a b c e f L : ℝ} (he : e ≠ 0) (s t : ℝ) :
    a * s * s + e * t * t - 2 * b * s * t + 2 * c * s - 2 * f * t + L =
      e * (t - (b * s + f) / e) ^ 2 + ((a * e - b * b) / e * s * s + 2 * ((c * e - b * f) / e) * s +
        (L - f * f / e)) := by
  field_simp
  ring

/-- **C68, two lines.** For lines which are not parallel the returned parameters give the closest pair of
points; for lines reported as parallel the squared sine of their angle times the squared lengths is at
most the tolerance. -/
theorem closest_line_line_spec (eps : ℝ) (he : 0 ≤ eps) (p1 q1 p2 q2 : V3 ℝ) :
    (∀ s t, closestLineLine eps p1 q1 p2 q2 = some (s, t) →
      ∀ s' t', lengthSqr (p1 + smul s (q1 - p1) - (p2 + smul t (q2 - p2))) ≤
        lengthSqr (p1 + smul s' (q1 - p1) - (p2 + smul t' (q2 - p2)))) ∧
    (closestLineLine eps p1 q1 p2 q2 = none ↔ lengthSqr (cross (q1 - p1) (q2 - p2)) ≤ eps) := by
  set d1 := q1 - p1
  set d2 := q2 - p2
  set r := p1 - p2
  have hd : dot d1 d1 * dot d2 d2 - dot d1 d2 * dot d1 d2 = lengthSqr (cross d1 d2) := by
    simp only [lengthSqr, dot, cross_x, cross_y, cross_z]; ring
  constructor
  · intro s t h s' t'
    unfold closestLineLine at h
    by_cases hc : eps < dot d1 d1 * dot d2 d2 - dot d1 d2 * dot d1 d2
    · rw [if_pos hc] at h
      have hD : 0 < dot d1 d1 * dot d2 d2 - dot d1 d2 * dot d1 d2 := lt_of_le_of_lt he hc
      have he0 : dot d2 d2 ≠ 0 := by
        intro h0
        have := dot_sq_le d1 d2
        rw [h0] at hD
        nlinarith [mul_self_nonneg (dot d1 d2)]
      have hep : 0 < dot d2 d2 := lt_of_le_of_ne (lengthSqr_nonneg d2) (Ne.symm he0)
      have h1 : s = (dot d1 d2 * dot d2 r - dot d1 r * dot d2 d2) /
          (dot d1 d1 * dot d2 d2 - dot d1 d2 * dot d1 d2) := by
        have := (Prod.mk.inj (Option.some.inj h)).1
        rw [← this, mul_one_div]
      have h2 : t = (dot d1 d1 * dot d2 r - dot d1 d2 * dot d1 r) /
          (dot d1 d1 * dot d2 d2 - dot d1 d2 * dot d1 d2) := by
        have := (Prod.mk.inj (Option.some.inj h)).2
        rw [← this, mul_one_div]
      rw [pair_diff, pair_diff, line_line_dist, line_line_dist]
      set a := dot d1 d1
      set b := dot d1 d2
      set c := dot d1 r
      set e := dot d2 d2
      set f := dot d2 r
      set D := a * e - b * b
      have hs : s * D = b * f - c * e := by rw [h1]; field_simp
      have ht : t * D = a * f - b * c := by rw [h2]; field_simp
      have ht2 : e * t = b * s + f := by
        have : (e * t - (b * s + f)) * D = 0 := by
          have : (e * t - (b * s + f)) * D = e * (t * D) - b * (s * D) - f * D := by ring
          rw [this, hs, ht]; ring
        rcases mul_eq_zero.mp this with h | h
        · linarith
        · exact absurd h hD.ne'
      have key : e * (a * s' * s' + e * t' * t' - 2 * b * s' * t' + 2 * c * s' - 2 * f * t' -
          (a * s * s + e * t * t - 2 * b * s * t + 2 * c * s - 2 * f * t)) =
          (e * (t' - t) - b * (s' - s)) ^ 2 + D * (s' - s) ^ 2 := by
        have e1 : f = e * t - b * s := by linarith
        have e2 : c * e = b * f - s * D := by linarith
        have e3 : c * e = b * (e * t - b * s) - s * (a * e - b * b) := by rw [e2, e1]
        have : e * (a * s' * s' + e * t' * t' - 2 * b * s' * t' + 2 * c * s' - 2 * f * t' -
          (a * s * s + e * t * t - 2 * b * s * t + 2 * c * s - 2 * f * t)) =
          e * (a * s' * s' + e * t' * t' - 2 * b * s' * t' - 2 * f * t' -
          (a * s * s + e * t * t - 2 * b * s * t - 2 * f * t)) + 2 * (c * e) * (s' - s) := by ring
        rw [this, e3, e1]
        simp only [D]
        ring
      have hn : 0 ≤ (e * (t' - t) - b * (s' - s)) ^ 2 + D * (s' - s) ^ 2 :=
        add_nonneg (sq_nonneg _) (mul_nonneg hD.le (sq_nonneg _))
      rw [← key] at hn
      have := nonneg_of_mul_nonneg_right hn hep
      linarith
    · rw [if_neg hc] at h
      exact absurd h (by simp)
  · unfold closestLineLine
    by_cases hc : eps < dot d1 d1 * dot d2 d2 - dot d1 d2 * dot d1 d2
    · rw [if_pos hc]
      rw [hd] at hc
      simp [not_le.mpr hc]
    · rw [if_neg hc]
      rw [hd] at hc
      simp [not_lt.mp hc]

end Edyn.Geom
