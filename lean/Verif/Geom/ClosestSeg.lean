import Verif.Geom.Closest

/-!
# Closest points of two segments (C68)
-/

namespace Edyn.Geom

open Edyn.Math V3

/-- The squared distance as a function of the two parameters. -/
def quad (a b c e f L s t : ℝ) : ℝ :=
  a * s * s + e * t * t - 2 * b * s * t + 2 * c * s - 2 * f * t + L

theorem quad_convex {a b c e f L : ℝ} (he : 0 < e) (hD : 0 ≤ a * e - b * b) {s t s' t' l : ℝ}
    (h0 : 0 ≤ l) (h1 : l ≤ 1) (hle : quad a b c e f L s t ≤ quad a b c e f L s' t') :
    quad a b c e f L (s + l * (s' - s)) (t + l * (t' - t)) ≤ quad a b c e f L s' t' := by
  have hH : 0 ≤ a * (s' - s) ^ 2 + e * (t' - t) ^ 2 - 2 * b * (s' - s) * (t' - t) := by
    have : 0 ≤ e * (a * (s' - s) ^ 2 + e * (t' - t) ^ 2 - 2 * b * (s' - s) * (t' - t)) := by
      have e1 : e * (a * (s' - s) ^ 2 + e * (t' - t) ^ 2 - 2 * b * (s' - s) * (t' - t)) =
          (e * (t' - t) - b * (s' - s)) ^ 2 + (a * e - b * b) * (s' - s) ^ 2 := by ring
      rw [e1]
      exact add_nonneg (sq_nonneg _) (mul_nonneg hD (sq_nonneg _))
    exact nonneg_of_mul_nonneg_right this he
  have e2 : quad a b c e f L (s + l * (s' - s)) (t + l * (t' - t)) =
      quad a b c e f L s t + l * (quad a b c e f L s' t' - quad a b c e f L s t) -
        l * (1 - l) * (a * (s' - s) ^ 2 + e * (t' - t) ^ 2 - 2 * b * (s' - s) * (t' - t)) := by
    unfold quad; ring
  rw [e2]
  have := mul_nonneg (mul_nonneg h0 (sub_nonneg.mpr h1)) hH
  nlinarith

/-- The last part of the function is right when the parameter on the first segment is the best one against
the whole second line. -/
theorem segFinish_spec {a b c e f : ℝ} (L : ℝ) (ha : 0 < a) (he : 0 < e) (hD : 0 ≤ a * e - b * b) {s : ℝ}
    (hs0 : 0 ≤ s) (hs1 : s ≤ 1)
    (hs : ∀ s', 0 ≤ s' → s' ≤ 1 → (a * e - b * b) / e * s * s + 2 * ((c * e - b * f) / e) * s ≤
      (a * e - b * b) / e * s' * s' + 2 * ((c * e - b * f) / e) * s') :
    (0 ≤ (segFinish a b c e f s).1 ∧ (segFinish a b c e f s).1 ≤ 1) ∧
    (0 ≤ (segFinish a b c e f s).2 ∧ (segFinish a b c e f s).2 ≤ 1) ∧
    ∀ s' t', 0 ≤ s' → s' ≤ 1 → 0 ≤ t' → t' ≤ 1 →
      quad a b c e f L (segFinish a b c e f s).1 (segFinish a b c e f s).2 ≤ quad a b c e f L s' t' := by
  have strip : ∀ s' t', 0 ≤ s' → s' ≤ 1 → quad a b c e f L s ((b * s + f) / e) ≤ quad a b c e f L s' t' := by
    intro s' t' h0 h1
    have e1 := seg_complete (a := a) (b := b) (c := c) (f := f) (L := L) he.ne' s ((b * s + f) / e)
    have e2 := seg_complete (a := a) (b := b) (c := c) (f := f) (L := L) he.ne' s' t'
    unfold quad
    rw [e1, e2]
    have := hs s' h0 h1
    have := mul_nonneg he.le (sq_nonneg (t' - (b * s' + f) / e))
    simp only [sub_self]
    linarith
  unfold segFinish
  by_cases h1 : b * s + f < 0
  · simp only [h1, if_true]
    refine ⟨clampUnit_mem _, ⟨le_refl _, by norm_num⟩, ?_⟩
    intro s' t' hs0' hs1' ht0' ht1'
    have hts : (b * s + f) / e < 0 := div_neg_of_neg_of_pos h1 he
    set ts := (b * s + f) / e with htsd
    have hden : 0 < t' - ts := by linarith
    have hl0 : 0 ≤ -ts / (t' - ts) := div_nonneg (by linarith) hden.le
    have hl1 : -ts / (t' - ts) ≤ 1 := by rw [div_le_one hden]; linarith
    have hc := quad_convex (L := L) (c := c) (f := f) he hD hl0 hl1 (strip s' t' hs0' hs1')
    have hz : ts + -ts / (t' - ts) * (t' - ts) = 0 := by field_simp; ring
    rw [hz] at hc
    have hm0 : 0 ≤ s + -ts / (t' - ts) * (s' - s) := by nlinarith
    have hm1 : s + -ts / (t' - ts) * (s' - s) ≤ 1 := by nlinarith
    refine le_trans ?_ hc
    have e3 : ∀ u, quad a b c e f L u 0 = a * (u - -c / a) ^ 2 + (L - c * c / a) := by
      intro u; unfold quad; field_simp; ring
    rw [e3, e3]
    have := clamp_min ha.le (-c / a) hm0 hm1
    linarith
  · simp only [h1, if_false]
    by_cases h2 : e < b * s + f
    · simp only [h2, if_true]
      refine ⟨clampUnit_mem _, ⟨by norm_num, le_refl _⟩, ?_⟩
      intro s' t' hs0' hs1' ht0' ht1'
      have hts : 1 < (b * s + f) / e := by rw [one_lt_div he]; exact h2
      set ts := (b * s + f) / e with htsd
      have hden : 0 < ts - t' := by linarith
      have hl0 : 0 ≤ (ts - 1) / (ts - t') := div_nonneg (by linarith) hden.le
      have hl1 : (ts - 1) / (ts - t') ≤ 1 := by rw [div_le_one hden]; linarith
      have hc := quad_convex (L := L) (c := c) (f := f) he hD hl0 hl1 (strip s' t' hs0' hs1')
      have hz : ts + (ts - 1) / (ts - t') * (t' - ts) = 1 := by
        have : (ts - 1) / (ts - t') * (t' - ts) = -(ts - 1) := by
          rw [show t' - ts = -(ts - t') by ring, mul_neg, div_mul_cancel₀ _ hden.ne']
        rw [this]; ring
      rw [hz] at hc
      have hm0 : 0 ≤ s + (ts - 1) / (ts - t') * (s' - s) := by nlinarith
      have hm1 : s + (ts - 1) / (ts - t') * (s' - s) ≤ 1 := by nlinarith
      refine le_trans ?_ hc
      have e3 : ∀ u, quad a b c e f L u 1 = a * (u - (b - c) / a) ^ 2 +
          (L + e - 2 * f - (b - c) * (b - c) / a) := by
        intro u; unfold quad; field_simp; ring
      rw [e3, e3]
      have := clamp_min ha.le ((b - c) / a) hm0 hm1
      linarith
    · simp only [h2, if_false]
      refine ⟨⟨hs0, hs1⟩, ⟨div_nonneg (not_lt.mp h1) he.le, ?_⟩, ?_⟩
      · rw [div_le_one he]; exact not_lt.mp h2
      · intro s' t' hs0' hs1' _ _
        exact strip s' t' hs0' hs1'

/-- Parallel directions: the cross terms vanish. -/
theorem parallel_terms {d1 d2 : V3 ℝ} (h : lengthSqr (cross d1 d2) = 0) (r : V3 ℝ) :
    dot d1 r * dot d2 d2 - dot d1 d2 * dot d2 r = 0 := by
  have h0 := lengthSqr_eq_zero h
  have e : dot d1 r * dot d2 d2 - dot d1 d2 * dot d2 r = dot (cross d1 d2) (cross r d2) := by
    simp only [dot, cross_x, cross_y, cross_z]; ring
  rw [e, h0]
  simp [dot]

theorem denom_eq (d1 d2 : V3 ℝ) :
    dot d1 d1 * dot d2 d2 - dot d1 d2 * dot d1 d2 = lengthSqr (cross d1 d2) := by
  simp only [lengthSqr, dot, cross_x, cross_y, cross_z]; ring

theorem smul_zero' (u : ℝ) : smul u (0 : V3 ℝ) = 0 := by ext <;> simp
theorem smul_zero_left (v : V3 ℝ) : smul 0 v = 0 := by ext <;> simp

/-- What it means that a result of the two-segment function is right. -/
def SegSeg.Right (p1 q1 p2 q2 : V3 ℝ) (r : SegSeg) : Prop :=
  (0 ≤ r.s ∧ r.s ≤ 1) ∧ (0 ≤ r.t ∧ r.t ≤ 1) ∧ r.c1 = p1 + smul r.s (q1 - p1) ∧
  r.c2 = p2 + smul r.t (q2 - p2) ∧ r.distSqr = lengthSqr (r.c1 - r.c2) ∧
  ∀ s t, 0 ≤ s → s ≤ 1 → 0 ≤ t → t ≤ 1 →
    lengthSqr (r.c1 - r.c2) ≤ lengthSqr (p1 + smul s (q1 - p1) - (p2 + smul t (q2 - p2)))

/-- The full statement: the two points lie on the segments and no other pair is closer. -/
def SegSegFull (eps : ℝ) : Prop :=
  ∀ (multi : Bool) (p1 q1 p2 q2 : V3 ℝ), (closestSegSeg eps multi p1 q1 p2 q2).Right p1 q1 p2 q2

theorem right_of_quad {p1 q1 p2 q2 : V3 ℝ} {s t : ℝ} (num : Option ℕ)
    (sec : Option (ℝ × ℝ × V3 ℝ × V3 ℝ)) (hs : 0 ≤ s ∧ s ≤ 1) (ht : 0 ≤ t ∧ t ≤ 1)
    (hq : ∀ s' t', 0 ≤ s' → s' ≤ 1 → 0 ≤ t' → t' ≤ 1 →
      quad (dot (q1 - p1) (q1 - p1)) (dot (q1 - p1) (q2 - p2)) (dot (q1 - p1) (p1 - p2))
        (dot (q2 - p2) (q2 - p2)) (dot (q2 - p2) (p1 - p2)) (lengthSqr (p1 - p2)) s t ≤
      quad (dot (q1 - p1) (q1 - p1)) (dot (q1 - p1) (q2 - p2)) (dot (q1 - p1) (p1 - p2))
        (dot (q2 - p2) (q2 - p2)) (dot (q2 - p2) (p1 - p2)) (lengthSqr (p1 - p2)) s' t') :
    SegSeg.Right p1 q1 p2 q2 ⟨s, t, p1 + smul s (q1 - p1), p2 + smul t (q2 - p2),
      lengthSqr (p1 + smul s (q1 - p1) - (p2 + smul t (q2 - p2))), num, sec⟩ := by
  refine ⟨hs, ht, rfl, rfl, rfl, ?_⟩
  intro s' t' h1 h2 h3 h4
  simp only
  rw [pair_diff, pair_diff, line_line_dist, line_line_dist]
  exact hq s' t' h1 h2 h3 h4

theorem square_form {D e : ℝ} (hD : D ≠ 0) (he : e ≠ 0) (m u : ℝ) :
    D / e * u * u - 2 * (m / e) * u = D / e * (u - m / D) ^ 2 - m ^ 2 / (e * D) := by
  field_simp
  ring

theorem clamp_zero : clampUnit 0 = 0 := by simp [clampUnit]

/-- **C68, two segments.** Unless a segment is shorter than the tolerance without being a point, or the
directions are parallel within the tolerance without being parallel, the returned points lie on the two
segments, at the returned parameters, and no other two points of the segments are closer. -/
theorem closest_segments_partial (eps : ℝ) (he : 0 ≤ eps) (multi : Bool) (p1 q1 p2 q2 : V3 ℝ)
    (h1 : q1 = p1 ∨ eps < lengthSqr (q1 - p1)) (h2 : q2 = p2 ∨ eps < lengthSqr (q2 - p2))
    (h3 : cross (q1 - p1) (q2 - p2) = 0 ∨ eps < lengthSqr (cross (q1 - p1) (q2 - p2))) :
    (closestSegSeg eps multi p1 q1 p2 q2).Right p1 q1 p2 q2 := by
  have dzero : ∀ p : V3 ℝ, p - p = 0 := by intro p; ext <;> simp
  have dz : ∀ v : V3 ℝ, dot (0 : V3 ℝ) v = 0 := by intro v; simp [dot]
  have dz' : ∀ v : V3 ℝ, dot v (0 : V3 ℝ) = 0 := by intro v; simp [dot]
  have add0 : ∀ v : V3 ℝ, v + 0 = v := by intro v; ext <;> simp
  have hc3 : lengthSqr (cross (q1 - p1) (q2 - p2)) = 0 ∨ eps < lengthSqr (cross (q1 - p1) (q2 - p2)) := by
    rcases h3 with h | h
    · left; rw [h]; simp [lengthSqr, dot]
    · exact .inr h
  unfold closestSegSeg
  rcases h1 with h1 | h1
  · subst h1
    have a0 : dot (q1 - q1) (q1 - q1) ≤ eps := by rw [dzero, dz]; exact he
    rcases h2 with h2 | h2
    · subst h2
      have e0 : dot (q2 - q2) (q2 - q2) ≤ eps := by rw [dzero, dz]; exact he
      simp only [a0, e0, and_self, if_true]
      refine ⟨by simp, by simp, ?_, ?_, rfl, ?_⟩
      · simp only; rw [dzero, smul_zero', add0]
      · simp only; rw [dzero, smul_zero', add0]
      · intro s t _ _ _ _
        simp only
        rw [dzero, dzero, smul_zero', smul_zero', add0, add0]
    · have e0 : ¬ dot (q2 - p2) (q2 - p2) ≤ eps := not_le.mpr h2
      have ep : 0 < dot (q2 - p2) (q2 - p2) := lt_of_le_of_lt he h2
      simp only [a0, e0, and_false, if_false, if_true]
      refine right_of_quad _ _ (by simp) (clampUnit_mem _) ?_
      intro s' t' _ _ h3' h4'
      rw [dzero, dz, dz, dz]
      have e3 : ∀ u v, quad 0 0 0 (dot (q2 - p2) (q2 - p2)) (dot (q2 - p2) (q1 - p2)) (lengthSqr (q1 - p2)) u v =
          dot (q2 - p2) (q2 - p2) * (v - dot (q2 - p2) (q1 - p2) / dot (q2 - p2) (q2 - p2)) ^ 2 +
            (lengthSqr (q1 - p2) - dot (q2 - p2) (q1 - p2) * dot (q2 - p2) (q1 - p2) /
              dot (q2 - p2) (q2 - p2)) := by
        intro u v; unfold quad; field_simp; ring
      rw [e3, e3]
      have := clamp_min ep.le (dot (q2 - p2) (q1 - p2) / dot (q2 - p2) (q2 - p2)) h3' h4'
      linarith
  · have a0 : ¬ dot (q1 - p1) (q1 - p1) ≤ eps := not_le.mpr h1
    have ap : 0 < dot (q1 - p1) (q1 - p1) := lt_of_le_of_lt he h1
    rcases h2 with h2 | h2
    · subst h2
      have e0 : dot (q2 - q2) (q2 - q2) ≤ eps := by rw [dzero, dz]; exact he
      simp only [a0, e0, false_and, if_false, if_true]
      refine right_of_quad _ _ (clampUnit_mem _) (by simp) ?_
      intro s' t' h1' h2' _ _
      rw [dzero, dz, dz', dz]
      have e3 : ∀ u v, quad (dot (q1 - p1) (q1 - p1)) 0 (dot (q1 - p1) (p1 - q2)) 0 0 (lengthSqr (p1 - q2)) u v =
          dot (q1 - p1) (q1 - p1) * (u - -dot (q1 - p1) (p1 - q2) / dot (q1 - p1) (q1 - p1)) ^ 2 +
            (lengthSqr (p1 - q2) - dot (q1 - p1) (p1 - q2) * dot (q1 - p1) (p1 - q2) /
              dot (q1 - p1) (q1 - p1)) := by
        intro u v; unfold quad; field_simp; ring
      rw [e3, e3]
      have := clamp_min ap.le (-dot (q1 - p1) (p1 - q2) / dot (q1 - p1) (q1 - p1)) h1' h2'
      linarith
    · have e0 : ¬ dot (q2 - p2) (q2 - p2) ≤ eps := not_le.mpr h2
      have ep : 0 < dot (q2 - p2) (q2 - p2) := lt_of_le_of_lt he h2
      simp only [a0, e0, and_self, if_false]
      have hD0 : 0 ≤ dot (q1 - p1) (q1 - p1) * dot (q2 - p2) (q2 - p2) -
          dot (q1 - p1) (q2 - p2) * dot (q1 - p1) (q2 - p2) := by
        rw [denom_eq]; exact lengthSqr_nonneg _
      by_cases hD : eps < dot (q1 - p1) (q1 - p1) * dot (q2 - p2) (q2 - p2) -
          dot (q1 - p1) (q2 - p2) * dot (q1 - p1) (q2 - p2)
      · simp only [hD, if_true]
        have hDp := lt_of_le_of_lt he hD
        obtain ⟨r1, r2, r3⟩ := segFinish_spec (c := dot (q1 - p1) (p1 - p2)) (f := dot (q2 - p2) (p1 - p2))
          (lengthSqr (p1 - p2)) ap ep hD0
          (clampUnit_mem ((dot (q1 - p1) (q2 - p2) * dot (q2 - p2) (p1 - p2) -
            dot (q1 - p1) (p1 - p2) * dot (q2 - p2) (q2 - p2)) /
            (dot (q1 - p1) (q1 - p1) * dot (q2 - p2) (q2 - p2) -
              dot (q1 - p1) (q2 - p2) * dot (q1 - p1) (q2 - p2)))).1
          (clampUnit_mem _).2 (by
            intro s' h1' h2'
            set a := dot (q1 - p1) (q1 - p1)
            set b := dot (q1 - p1) (q2 - p2)
            set c := dot (q1 - p1) (p1 - p2)
            set e := dot (q2 - p2) (q2 - p2)
            set f := dot (q2 - p2) (p1 - p2)
            have e3 : ∀ u, (a * e - b * b) / e * u * u + 2 * ((c * e - b * f) / e) * u =
                (a * e - b * b) / e * (u - (b * f - c * e) / (a * e - b * b)) ^ 2 -
                  (b * f - c * e) ^ 2 / (e * (a * e - b * b)) := by
              intro u
              have := square_form hDp.ne' ep.ne' (b * f - c * e) u
              rw [← this]
              ring
            rw [e3, e3]
            have := clamp_min (div_nonneg hDp.le ep.le) ((b * f - c * e) / (a * e - b * b)) h1' h2'
            linarith)
        exact right_of_quad _ _ r1 r2 r3
      · simp only [hD, if_false]
        have hpar : lengthSqr (cross (q1 - p1) (q2 - p2)) = 0 := by
          rcases hc3 with h | h
          · exact h
          · rw [denom_eq] at hD; exact absurd h hD
        have hx := parallel_terms hpar (p1 - p2)
        have hden : dot (q1 - p1) (q1 - p1) * dot (q2 - p2) (q2 - p2) -
          dot (q1 - p1) (q2 - p2) * dot (q1 - p1) (q2 - p2) = 0 := by rw [denom_eq]; exact hpar
        have any : ∀ s : ℝ, 0 ≤ s → s ≤ 1 → _ := fun s hs0 hs1 =>
          segFinish_spec (c := dot (q1 - p1) (p1 - p2)) (f := dot (q2 - p2) (p1 - p2))
            (lengthSqr (p1 - p2)) ap ep hD0 (s := s) hs0 hs1 (by
              intro s' _ _
              rw [hden, hx]
              simp)
        cases multi with
        | false =>
          obtain ⟨r1, r2, r3⟩ := any 0 (le_refl _) (by norm_num)
          exact right_of_quad _ _ r1 r2 r3
        | true =>
          simp only [if_true]
          split
          · obtain ⟨r1, r2, r3⟩ := any _ (clampUnit_mem _).1 (clampUnit_mem _).2
            exact right_of_quad _ _ r1 r2 r3
          · obtain ⟨r1, r2, r3⟩ := any _ (clampUnit_mem _).1 (clampUnit_mem _).2
            exact right_of_quad _ _ r1 r2 r3

/-! ## Segments within the tolerance -/

/-- With the tolerance of single precision: two segments of length about one which cross each other at an
angle of 1/4096 are reported at a distance of about 1/8192 from each other. -/
theorem closest_segments_refuted : ¬ SegSegFull (1 / 8388608) := by
  intro h
  obtain ⟨_, _, _, _, _, h⟩ := h false ⟨0, 0, 0⟩ ⟨1, 0, 0⟩ ⟨0, -1 / 8192, 0⟩ ⟨1, 1 / 8192, 0⟩
  have h' := h (1 / 2) (1 / 2) (by norm_num) (by norm_num) (by norm_num) (by norm_num)
  clear h
  unfold closestSegSeg segFinish at h'
  simp [lengthSqr, dot] at h'
  norm_num at h'

/-! ## The second pair of parallel segments -/

/-- The full statement about the second pair: it is as close as the first one. -/
def SecondPairFull (eps : ℝ) : Prop :=
  ∀ (p1 q1 p2 q2 : V3 ℝ), cross (q1 - p1) (q2 - p2) = 0 →
    eps < lengthSqr (q1 - p1) → eps < lengthSqr (q2 - p2) → ∀ sp tp c1 c2,
    (closestSegSeg eps true p1 q1 p2 q2).second = some (sp, tp, c1, c2) →
      lengthSqr (c1 - c2) = (closestSegSeg eps true p1 q1 p2 q2).distSqr

theorem clamp_of_le {x : ℝ} (h : x ≤ 0) : clampUnit x = 0 := by
  unfold clampUnit
  by_cases h' : x < 0
  · rw [if_pos h']
  · rw [if_neg h', if_neg (by linarith)]; linarith

theorem clamp_of_ge {x : ℝ} (h : 1 ≤ x) : clampUnit x = 1 := by
  unfold clampUnit
  rw [if_neg (by linarith)]
  by_cases h' : 1 < x
  · rw [if_pos h']
  · rw [if_neg h']; linarith

theorem clamp_of_mem {x : ℝ} (h : 0 ≤ x) (h' : x ≤ 1) : clampUnit x = x := by
  unfold clampUnit
  rw [if_neg (not_lt.mpr h), if_neg (not_lt.mpr h')]

/-- The second pair of parameters on one line: the first segment is `[0, 1]`, the second one goes from `m`
to `m + k`. -/
theorem second_rel {m k : ℝ} (hk : k ≠ 0) (h : k < 0 ∨ m ≤ 1 / 2 ∨ m + k ≤ 1)
    (hne : clampUnit (min m (m + k)) ≠ clampUnit (max m (m + k))) :
    clampUnit (max m (m + k)) - k * clampUnit (max (m / k) ((1 - m) / k)) = m := by
  rcases lt_or_gt_of_ne hk with hk | hk
  · rw [min_eq_right (by linarith), max_eq_left (by linarith)] at hne
    rw [max_eq_left (by linarith : m + k ≤ m)]
    have hm : 0 < m := by
      by_contra hn
      rw [clamp_of_le (not_lt.mp hn), clamp_of_le (by linarith)] at hne
      exact hne rfl
    by_cases h1 : 1 ≤ m
    · have hmk : m + k < 1 := by
        by_contra hn
        rw [clamp_of_ge h1, clamp_of_ge (not_lt.mp hn)] at hne
        exact hne rfl
      have a1 : m / k ≤ (1 - m) / k := by
        rw [div_le_div_right_of_neg hk]; linarith
      have a2 : 0 ≤ (1 - m) / k := div_nonneg_of_nonpos (by linarith) hk.le
      have a3 : (1 - m) / k ≤ 1 := by
        rw [div_le_one_of_neg hk]; linarith
      rw [max_eq_right a1, clamp_of_ge h1, clamp_of_mem a2 a3]
      field_simp; ring
    · have h1' := not_le.mp h1
      have a1 : m / k ≤ 0 := div_nonpos_of_nonneg_of_nonpos hm.le hk.le
      have a2 : (1 - m) / k ≤ 0 := div_nonpos_of_nonneg_of_nonpos (by linarith) hk.le
      rw [clamp_of_mem hm.le h1'.le, clamp_of_le (max_le a1 a2)]
      ring
  · rw [min_eq_left (by linarith), max_eq_right (by linarith)] at hne
    rw [max_eq_right (by linarith : m ≤ m + k)]
    have hm : m < 1 := by
      by_contra hn
      rw [clamp_of_ge (not_lt.mp hn), clamp_of_ge (by linarith [not_lt.mp hn])] at hne
      exact hne rfl
    have hmk : 0 < m + k := by
      by_contra hn
      rw [clamp_of_le (by linarith [not_lt.mp hn]), clamp_of_le (not_lt.mp hn)] at hne
      exact hne rfl
    by_cases h1 : m + k ≤ 1
    · have a2 : 1 ≤ (1 - m) / k := by rw [le_div_iff₀ hk]; linarith
      rw [clamp_of_mem hmk.le h1, clamp_of_ge (le_trans a2 (le_max_right _ _))]
      ring
    · have h2 : m ≤ 1 / 2 := by
        rcases h with h | h | h
        · linarith
        · exact h
        · exact absurd h h1
      have h1' := not_le.mp h1
      have a1 : m / k ≤ (1 - m) / k := by
        rw [div_le_div_iff_of_pos_right hk]; linarith
      have a3 : (1 - m) / k ≤ 1 := by rw [div_le_one hk]; linarith
      rw [max_eq_right a1, clamp_of_ge h1'.le, clamp_of_mem (div_nonneg (by linarith) hk.le) a3]
      field_simp; ring

/-- **C68, parallel segments.** If the segments point in opposite directions, or the second one starts in
front of the middle of the first one, or does not end behind the end of the first one, the second pair also
consists of points of the segments which are as close as possible. -/
theorem second_pair_partial (eps : ℝ) (he : 0 ≤ eps) (p1 q1 p2 q2 : V3 ℝ) (k : ℝ)
    (hp : q2 - p2 = smul k (q1 - p1)) (h1 : eps < lengthSqr (q1 - p1)) (h2 : eps < lengthSqr (q2 - p2))
    (hf : k < 0 ∨ dot (q1 - p1) (p2 - p1) ≤ lengthSqr (q1 - p1) / 2 ∨
      dot (q1 - p1) (q2 - p1) ≤ lengthSqr (q1 - p1)) (sp tp : ℝ) (c1 c2 : V3 ℝ)
    (hs : (closestSegSeg eps true p1 q1 p2 q2).second = some (sp, tp, c1, c2)) :
    (0 ≤ sp ∧ sp ≤ 1) ∧ (0 ≤ tp ∧ tp ≤ 1) ∧ c1 = p1 + smul sp (q1 - p1) ∧ c2 = p2 + smul tp (q2 - p2) ∧
    ∀ s t, 0 ≤ s → s ≤ 1 → 0 ≤ t → t ≤ 1 →
      lengthSqr (c1 - c2) ≤ lengthSqr (p1 + smul s (q1 - p1) - (p2 + smul t (q2 - p2))) := by
  have a0 : ¬ dot (q1 - p1) (q1 - p1) ≤ eps := not_le.mpr h1
  have ap : 0 < dot (q1 - p1) (q1 - p1) := lt_of_le_of_lt he h1
  have e0 : ¬ dot (q2 - p2) (q2 - p2) ≤ eps := not_le.mpr h2
  have ep : 0 < dot (q2 - p2) (q2 - p2) := lt_of_le_of_lt he h2
  have hk : k ≠ 0 := by
    rintro rfl
    rw [hp, smul_zero_left] at ep
    simp [dot] at ep
  have hD : ¬ eps < dot (q1 - p1) (q1 - p1) * dot (q2 - p2) (q2 - p2) -
      dot (q1 - p1) (q2 - p2) * dot (q1 - p1) (q2 - p2) := by
    rw [hp, dot_smul_left, dot_smul_right]
    have : dot (q1 - p1) (q1 - p1) * (k * (k * dot (q1 - p1) (q1 - p1))) -
        k * dot (q1 - p1) (q1 - p1) * (k * dot (q1 - p1) (q1 - p1)) = 0 := by ring
    rw [this]
    exact not_lt.mpr he
  unfold closestSegSeg at hs
  simp only [a0, e0, and_self, if_false, hD, if_true] at hs
  have hg1 : dot (q1 - p1) (p2 - p1) = -dot (q1 - p1) (p1 - p2) := by
    simp only [dot, sub_x, sub_y, sub_z]; ring
  have hg2 : dot (q1 - p1) (q2 - p1) = -dot (q1 - p1) (p1 - p2) + k * dot (q1 - p1) (q1 - p1) := by
    have : q2 - p1 = (q2 - p2) - (p1 - p2) := by ext <;> simp
    rw [this, dot_sub_right, hp, dot_smul_right]; ring
  rw [hg1, hg2] at hf
  have hl : lengthSqr (q1 - p1) = dot (q1 - p1) (q1 - p1) := rfl
  rw [hl] at hf
  set a := dot (q1 - p1) (q1 - p1) with had
  set c := dot (q1 - p1) (p1 - p2) with hcd
  have hf1 : dot (q1 - p1) (p1 - q2) = c - k * a := by
    have : p1 - q2 = (p1 - p2) - (q2 - p2) := by ext <;> simp
    rw [this, dot_sub_right, hp, dot_smul_right]
  have hf' : dot (q2 - p2) (p1 - p2) = k * c := by rw [hp, dot_smul_left]
  have hf2 : dot (q2 - p2) (p2 - q1) = -(k * c) - k * a := by
    have : p2 - q1 = -(p1 - p2) - (q1 - p1) := by ext <;> simp
    rw [this, hp, dot_smul_left, dot_sub_right, dot_neg_right]
    ring
  have hee : dot (q2 - p2) (q2 - p2) = k * k * a := by rw [hp, dot_smul_left, dot_smul_right]; ring
  rw [hf1, hf', hf2, hee] at hs
  have e1 : -(c - k * a) * (1 / a) = -c / a + k := by field_simp; ring
  have e2 : -(-(k * c) - k * a) * (1 / (k * k * a)) = (1 - -c / a) / k := by field_simp; ring
  have e3 : -c * (1 / a) = -c / a := by ring
  have e4 : -(k * c) * (1 / (k * k * a)) = -c / a / k := by field_simp
  rw [e1, e2, e3, e4] at hs
  by_cases hgt : eps < |clampUnit (min (-c / a) (-c / a + k)) - clampUnit (max (-c / a) (-c / a + k))|
  · rw [if_pos hgt] at hs
    simp only [Option.some.injEq, Prod.mk.injEq] at hs
    obtain ⟨rfl, rfl, rfl, rfl⟩ := hs
    refine ⟨clampUnit_mem _, clampUnit_mem _, rfl, rfl, ?_⟩
    have hrel := second_rel (m := -c / a) hk (by
      rcases hf with h | h | h
      · exact .inl h
      · right; left
        rw [div_le_iff₀ ap]; linarith
      · right; right
        have : -c / a + k = (-c + k * a) / a := by field_simp
        rw [this, div_le_one ap]; exact h) (by
      intro heq
      rw [heq, sub_self, abs_zero] at hgt
      linarith)
    intro s t _ _ _ _
    have form : ∀ u v : ℝ, lengthSqr (p1 + smul u (q1 - p1) - (p2 + smul v (q2 - p2))) =
        a * (u - k * v - -c / a) ^ 2 + (lengthSqr (p1 - p2) - c * c / a) := by
      intro u v
      rw [pair_diff, line_line_dist, hp]
      simp only [dot_smul_left, dot_smul_right]
      rw [← had, ← hcd]
      field_simp
      ring
    rw [form, form, hrel]
    have := mul_nonneg ap.le (sq_nonneg (s - k * t - -c / a))
    simp only [sub_self]
    linarith
  · rw [if_neg hgt] at hs
    exact absurd hs (by simp)

/-- Two parallel segments on the same line: `[-2, 1/2]` and `[0, 1]`.  The second pair consists of the end
of the first one and the far end of the second one, half a unit apart, although the segments overlap: the
sign of one of the two parameters is wrong. -/
theorem second_pair_wrong_sign : ¬ SecondPairFull 0 := by
  intro h
  have := h ⟨-2, 0, 0⟩ ⟨1/2, 0, 0⟩ ⟨0, 0, 0⟩ ⟨1, 0, 0⟩ (by ext <;> simp) (by simp [lengthSqr, dot]; norm_num)
    (by simp [lengthSqr, dot]) 1 1 ⟨1/2, 0, 0⟩ ⟨1, 0, 0⟩
  have hc : closestSegSeg 0 true ⟨-2, 0, 0⟩ ⟨1/2, 0, 0⟩ ⟨0, 0, 0⟩ ⟨1, 0, 0⟩ =
      ⟨4/5, 0, ⟨0, 0, 0⟩, ⟨0, 0, 0⟩, 0, some 2, some (1, 1, ⟨1/2, 0, 0⟩, ⟨1, 0, 0⟩)⟩ := by
    unfold closestSegSeg segFinish clampUnit
    simp [lengthSqr, dot]
    norm_num
    refine ⟨?_, ?_, ?_, ?_⟩ <;> (ext <;> simp) <;> norm_num
  rw [hc] at this
  have := this rfl
  simp [lengthSqr, dot] at this
  norm_num at this

end Edyn.Geom
