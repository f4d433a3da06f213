import Verif.Collide.BoxAxis

/-!
# Boxes whose edges are almost parallel (C87)

The axis across two edges is skipped when they are parallel up to `EDYN_EPSILON`.  Long boxes that are turned
against each other by less than that are reported as penetrating although they are apart.
-/

namespace Edyn.Collide

open Edyn.Math hiding lengthSqr_nonneg
open V3 Edyn.Geom

/-- No candidate is positive if none of the axes tried tells the boxes apart. -/
theorem axis_nonpos {eps : ℝ} (he : 0 ≤ eps) {hA hB : V3 ℝ} {c : Ctx} (hc : c.Ok)
    (h1 : ∀ e ∈ [ex, ey, ez], gap hA hB c (Quat.rotate c.ornA e) ≤ 0)
    (h2 : ∀ e ∈ [ex, ey, ez], gap hA hB c (Quat.rotate c.ornB e) ≤ 0)
    (h3 : ∀ e ∈ [ex, ey, ez], ∀ f ∈ [ex, ey, ez],
      lengthSqr (cross (Quat.rotate c.ornA e) (Quat.rotate c.ornB f)) ≤ eps ∨
      gap hA hB c (cross (Quat.rotate c.ornA e) (Quat.rotate c.ornB f)) ≤ 0)
    {x : ℝ} {n : V3 ℝ} (hx : boxBoxAxis eps hA hB c = some (x, n)) : x ≤ 0 := by
  obtain ⟨x', n', e1, hm, -, -⟩ := axis_found he hA hB hc
  rw [hx] at e1
  obtain ⟨rfl, rfl⟩ := Prod.mk.inj (Option.some.inj e1)
  have isA : ∀ a ∈ boxAxes hA c.ornA, ∃ e ∈ [ex, ey, ez], a.1 = Quat.rotate c.ornA e := by
    intro a ha
    simp only [boxAxes, List.mem_cons, List.not_mem_nil, or_false] at ha
    rcases ha with rfl | rfl | rfl
    · exact ⟨ex, by simp, rfl⟩
    · exact ⟨ey, by simp, rfl⟩
    · exact ⟨ez, by simp, rfl⟩
  have isB : ∀ a ∈ boxAxes hB c.ornB, ∃ e ∈ [ex, ey, ez], a.1 = Quat.rotate c.ornB e := by
    intro a ha
    simp only [boxAxes, List.mem_cons, List.not_mem_nil, or_false] at ha
    rcases ha with rfl | rfl | rfl
    · exact ⟨ex, by simp, rfl⟩
    · exact ⟨ey, by simp, rfl⟩
    · exact ⟨ez, by simp, rfl⟩
  unfold boxBoxCands at hm
  rcases List.mem_append.1 hm with h | h
  · rcases List.mem_append.1 h with h | h
    · obtain ⟨a, ha, e⟩ := List.mem_map.1 h
      have := (candFaceA_found hA hB hc ha).2
      obtain ⟨e', he', ea⟩ := isA a ha
      rw [e, ea] at this
      show x ≤ 0
      have h0 := h1 e' he'
      simp only at this
      linarith
    · obtain ⟨a, ha, e⟩ := List.mem_map.1 h
      have := (candFaceB_found hA hB hc ha).2
      obtain ⟨e', he', ea⟩ := isB a ha
      rw [e, ea] at this
      have h0 := h2 e' he'
      simp only at this
      linarith
  · obtain ⟨a, ha, h⟩ := List.mem_flatMap.1 h
    obtain ⟨b, hb, h⟩ := List.mem_flatMap.1 h
    obtain ⟨e', he', ea⟩ := isA a ha
    obtain ⟨f', hf', eb⟩ := isB b hb
    by_cases hl : eps < lengthSqr (cross a.1 b.1)
    · obtain ⟨y, hy, ey⟩ := (candEdge_found he hA hB c a b).2 hl
      have hxy : (x, n) = y := by
        unfold candEdge at h hy
        simp only [if_pos hl, List.mem_singleton] at h hy
        rw [h, hy]
      rw [← hxy] at ey
      simp only at ey
      rcases h3 e' he' f' hf' with h0 | h0
      · rw [← ea, ← eb] at h0; linarith
      · rw [← ea, ← eb] at h0
        rw [ey]
        exact mul_nonpos_of_nonneg_of_nonpos (by positivity) h0
    · unfold candEdge at h
      simp [if_neg hl] at h

/-- Two bars of 2 m by 2 m by 200 m, 1 mm apart, turned against each other by 0.0002 radians. -/
noncomputable def barsCtx : Ctx :=
  ⟨⟨2481 / 1000, 34 / 25, 0⟩, ⟨0, 0, 3 / 5, 4 / 5⟩, 0,
   ⟨32000 / 400000001, -24000 / 400000001, 1199999997 / 2000000005, 1599999996 / 2000000005⟩, 1 / 100⟩

noncomputable def bar : V3 ℝ := ⟨1, 1, 100⟩

theorem bars_ok : barsCtx.Ok := by
  refine ⟨?_, ?_, ?_⟩ <;> norm_num [barsCtx, Quat.lengthSqr]

theorem bars_A : Quat.rotate barsCtx.ornA ex = ⟨7 / 25, 24 / 25, 0⟩ ∧ Quat.rotate barsCtx.ornA ey = ⟨-24 / 25, 7 / 25, 0⟩ ∧
    Quat.rotate barsCtx.ornA ez = ⟨0, 0, 1⟩ := by
  refine ⟨?_, ?_, ?_⟩ <;> ext <;> norm_num [barsCtx, Quat.rotate, ex, ey, ez, cross, dot, smul]

theorem bars_B : Quat.rotate barsCtx.ornB ex =
      ⟨7 / 25, 3839999942400000024 / 4000000020000000025, 30719999923200 / 160000000800000001⟩ ∧
    Quat.rotate barsCtx.ornB ey =
      ⟨-24 / 25, 1119999983200000007 / 4000000020000000025, 8959999977600 / 160000000800000001⟩ ∧
    Quat.rotate barsCtx.ornB ez =
      ⟨0, -31999999920000 / 160000000800000001, 159999997600000001 / 160000000800000001⟩ := by
  refine ⟨?_, ?_, ?_⟩ <;> ext <;> norm_num [barsCtx, Quat.rotate, ex, ey, ez, cross, dot, smul]

theorem bars_gap (u : V3 ℝ) : gap bar bar barsCtx u =
    |2481 / 1000 * u.x + 34 / 25 * u.y|
    - (|7 / 25 * u.x + 24 / 25 * u.y| + |-24 / 25 * u.x + 7 / 25 * u.y| + 100 * |u.z|)
    - (|7 / 25 * u.x + 3839999942400000024 / 4000000020000000025 * u.y + 30719999923200 / 160000000800000001 * u.z|
      + |-24 / 25 * u.x + 1119999983200000007 / 4000000020000000025 * u.y + 8959999977600 / 160000000800000001 * u.z|
      + 100 * |-31999999920000 / 160000000800000001 * u.y + 159999997600000001 / 160000000800000001 * u.z|) := by
  unfold gap
  rw [ext1_eq bars_ok.1, ext1_eq bars_ok.2.1, bars_A.1, bars_A.2.1, bars_A.2.2, bars_B.1, bars_B.2.1, bars_B.2.2]
  simp only [dot, bar, barsCtx, V3.sub_x, V3.sub_y, V3.sub_z, V3.zero_x, V3.zero_y, V3.zero_z]
  norm_num

/-- The bars do not meet. -/
theorem bars_apart : ¬ Meet (barsCtx.boxA bar) (barsCtx.boxB bar) := by
  rintro ⟨w, ha, hb⟩
  have hp : PosExt bar := by norm_num [PosExt, bar]
  have h := (gap_along hp hp bars_ok (n := ⟨1, 0, 0⟩) (by norm_num [barsCtx, dot])).1 w w ha hb
  rw [bars_gap] at h
  have e : dot (w - w) (⟨1, 0, 0⟩ : V3 ℝ) = 0 := by simp [dot]
  rw [e] at h
  norm_num [abs_of_pos, abs_of_neg] at h

/-- **C87, refuted without the condition on the edges**, for the value of `EDYN_EPSILON` in single precision and
any greater one: the bars are reported as penetrating although they are 1 mm apart. -/
theorem near_parallel_reported (eps : ℝ) (he : 1 / 25000000 ≤ eps) : ¬ BoxOverlapFull eps := by
  intro h
  have he0 : 0 ≤ eps := by linarith
  have hp : PosExt bar := by norm_num [PosExt, bar]
  obtain ⟨x, n, hx, -⟩ := axis_found he0 bar bar bars_ok
  refine bars_apart ((h bar bar barsCtx x n hp hp bars_ok hx).1 ?_)
  obtain ⟨a1, a2, a3⟩ := bars_A
  obtain ⟨b1, b2, b3⟩ := bars_B
  refine axis_nonpos he0 bars_ok ?_ ?_ ?_ hx
  · intro e he
    simp only [List.mem_cons, List.not_mem_nil, or_false] at he
    rcases he with rfl | rfl | rfl
    · rw [a1, bars_gap]; norm_num [abs_of_pos, abs_of_neg]
    · rw [a2, bars_gap]; norm_num [abs_of_pos, abs_of_neg]
    · rw [a3, bars_gap]; norm_num [abs_of_pos, abs_of_neg]
  · intro e he
    simp only [List.mem_cons, List.not_mem_nil, or_false] at he
    rcases he with rfl | rfl | rfl
    · rw [b1, bars_gap]; norm_num [abs_of_pos, abs_of_neg]
    · rw [b2, bars_gap]; norm_num [abs_of_pos, abs_of_neg]
    · rw [b3, bars_gap]; norm_num [abs_of_pos, abs_of_neg]
  · intro e he f hf
    simp only [List.mem_cons, List.not_mem_nil, or_false] at he hf
    rcases he with rfl | rfl | rfl <;> rcases hf with rfl | rfl | rfl
    · right; rw [a1, b1, bars_gap]; norm_num [abs_of_pos, abs_of_neg, cross]
    · right; rw [a1, b2, bars_gap]; norm_num [abs_of_pos, abs_of_neg, cross]
    · right; rw [a1, b3, bars_gap]; norm_num [abs_of_pos, abs_of_neg, cross]
    · right; rw [a2, b1, bars_gap]; norm_num [abs_of_pos, abs_of_neg, cross]
    · right; rw [a2, b2, bars_gap]; norm_num [abs_of_pos, abs_of_neg, cross]
    · right; rw [a2, b3, bars_gap]; norm_num [abs_of_pos, abs_of_neg, cross]
    · right; rw [a3, b1, bars_gap]; norm_num [abs_of_pos, abs_of_neg, cross]
    · right; rw [a3, b2, bars_gap]; norm_num [abs_of_pos, abs_of_neg, cross]
    · left
      refine le_trans ?_ he
      rw [a3, b3]; norm_num [cross, lengthSqr, dot]

end Edyn.Collide
