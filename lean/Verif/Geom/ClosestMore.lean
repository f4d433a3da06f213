import Verif.Geom.ClosestSeg
import Mathlib.Tactic.Positivity

/-!
# Closest points (C68): discs and boxes, degenerate segments
-/

namespace Edyn.Geom

open Edyn.Math V3

/-! ## Discs -/

/-- **C68, discs.** The returned point belongs to the disc, the returned value is its squared distance and
no point of the disc is closer. -/
theorem closest_disc_spec (dpos : V3 ℝ) (dorn : Quat ℝ) (hq : dorn.lengthSqr = 1) (r : ℝ) (hr : 0 < r)
    (axis : Axis) (p : V3 ℝ) :
    ∃ d q, closestDisc dpos dorn r axis p = some (d, q) ∧ discSet dpos (Quat.rotate dorn axis.vec) r q ∧
      d = lengthSqr (p - q) ∧
      ∀ x, discSet dpos (Quat.rotate dorn axis.vec) r x → d ≤ lengthSqr (p - x) := by
  have hn : lengthSqr (Quat.rotate dorn axis.vec) = 1 := rotate_unit hq axis.vec_unit
  unfold closestDisc
  generalize Quat.rotate dorn axis.vec = n at hn ⊢
  simp only
  set ln := dot (p - dpos) n with hln
  have hn' : dot n n = 1 := hn
  set d := p - smul ln n - dpos with hd
  have hdn : dot d n = 0 := by
    have : d = (p - dpos) - smul ln n := by rw [hd]; ext <;> simp <;> ring
    rw [this, dot_sub_left, dot_smul_left, hn', hln]; ring
  have hp : ∀ y, p - (dpos + y) = smul ln n + (d - y) := by
    intro y; rw [hd]; ext <;> simp <;> ring
  have split : ∀ y, dot y n = 0 → lengthSqr (p - (dpos + y)) = ln * ln + lengthSqr (d - y) := by
    intro y hy
    have h0 : dot n (d - y) = 0 := by rw [dot_comm, dot_sub_left, hdn, hy]; ring
    rw [hp]
    unfold lengthSqr
    rw [dot_add_left, dot_add_right, dot_add_right, dot_smul_left, dot_smul_right, dot_smul_left,
      dot_smul_right, dot_comm (d - y) n, h0, hn']
    ring
  have toX : ∀ x, x = dpos + (x - dpos) := by intro x; ext <;> simp
  by_cases hin : lengthSqr d < r * r
  · rw [if_pos hin]
    have hproj : p - smul ln n = dpos + d := by rw [hd]; ext <;> simp
    have hdd : lengthSqr (d - d) = 0 := by simp [lengthSqr, dot]
    refine ⟨_, _, rfl, ⟨?_, ?_⟩, ?_, ?_⟩
    · exact hdn
    · exact hin.le
    · rw [hproj, split d hdn, hdd]; ring
    · rintro x ⟨hx, _⟩
      rw [toX x, split _ hx]
      linarith [lengthSqr_nonneg (d - (x - dpos))]
  · rw [if_neg hin]
    have hin' := not_lt.mp hin
    have hl2 : 0 < lengthSqr d := lt_of_lt_of_le (mul_pos hr hr) hin'
    set l := Real.sqrt (lengthSqr d) with hl
    have hlp : 0 < l := Real.sqrt_pos.mpr hl2
    have hll : l * l = lengthSqr d := Real.mul_self_sqrt hl2.le
    have hrl : r ≤ l := by
      by_contra hc
      have := not_le.mp hc
      nlinarith
    rw [if_neg hlp.ne']
    have hyn : dot (smul r (smul (1 / l) d)) n = 0 := by rw [dot_smul_left, dot_smul_left, hdn]; ring
    have hdl : lengthSqr (d - smul r (smul (1 / l) d)) = (l - r) * (l - r) := by
      have : lengthSqr (d - smul r (smul (1 / l) d)) = (1 - r / l) * (1 - r / l) * lengthSqr d := by
        simp only [lengthSqr, dot, sub_x, sub_y, sub_z, smul_x, smul_y, smul_z]; ring
      rw [this, ← hll]; field_simp
    refine ⟨_, _, rfl, ⟨?_, ?_⟩, rfl, ?_⟩
    · have : dpos + smul r (smul (1 / l) d) - dpos = smul r (smul (1 / l) d) := by ext <;> simp
      rw [this]; exact hyn
    · have : lengthSqr (dpos + smul r (smul (1 / l) d) - dpos) = (r / l) * (r / l) * lengthSqr d := by
        simp only [lengthSqr, dot, sub_x, sub_y, sub_z, add_x, add_y, add_z, smul_x, smul_y, smul_z]; ring
      rw [this, ← hll]
      apply le_of_eq
      field_simp
    · rintro x ⟨hx, hxr⟩
      rw [split _ hyn, hdl, toX x, split _ hx]
      have hcs := dot_sq_le d (x - dpos)
      have hle : dot d (x - dpos) ≤ l * r := by
        have h1 : dot d (x - dpos) * dot d (x - dpos) ≤ (l * r) * (l * r) := by
          calc _ ≤ lengthSqr d * lengthSqr (x - dpos) := hcs
            _ ≤ lengthSqr d * (r * r) := mul_le_mul_of_nonneg_left hxr hl2.le
            _ = (l * r) * (l * r) := by rw [← hll]; ring
        exact abs_le_of_sq_le_sq' (by nlinarith) (by positivity) |>.2
      have hsq : (dot d (x - dpos)) * (dot d (x - dpos)) ≤ lengthSqr d * lengthSqr (x - dpos) := hcs
      have hexp : lengthSqr (d - (x - dpos)) =
          lengthSqr d - 2 * dot d (x - dpos) + lengthSqr (x - dpos) := by
        simp only [lengthSqr, dot, sub_x, sub_y, sub_z]; ring
      -- with `m` the length of the other point, `(l - m)² ≥ (l - r)²`
      set m := Real.sqrt (lengthSqr (x - dpos)) with hm
      have hm0 : 0 ≤ m := Real.sqrt_nonneg _
      have hmm : m * m = lengthSqr (x - dpos) := Real.mul_self_sqrt (lengthSqr_nonneg _)
      have hmr : m ≤ r := by
        by_contra hc
        have := not_le.mp hc
        nlinarith
      have hdm : dot d (x - dpos) ≤ l * m := by
        have h1 : dot d (x - dpos) * dot d (x - dpos) ≤ (l * m) * (l * m) := by
          calc _ ≤ lengthSqr d * lengthSqr (x - dpos) := hcs
            _ = (l * m) * (l * m) := by rw [← hll, ← hmm]; ring
        exact abs_le_of_sq_le_sq' (by nlinarith) (by positivity) |>.2
      rw [hexp, ← hll, ← hmm]
      nlinarith [mul_nonneg (sub_nonneg.mpr hmr) (sub_nonneg.mpr hrl), mul_nonneg (sub_nonneg.mpr hmr) hm0]

/-- A point above the rim of a disc. -/
example : ∃ d q, closestDisc 0 ⟨0, 0, 0, 1⟩ 1 .x ⟨1, 3, 4⟩ = some (d, q) ∧ d = 17 := by
  refine ⟨17, ⟨0, 3/5, 4/5⟩, ?_, rfl⟩
  have h5 : Real.sqrt 25 = 5 := by
    rw [show (25 : ℝ) = 5 * 5 by norm_num]; exact Real.sqrt_mul_self (by norm_num)
  unfold closestDisc
  simp [Axis.vec, Quat.rotate, lengthSqr, dot, ex]
  norm_num
  simp [h5]
  norm_num
  ext <;> simp [cross] <;> norm_num

/-! ## Boxes -/

theorem clamp_coord {h x : ℝ} (hh : 0 ≤ h) : |max (-h) (min h x)| ≤ h := by
  rw [abs_le]
  exact ⟨le_max_left _ _, max_le (by linarith) (min_le_left _ _)⟩

theorem clamp_coord_closest {h x y : ℝ} (hy : |y| ≤ h) :
    (x - max (-h) (min h x)) * (x - max (-h) (min h x)) ≤ (x - y) * (x - y) := by
  obtain ⟨h1, h2⟩ := abs_le.mp hy
  rcases le_total h x with hx | hx
  · rw [min_eq_left hx, max_eq_right (by linarith)]; nlinarith
  · rw [min_eq_right hx]
    rcases le_total (-h) x with hx' | hx'
    · rw [max_eq_right hx']; nlinarith [mul_self_nonneg (x - y)]
    · rw [max_eq_left hx']; nlinarith

/-- **C68, boxes, points outside (and inside).** The returned point belongs to the box and no other point of
the box is closer; a point of the box is its own answer. -/
theorem closest_box_outside_spec (h : V3 ℝ) (hx : 0 ≤ h.x) (hy : 0 ≤ h.y) (hz : 0 ≤ h.z) (p : V3 ℝ) :
    boxSet h (closestBoxOutside h p) ∧
    (∀ y, boxSet h y → lengthSqr (p - closestBoxOutside h p) ≤ lengthSqr (p - y)) ∧
    (boxSet h p → closestBoxOutside h p = p) := by
  refine ⟨⟨clamp_coord hx, clamp_coord hy, clamp_coord hz⟩, ?_, ?_⟩
  · rintro y ⟨h1, h2, h3⟩
    have e1 := clamp_coord_closest (x := p.x) h1
    have e2 := clamp_coord_closest (x := p.y) h2
    have e3 := clamp_coord_closest (x := p.z) h3
    simp only [lengthSqr, dot, sub_x, sub_y, sub_z, closestBoxOutside]
    linarith
  · rintro ⟨h1, h2, h3⟩
    rw [abs_le] at h1 h2 h3
    unfold closestBoxOutside
    ext <;> simp only
    · rw [min_eq_right h1.2, max_eq_right h1.1]
    · rw [min_eq_right h2.2, max_eq_right h2.1]
    · rw [min_eq_right h3.2, max_eq_right h3.1]

example : closestBoxOutside ⟨1, 2, 3⟩ ⟨5, -7, 1⟩ = ⟨1, -2, 1⟩ := by
  ext <;> simp [closestBoxOutside] <;> norm_num

/-- What is promised of the answer for a point inside of a box: the point `c` of the surface is as close as
possible, `n` is the outward unit normal of a face through `c` and leads from `p` to `c`. -/
def NearestFace (h p c n : V3 ℝ) : Prop :=
  boxSurface h c ∧ (∀ y, boxSurface h y → lengthSqr (p - c) ≤ lengthSqr (p - y)) ∧
  lengthSqr n = 1 ∧ (∃ s, 0 ≤ s ∧ c = p + smul s n) ∧ ∀ y, boxSet h y → dot y n ≤ dot c n

/-- The full statement: moreover the returned distance is the distance of the returned point. -/
def BoxInsideFull : Prop :=
  ∀ (h p : V3 ℝ), boxSet h p → ∃ d c n, closestBoxInside h p = some (d, c, n) ∧ NearestFace h p c n ∧
    0 ≤ d ∧ d * d = lengthSqr (p - c)

/-- The six candidates of `closest_point_box_inside`. -/
def Cand (h p : V3 ℝ) (d : ℝ) (c n : V3 ℝ) : Prop :=
  (d = h.x - p.x ∧ c = ⟨h.x, p.y, p.z⟩ ∧ n = ⟨1, 0, 0⟩) ∨
  (d = h.x + p.x ∧ c = ⟨-h.x, p.y, p.z⟩ ∧ n = ⟨-1, 0, 0⟩) ∨
  (d = h.y - p.y ∧ c = ⟨p.x, h.y, p.z⟩ ∧ n = ⟨0, 1, 0⟩) ∨
  (d = h.y + p.y ∧ c = ⟨p.x, -h.y, p.z⟩ ∧ n = ⟨0, -1, 0⟩) ∨
  (d = h.z - p.z ∧ c = ⟨p.x, p.y, h.z⟩ ∧ n = ⟨0, 0, 1⟩) ∨
  (d = h.z + p.z ∧ c = ⟨p.x, p.y, -h.z⟩ ∧ n = ⟨0, 0, -1⟩)

theorem insideStep_cand {h p : V3 ℝ} {dist : ℝ} {c n : V3 ℝ} {m : ℝ × V3 ℝ × V3 ℝ}
    (hc : Cand h p dist c n) (hm : Cand h p m.1 m.2.1 m.2.2) :
    Cand h p (insideStep dist c n m).1 (insideStep dist c n m).2.1 (insideStep dist c n m).2.2 ∧
      (insideStep dist c n m).1 ≤ dist ∧ (insideStep dist c n m).1 ≤ m.1 := by
  unfold insideStep
  by_cases hlt : dist < m.1
  · rw [if_pos hlt]; exact ⟨hc, le_rfl, hlt.le⟩
  · rw [if_neg hlt]; exact ⟨hm, not_lt.mp hlt, le_rfl⟩

theorem cand_nearest {h p : V3 ℝ} (hp : boxSet h p) {d : ℝ} {c n : V3 ℝ} (hc : Cand h p d c n)
    (h1 : d ≤ h.x - p.x) (h2 : d ≤ h.x + p.x) (h3 : d ≤ h.y - p.y) (h4 : d ≤ h.y + p.y)
    (h5 : d ≤ h.z - p.z) (h6 : d ≤ h.z + p.z) :
    0 ≤ d ∧ d * d = lengthSqr (p - c) ∧ NearestFace h p c n := by
  obtain ⟨b1, b2, b3⟩ := hp
  obtain ⟨b1l, b1r⟩ := abs_le.mp b1
  obtain ⟨b2l, b2r⟩ := abs_le.mp b2
  obtain ⟨b3l, b3r⟩ := abs_le.mp b3
  have hd : 0 ≤ d := by
    rcases hc with ⟨e, _⟩ | ⟨e, _⟩ | ⟨e, _⟩ | ⟨e, _⟩ | ⟨e, _⟩ | ⟨e, _⟩ <;> rw [e] <;> linarith
  have hdd : d * d = lengthSqr (p - c) := by
    rcases hc with ⟨e, rfl, _⟩ | ⟨e, rfl, _⟩ | ⟨e, rfl, _⟩ | ⟨e, rfl, _⟩ | ⟨e, rfl, _⟩ | ⟨e, rfl, _⟩ <;>
      rw [e] <;> simp only [lengthSqr, dot, sub_x, sub_y, sub_z] <;> ring
  have hx0 : 0 ≤ h.x := le_trans (abs_nonneg _) b1
  have hy0 : 0 ≤ h.y := le_trans (abs_nonneg _) b2
  have hz0 : 0 ≤ h.z := le_trans (abs_nonneg _) b3
  refine ⟨hd, hdd, ?_, ?_, ?_, ⟨d, hd, ?_⟩, ?_⟩
  · rcases hc with ⟨_, rfl, _⟩ | ⟨_, rfl, _⟩ | ⟨_, rfl, _⟩ | ⟨_, rfl, _⟩ | ⟨_, rfl, _⟩ | ⟨_, rfl, _⟩ <;>
      simp [boxSurface, boxSet, abs_neg, abs_of_nonneg hx0, abs_of_nonneg hy0, abs_of_nonneg hz0, b1, b2, b3]
  · rintro y ⟨⟨y1, y2, y3⟩, hy⟩
    rw [← hdd]
    have key : ∀ {u v w : ℝ}, |v| = w → d ≤ w - u → d ≤ w + u → d * d ≤ (u - v) * (u - v) := by
      intro u v w hv g1 g2
      rcases abs_choice v with ha | ha
      · have : v = w := by rw [← hv, ha]
        nlinarith
      · have : v = -w := by rw [← hv, ha]; ring
        nlinarith
    simp only [lengthSqr, dot, sub_x, sub_y, sub_z]
    have q1 := mul_self_nonneg (p.x - y.x)
    have q2 := mul_self_nonneg (p.y - y.y)
    have q3 := mul_self_nonneg (p.z - y.z)
    rcases hy with hy | hy | hy
    · linarith [key hy h1 h2]
    · linarith [key hy h3 h4]
    · linarith [key hy h5 h6]
  · rcases hc with ⟨_, _, rfl⟩ | ⟨_, _, rfl⟩ | ⟨_, _, rfl⟩ | ⟨_, _, rfl⟩ | ⟨_, _, rfl⟩ | ⟨_, _, rfl⟩ <;>
      simp [lengthSqr, dot]
  · rcases hc with ⟨e, rfl, rfl⟩ | ⟨e, rfl, rfl⟩ | ⟨e, rfl, rfl⟩ | ⟨e, rfl, rfl⟩ | ⟨e, rfl, rfl⟩ |
      ⟨e, rfl, rfl⟩ <;> rw [e] <;> ext <;> simp
  · rintro y ⟨y1, y2, y3⟩
    obtain ⟨_, _⟩ := abs_le.mp y1
    obtain ⟨_, _⟩ := abs_le.mp y2
    obtain ⟨_, _⟩ := abs_le.mp y3
    rcases hc with ⟨e, rfl, rfl⟩ | ⟨e, rfl, rfl⟩ | ⟨e, rfl, rfl⟩ | ⟨e, rfl, rfl⟩ | ⟨e, rfl, rfl⟩ |
      ⟨e, rfl, rfl⟩ <;> simp [dot] <;> linarith

/-- **C68, boxes, points inside.** The point and the normal are right; the returned number is the distance
to the face of negative `z`, whichever face is nearest.  Missing: it should be the distance to the returned
point (`BoxInsideFull`, refuted by `box_inside_distance_wrong`). -/
theorem closest_box_inside_partial (h p : V3 ℝ) (hp : boxSet h p) :
    ∃ c n, closestBoxInside h p = some (h.z + p.z, c, n) ∧ NearestFace h p c n := by
  have hp' := hp
  obtain ⟨b1, b2, b3⟩ := hp
  obtain ⟨b1l, b1r⟩ := abs_le.mp b1
  obtain ⟨b2l, b2r⟩ := abs_le.mp b2
  obtain ⟨b3l, b3r⟩ := abs_le.mp b3
  unfold closestBoxInside
  rw [if_pos ⟨⟨b1l, b2l, b3l⟩, b1r, b2r, b3r⟩]
  simp only
  set m0 : ℝ × V3 ℝ × V3 ℝ := (h.x - p.x, ⟨h.x, p.y, p.z⟩, ⟨1, 0, 0⟩) with hm0
  have k0 : Cand h p m0.1 m0.2.1 m0.2.2 := .inl ⟨rfl, rfl, rfl⟩
  obtain ⟨k1, l1, l1'⟩ := insideStep_cand (dist := h.x + p.x) (c := ⟨-h.x, p.y, p.z⟩)
    (n := ⟨-1, 0, 0⟩) (by unfold Cand; simp) k0
  set m1 := insideStep (h.x + p.x) ⟨-h.x, p.y, p.z⟩ ⟨-1, 0, 0⟩ m0
  obtain ⟨k2, l2, l2'⟩ := insideStep_cand (dist := h.y - p.y) (c := ⟨p.x, h.y, p.z⟩)
    (n := ⟨0, 1, 0⟩) (by unfold Cand; simp) k1
  set m2 := insideStep (h.y - p.y) ⟨p.x, h.y, p.z⟩ ⟨0, 1, 0⟩ m1
  obtain ⟨k3, l3, l3'⟩ := insideStep_cand (dist := h.y + p.y) (c := ⟨p.x, -h.y, p.z⟩)
    (n := ⟨0, -1, 0⟩) (by unfold Cand; simp) k2
  set m3 := insideStep (h.y + p.y) ⟨p.x, -h.y, p.z⟩ ⟨0, -1, 0⟩ m2
  obtain ⟨k4, l4, l4'⟩ := insideStep_cand (dist := h.z - p.z) (c := ⟨p.x, p.y, h.z⟩)
    (n := ⟨0, 0, 1⟩) (by unfold Cand; simp) k3
  set m4 := insideStep (h.z - p.z) ⟨p.x, p.y, h.z⟩ ⟨0, 0, 1⟩ m3
  obtain ⟨k5, l5, l5'⟩ := insideStep_cand (dist := h.z + p.z) (c := ⟨p.x, p.y, -h.z⟩)
    (n := ⟨0, 0, -1⟩) (by unfold Cand; simp) k4
  set m5 := insideStep (h.z + p.z) ⟨p.x, p.y, -h.z⟩ ⟨0, 0, -1⟩ m4
  have e0 : m0.1 = h.x - p.x := rfl
  exact ⟨m5.2.1, m5.2.2, rfl, (cand_nearest hp' k5 (by linarith) (by linarith) (by linarith) (by linarith)
    (by linarith) (by linarith)).2.2⟩

/-- A point outside of the box is not accepted. -/
theorem closest_box_inside_none (h p : V3 ℝ) (hp : ¬ boxSet h p) : closestBoxInside h p = none := by
  unfold closestBoxInside
  rw [if_neg]
  rintro ⟨⟨h1, h2, h3⟩, h4, h5, h6⟩
  exact hp ⟨abs_le.mpr ⟨h1, h4⟩, abs_le.mpr ⟨h2, h5⟩, abs_le.mpr ⟨h3, h6⟩⟩

/-- A point just below the top of a cube with half extent 1: the nearest point is at distance 1/10 and the
function returns 1. -/
theorem box_inside_distance_wrong : ¬ BoxInsideFull := by
  intro hf
  obtain ⟨d, c, n, he, _, _, hd⟩ := hf ⟨1, 1, 1⟩ ⟨0, 9/10, 0⟩ (by simp [boxSet]; norm_num [abs_le])
  have : closestBoxInside ⟨1, 1, 1⟩ ⟨0, 9/10, 0⟩ = some (1, ⟨0, 1, 0⟩, ⟨0, 1, 0⟩) := by
    unfold closestBoxInside insideStep
    norm_num
  rw [this] at he
  simp only [Option.some.injEq, Prod.mk.injEq] at he
  obtain ⟨rfl, rfl, rfl⟩ := he
  simp [lengthSqr, dot] at hd
  norm_num at hd

/-! ## Degenerate segments -/

/-- If one of the segments is shorter than the tolerance, the number of closest points, which the caller
reads, is never written. -/
theorem degenerate_count_unwritten (eps : ℝ) (multi : Bool) (p1 q1 p2 q2 : V3 ℝ)
    (h : lengthSqr (q1 - p1) ≤ eps ∨ lengthSqr (q2 - p2) ≤ eps) :
    (closestSegSeg eps multi p1 q1 p2 q2).num = none := by
  unfold closestSegSeg
  simp only
  by_cases h1 : dot (q1 - p1) (q1 - p1) ≤ eps <;> by_cases h2 : dot (q2 - p2) (q2 - p2) ≤ eps
  · rw [if_pos ⟨h1, h2⟩]
  · rw [if_neg (by tauto), if_pos h1]
  · rw [if_neg (by tauto), if_neg h1, if_pos h2]
  · exact absurd h (by rintro (h | h); exacts [h1 h, h2 h])

/-! ## The hypotheses are met -/

/-- Skew segments, whose nearest points are inner ones. -/
example : 1 / 8388608 < lengthSqr (cross ((⟨1, 0, 0⟩ : V3 ℝ) - ⟨-1, 0, 0⟩) (⟨0, 1, 1⟩ - ⟨0, -1, 1⟩)) ∧
    (closestSegSeg (1 / 8388608) true ⟨-1, 0, 0⟩ ⟨1, 0, 0⟩ ⟨0, -1, 1⟩ ⟨0, 1, 1⟩).s = 1 / 2 := by
  constructor
  · simp [lengthSqr, dot]; norm_num
  · unfold closestSegSeg segFinish clampUnit
    simp [dot]
    norm_num

/-- Parallel segments with a second pair: `[0, 2]` and `[1, 3]` at distance one. -/
example : ∃ sp tp c1 c2,
    (closestSegSeg (1 / 8388608) true ⟨0, 0, 0⟩ ⟨2, 0, 0⟩ ⟨1, 1, 0⟩ ⟨3, 1, 0⟩).second = some (sp, tp, c1, c2) ∧
    dot ((⟨2, 0, 0⟩ : V3 ℝ) - ⟨0, 0, 0⟩) (⟨1, 1, 0⟩ - ⟨0, 0, 0⟩) ≤
      lengthSqr ((⟨2, 0, 0⟩ : V3 ℝ) - ⟨0, 0, 0⟩) / 2 := by
  refine ⟨1, 1 / 2, ⟨2, 0, 0⟩, ⟨2, 1, 0⟩, ?_, ?_⟩
  · unfold closestSegSeg clampUnit
    simp [dot]
    norm_num
    constructor <;> (ext <;> simp) <;> norm_num
  · simp [dot, lengthSqr]

/-- Antiparallel segments: `[0, 2]` and `[3, 1]`. -/
example : ∃ sp tp c1 c2,
    (closestSegSeg (1 / 8388608) true ⟨0, 0, 0⟩ ⟨2, 0, 0⟩ ⟨3, 1, 0⟩ ⟨1, 1, 0⟩).second = some (sp, tp, c1, c2) ∧
    (⟨1, 1, 0⟩ : V3 ℝ) - ⟨3, 1, 0⟩ = smul (-1) (⟨2, 0, 0⟩ - ⟨0, 0, 0⟩) := by
  refine ⟨1, 1 / 2, ⟨2, 0, 0⟩, ⟨2, 1, 0⟩, ?_, ?_⟩
  · unfold closestSegSeg clampUnit
    simp [dot]
    norm_num
    constructor <;> (ext <;> simp) <;> norm_num
  · ext <;> simp; norm_num

/-- A point in the middle of a flat box. -/
example : boxSet ⟨1, 2, 3⟩ ⟨0, -1, 1⟩ := by refine ⟨?_, ?_, ?_⟩ <;> norm_num [abs_le]

end Edyn.Geom
