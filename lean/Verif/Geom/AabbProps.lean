import Verif.Geom.Aabb
import Mathlib.Tactic.NormNum
import Mathlib.Tactic.FieldSimp

/-!
# Bounding boxes enclose their shapes (C67)
-/

namespace Edyn.Geom

open Edyn.Math V3

/-! ## A shape which is symmetric about its centre -/

/-- The box of a centrally symmetric shape is determined by its extent along the three world axes. -/
theorem symmetric_box (S : Shape) (hs : ∀ p, S p → S (-p)) (pos : V3 ℝ) (orn : Quat ℝ)
    (hq : orn.lengthSqr = 1) (m : V3 ℝ)
    (hx : ∀ p, S p → dot p (Quat.rotate orn.conjugate ex) ≤ m.x)
    (hy : ∀ p, S p → dot p (Quat.rotate orn.conjugate ey) ≤ m.y)
    (hz : ∀ p, S p → dot p (Quat.rotate orn.conjugate ez) ≤ m.z) :
    (AABB.mk (pos - m) (pos + m)).Encloses (Placed S pos orn) := by
  rintro w ⟨p, hp, rfl⟩
  have h1 := hx p hp
  have h2 := hy p hp
  have h3 := hz p hp
  have h4 := hx _ (hs p hp)
  have h5 := hy _ (hs p hp)
  have h6 := hz _ (hs p hp)
  rw [← dot_rotate hq] at h1 h2 h3
  rw [dot_neg_left, ← dot_rotate hq] at h4 h5 h6
  rw [← x_eq_dot] at h1 h4
  rw [← y_eq_dot] at h2 h5
  rw [← z_eq_dot] at h3 h6
  refine ⟨⟨?_, ?_⟩, ⟨?_, ?_⟩, ⟨?_, ?_⟩⟩ <;> simp only [sub_x, sub_y, sub_z, add_x, add_y, add_z] <;> linarith

theorem symmetric_touch (S : Shape) (hs : ∀ p, S p → S (-p)) (pos : V3 ℝ) (orn : Quat ℝ)
    (hq : orn.lengthSqr = 1) (m : V3 ℝ)
    (hx : ∃ p, S p ∧ dot p (Quat.rotate orn.conjugate ex) = m.x)
    (hy : ∃ p, S p ∧ dot p (Quat.rotate orn.conjugate ey) = m.y)
    (hz : ∃ p, S p ∧ dot p (Quat.rotate orn.conjugate ez) = m.z) :
    (AABB.mk (pos - m) (pos + m)).Touches (Placed S pos orn) := by
  obtain ⟨p, hp, e1⟩ := hx
  obtain ⟨q, hq', e2⟩ := hy
  obtain ⟨r, hr, e3⟩ := hz
  rw [← dot_rotate hq] at e1 e2 e3
  rw [← x_eq_dot] at e1
  rw [← y_eq_dot] at e2
  rw [← z_eq_dot] at e3
  refine ⟨⟨_, ⟨-p, hs p hp, rfl⟩, ?_⟩, ⟨_, ⟨p, hp, rfl⟩, ?_⟩, ⟨_, ⟨-q, hs q hq', rfl⟩, ?_⟩,
    ⟨_, ⟨q, hq', rfl⟩, ?_⟩, ⟨_, ⟨-r, hs r hr, rfl⟩, ?_⟩, ⟨_, ⟨r, hr, rfl⟩, ?_⟩⟩ <;>
    simp only [rotate_neg, sub_x, sub_y, sub_z, add_x, add_y, add_z, neg_x, neg_y, neg_z, e1, e2, e3] <;> ring

/-! ## Boxes -/

theorem boxSet_neg (h p : V3 ℝ) (hp : boxSet h p) : boxSet h (-p) := by
  simpa only [boxSet, neg_x, neg_y, neg_z, abs_neg] using hp

/-- The extent of a box along a direction. -/
def boxExtent (h d : V3 ℝ) : ℝ := |d.x| * h.x + |d.y| * h.y + |d.z| * h.z

theorem mul_le_abs {a b h : ℝ} (hb : |b| ≤ h) : b * a ≤ |a| * h := by
  calc b * a ≤ |b * a| := le_abs_self _
    _ = |a| * |b| := by rw [abs_mul, mul_comm]
    _ ≤ |a| * h := mul_le_mul_of_nonneg_left hb (abs_nonneg a)

theorem box_le_extent {h p : V3 ℝ} (hp : boxSet h p) (d : V3 ℝ) : dot p d ≤ boxExtent h d := by
  obtain ⟨h1, h2, h3⟩ := hp
  have a1 := mul_le_abs (a := d.x) h1
  have a2 := mul_le_abs (a := d.y) h2
  have a3 := mul_le_abs (a := d.z) h3
  simp only [dot, boxExtent]
  linarith

theorem supportBox_mem {h : V3 ℝ} (hx : 0 ≤ h.x) (hy : 0 ≤ h.y) (hz : 0 ≤ h.z) (d : V3 ℝ) :
    boxSet h (supportBox h d) := by
  refine ⟨?_, ?_, ?_⟩ <;> simp only [supportBox] <;> split <;>
    simp only [abs_neg, abs_of_nonneg, hx, hy, hz, le_refl]

theorem sign_mul (a h : ℝ) : (if 0 < a then h else -h) * a = |a| * h := by
  split
  · rename_i ha
    rw [abs_of_pos ha, mul_comm]
  · rename_i ha
    rw [abs_of_nonpos (not_lt.mp ha)]
    ring

theorem supportBox_dot (h d : V3 ℝ) : dot (supportBox h d) d = boxExtent h d := by
  simp only [dot, supportBox, boxExtent, sign_mul]

theorem boxStep_eq {h : ℝ} (hh : 0 ≤ h) (b : ℝ) (m : ℝ × ℝ) :
    boxStep b h m = (m.1 - |b| * h, m.2 + |b| * h) := by
  unfold boxStep
  by_cases hc : b * -h < -(b * -h)
  · simp only [hc, if_true]
    have : |b| * h = b * h := by
      have h1 : 0 < b * h := by linarith
      have h2 : 0 < b := by
        rcases lt_trichotomy b 0 with hb | hb | hb
        · exact absurd h1 (not_lt.mpr (mul_nonpos_of_nonpos_of_nonneg hb.le hh))
        · rw [hb] at h1; simp at h1
        · exact hb
      rw [abs_of_pos h2]
    rw [this]
    ext <;> simp <;> ring
  · simp only [hc, if_false]
    have : |b| * h = -(b * h) := by
      have h1 : b * h ≤ 0 := by linarith
      rcases eq_or_lt_of_le hh with he | he
      · rw [← he]; simp
      · have h2 : b ≤ 0 := by
          by_contra hb
          have := mul_pos (not_le.mp hb) he
          linarith
        rw [abs_of_nonpos h2]; ring
    rw [this]
    ext <;> simp <;> ring

theorem boxRow_eq {h : V3 ℝ} (hx : 0 ≤ h.x) (hy : 0 ≤ h.y) (hz : 0 ≤ h.z) (row : V3 ℝ) (p : ℝ) :
    boxRow row h p = (p - boxExtent h row, p + boxExtent h row) := by
  unfold boxRow
  rw [boxStep_eq hx, boxStep_eq hy, boxStep_eq hz]
  simp only [boxExtent]
  ext <;> simp <;> ring

/-- The rows of the matrix of an orientation are the world axes in object space. -/
theorem ofQuat_rows {q : Quat ℝ} (hq : q.lengthSqr = 1) :
    (M3.ofQuat q).r0 = Quat.rotate q.conjugate ex ∧ (M3.ofQuat q).r1 = Quat.rotate q.conjugate ey ∧
      (M3.ofQuat q).r2 = Quat.rotate q.conjugate ez := by
  have key : ∀ (r e : V3 ℝ), (∀ v, dot r v = dot v (Quat.rotate q.conjugate e)) →
      r = Quat.rotate q.conjugate e := by
    intro r e h
    ext
    · have := h ex; rw [← x_eq_dot, dot_comm, ← x_eq_dot] at this; exact this
    · have := h ey; rw [← y_eq_dot, dot_comm, ← y_eq_dot] at this; exact this
    · have := h ez; rw [← z_eq_dot, dot_comm, ← z_eq_dot] at this; exact this
  refine ⟨key _ _ fun v => ?_, key _ _ fun v => ?_, key _ _ fun v => ?_⟩ <;>
    rw [← dot_rotate hq, ← M3.ofQuat_rotate q hq v]
  · rw [← x_eq_dot]; rfl
  · rw [← y_eq_dot]; rfl
  · rw [← z_eq_dot]; rfl

/-- **C67, boxes.** The bounding box of a placed box contains it and touches it on all six sides. -/
theorem box_aabb_spec (h pos : V3 ℝ) (orn : Quat ℝ) (hq : orn.lengthSqr = 1)
    (hx : 0 ≤ h.x) (hy : 0 ≤ h.y) (hz : 0 ≤ h.z) :
    (boxAabb h pos orn).Encloses (Placed (boxSet h) pos orn) ∧
      (boxAabb h pos orn).Touches (Placed (boxSet h) pos orn) := by
  obtain ⟨r0, r1, r2⟩ := ofQuat_rows hq
  have he : boxAabb h pos orn =
      ⟨pos - ⟨boxExtent h (Quat.rotate orn.conjugate ex), boxExtent h (Quat.rotate orn.conjugate ey),
        boxExtent h (Quat.rotate orn.conjugate ez)⟩,
       pos + ⟨boxExtent h (Quat.rotate orn.conjugate ex), boxExtent h (Quat.rotate orn.conjugate ey),
        boxExtent h (Quat.rotate orn.conjugate ez)⟩⟩ := by
    simp only [boxAabb, r0, r1, r2, boxRow_eq hx hy hz]
    rfl
  rw [he]
  refine ⟨symmetric_box _ (boxSet_neg h) pos orn hq _ ?_ ?_ ?_,
    symmetric_touch _ (boxSet_neg h) pos orn hq _ ?_ ?_ ?_⟩
  · exact fun p hp => box_le_extent hp _
  · exact fun p hp => box_le_extent hp _
  · exact fun p hp => box_le_extent hp _
  · exact ⟨_, supportBox_mem hx hy hz _, supportBox_dot h _⟩
  · exact ⟨_, supportBox_mem hx hy hz _, supportBox_dot h _⟩
  · exact ⟨_, supportBox_mem hx hy hz _, supportBox_dot h _⟩

/-! ## Spheres -/

theorem ballSet_neg (r : ℝ) (p : V3 ℝ) (hp : ballSet r p) : ballSet r (-p) := by
  simp only [ballSet, lengthSqr, dot_neg_left, dot_neg_right] at *
  linarith

/-- **C67, spheres.** -/
theorem sphere_aabb_spec (r : ℝ) (hr : 0 ≤ r) (pos : V3 ℝ) (orn : Quat ℝ) (hq : orn.lengthSqr = 1) :
    (sphereAabb r pos).Encloses (Placed (ballSet r) pos orn) ∧
      (sphereAabb r pos).Touches (Placed (ballSet r) pos orn) := by
  have he : sphereAabb r pos = ⟨pos - ⟨r, r, r⟩, pos + ⟨r, r, r⟩⟩ := rfl
  have hc := conjugate_unit hq
  have hpt : ∀ e : V3 ℝ, lengthSqr e = 1 →
      ∃ p, ballSet r p ∧ dot p (Quat.rotate orn.conjugate e) = r := by
    intro e h1
    have h2 := rotate_unit hc h1
    refine ⟨smul r (Quat.rotate orn.conjugate e), ?_, ?_⟩
    · simp only [ballSet, lengthSqr, dot_smul_left, dot_smul_right] at *
      rw [h2]; linarith
    · rw [dot_smul_left]
      have : dot (Quat.rotate orn.conjugate e) (Quat.rotate orn.conjugate e) = 1 := h2
      rw [this, mul_one]
  rw [he]
  refine ⟨symmetric_box _ (ballSet_neg r) pos orn hq _ ?_ ?_ ?_,
    symmetric_touch _ (ballSet_neg r) pos orn hq _ (hpt _ ex_unit) (hpt _ ey_unit) (hpt _ ez_unit)⟩
  · exact fun p hp => (dot_le_of_unit hr hp (rotate_unit hc ex_unit)).1
  · exact fun p hp => (dot_le_of_unit hr hp (rotate_unit hc ey_unit)).1
  · exact fun p hp => (dot_le_of_unit hr hp (rotate_unit hc ez_unit)).1

/-! ## Capsules -/

theorem capsuleSet_neg (r hl : ℝ) (a : Axis) (p : V3 ℝ) (hp : capsuleSet r hl a p) :
    capsuleSet r hl a (-p) := by
  obtain ⟨s, hs, h⟩ := hp
  refine ⟨-s, by rwa [abs_neg], ?_⟩
  have : -p - smul (-s) a.vec = -(p - smul s a.vec) := by
    ext <;> simp <;> ring
  rw [this]
  exact ballSet_neg r _ h

theorem capsule_le {r hl : ℝ} (hr : 0 ≤ r) {a : Axis} {p : V3 ℝ} (hp : capsuleSet r hl a p) {d : V3 ℝ}
    (hd : lengthSqr d = 1) : dot p d ≤ hl * |dot a.vec d| + r := by
  obtain ⟨s, hs, h⟩ := hp
  have h1 := (dot_le_of_unit hr h hd).1
  rw [dot_sub_left, dot_smul_left] at h1
  have h2 := mul_le_abs (a := dot a.vec d) hs
  linarith

theorem capsule_attains {r hl : ℝ} (hl0 : 0 ≤ hl) (a : Axis) {d : V3 ℝ}
    (hd : lengthSqr d = 1) : ∃ p, capsuleSet r hl a p ∧ dot p d = hl * |dot a.vec d| + r := by
  refine ⟨smul (if 0 < dot a.vec d then hl else -hl) a.vec + smul r d,
    ⟨_, (?_ : |if 0 < dot a.vec d then hl else -hl| ≤ hl), ?_⟩, ?_⟩
  · split <;> simp [abs_of_nonneg hl0]
  · have : ∀ u v : V3 ℝ, u + v - u = v := by intro u v; ext <;> simp
    rw [this]
    simp only [lengthSqr, dot_smul_left, dot_smul_right] at *
    rw [hd]; linarith
  · rw [dot_add_left, dot_smul_left, dot_smul_left, sign_mul]
    have : dot d d = 1 := hd
    rw [this]; ring

theorem min_sub_add (p v : ℝ) : min (p - v) (p + v) = p - |v| ∧ max (p - v) (p + v) = p + |v| := by
  rcases le_total 0 v with h | h
  · rw [abs_of_nonneg h, min_eq_left (by linarith), max_eq_right (by linarith)]
    exact ⟨rfl, rfl⟩
  · rw [abs_of_nonpos h, min_eq_right (by linarith), max_eq_left (by linarith)]
    exact ⟨by ring, by ring⟩

/-- **C67, capsules.** -/
theorem capsule_aabb_spec (r hl : ℝ) (hr : 0 ≤ r) (hl0 : 0 ≤ hl) (a : Axis) (pos : V3 ℝ) (orn : Quat ℝ)
    (hq : orn.lengthSqr = 1) :
    (capsuleAabb r hl a pos orn).Encloses (Placed (capsuleSet r hl a) pos orn) ∧
      (capsuleAabb r hl a pos orn).Touches (Placed (capsuleSet r hl a) pos orn) := by
  have hc := conjugate_unit hq
  have he : capsuleAabb r hl a pos orn =
      ⟨pos - ⟨hl * |dot a.vec (Quat.rotate orn.conjugate ex)| + r,
          hl * |dot a.vec (Quat.rotate orn.conjugate ey)| + r,
          hl * |dot a.vec (Quat.rotate orn.conjugate ez)| + r⟩,
       pos + ⟨hl * |dot a.vec (Quat.rotate orn.conjugate ex)| + r,
          hl * |dot a.vec (Quat.rotate orn.conjugate ey)| + r,
          hl * |dot a.vec (Quat.rotate orn.conjugate ez)| + r⟩⟩ := by
    rw [← dot_rotate hq, ← dot_rotate hq, ← dot_rotate hq, ← x_eq_dot, ← y_eq_dot, ← z_eq_dot]
    simp only [capsuleAabb, vmin, vmax, sub_x, sub_y, sub_z, add_x, add_y, add_z, smul_x, smul_y, smul_z,
      (min_sub_add _ _).1, (min_sub_add _ _).2, abs_mul, abs_of_nonneg hl0]
    congr 1 <;> ext <;> simp <;> ring
  rw [he]
  refine ⟨symmetric_box _ (capsuleSet_neg r hl a) pos orn hq _ ?_ ?_ ?_,
    symmetric_touch _ (capsuleSet_neg r hl a) pos orn hq _ ?_ ?_ ?_⟩
  · exact fun p hp => capsule_le hr hp (rotate_unit hc ex_unit)
  · exact fun p hp => capsule_le hr hp (rotate_unit hc ey_unit)
  · exact fun p hp => capsule_le hr hp (rotate_unit hc ez_unit)
  · exact capsule_attains hl0 a (rotate_unit hc ex_unit)
  · exact capsule_attains hl0 a (rotate_unit hc ey_unit)
  · exact capsule_attains hl0 a (rotate_unit hc ez_unit)

end Edyn.Geom
