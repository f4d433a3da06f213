import Verif.Mass.Solid

/-!
# Capsules (C76, C78)
-/

namespace Edyn.Mass

open Edyn.Math V3 Edyn.Geom MeasureTheory

/-- How far `x` is beyond the ends of the middle segment. -/
noncomputable def beyond (h x : ℝ) : ℝ := max (|x| - h) 0

/-- The radius of the capsule at `x`. -/
noncomputable def capsuleRadius (r h x : ℝ) : ℝ := √(r ^ 2 - beyond h x ^ 2)

theorem capsule_x {r h : ℝ} (hr : 0 ≤ r) (hh : 0 ≤ h) :
    capsuleSet r h .x = revolution (h + r) (capsuleRadius r h) := by
  funext p
  apply propext
  simp only [capsuleSet, revolution, capsuleRadius, Axis.vec, ex, V3.lengthSqr, dot, sub_x, sub_y, sub_z, smul_x, smul_y,
    smul_z, mul_one, mul_zero, sub_zero]
  constructor
  · rintro ⟨s, hs, hd⟩
    have h1 : |p.x - s| ≤ r := abs_le_of_sq_le_sq (by nlinarith [sq_nonneg p.y, sq_nonneg p.z]) hr
    have h2 : |p.x| ≤ |p.x - s| + |s| := by
      calc |p.x| = |(p.x - s) + s| := by ring_nf
        _ ≤ _ := abs_add_le _ _
    have h3 : beyond h p.x ≤ |p.x - s| := max_le (by linarith) (abs_nonneg _)
    have h4 : 0 ≤ beyond h p.x := le_max_right _ _
    have h5 : beyond h p.x ^ 2 ≤ (p.x - s) ^ 2 := by
      rw [← sq_abs (p.x - s)]
      exact pow_le_pow_left₀ h4 h3 2
    refine ⟨by linarith, ?_⟩
    rw [Real.sq_sqrt]
    · nlinarith
    · nlinarith [sq_nonneg p.y, sq_nonneg p.z]
  · rintro ⟨h1, h2⟩
    have hb : beyond h p.x ≤ r := max_le (by linarith) hr
    have hb0 : 0 ≤ beyond h p.x := le_max_right _ _
    rw [Real.sq_sqrt (by nlinarith)] at h2
    have key : ∃ s, |s| ≤ h ∧ (p.x - s) ^ 2 = beyond h p.x ^ 2 := by
      by_cases hx : |p.x| ≤ h
      · refine ⟨p.x, hx, ?_⟩
        rw [beyond, max_eq_right (by linarith)]
        ring
      · rw [not_le] at hx
        rw [beyond, max_eq_left (by linarith)]
        by_cases hp : 0 ≤ p.x
        · exact ⟨h, by rw [abs_of_nonneg hh], by rw [abs_of_nonneg hp]⟩
        · refine ⟨-h, by rw [abs_neg, abs_of_nonneg hh], ?_⟩
          rw [abs_of_neg (not_le.1 hp)]
          ring
    obtain ⟨s, hs, e⟩ := key
    exact ⟨s, hs, by nlinarith⟩

theorem capsule_turn (r hl : ℝ) : capsuleSet r hl .y = (fun p => capsuleSet r hl .x (turn p)) ∧
    capsuleSet r hl .z = (fun p => capsuleSet r hl .y (turn p)) := by
  constructor
  · funext p
    simp only [capsuleSet, Axis.vec, ex, ey, V3.lengthSqr, dot, turn, sub_x, sub_y, sub_z, smul_x, smul_y, smul_z]
    apply propext
    constructor <;> rintro ⟨s, h1, h2⟩ <;> exact ⟨s, h1, by linarith⟩
  · funext p
    simp only [capsuleSet, Axis.vec, ey, ez, V3.lengthSqr, dot, turn, sub_x, sub_y, sub_z, smul_x, smul_y, smul_z]
    apply propext
    constructor <;> rintro ⟨s, h1, h2⟩ <;> exact ⟨s, h1, by linarith⟩

/-- An integral in three pieces. -/
theorem integral_pieces {h r : ℝ} (hh : 0 ≤ h) (hr : 0 ≤ r) (f g1 g2 g3 : ℝ → ℝ) (hf : Continuous f)
    (h1 : ∀ x, -(h + r) ≤ x → x ≤ -h → f x = g1 x) (h2 : ∀ x, -h ≤ x → x ≤ h → f x = g2 x)
    (h3 : ∀ x, h ≤ x → x ≤ h + r → f x = g3 x) :
    ∫ x in (-(h + r))..(h + r), f x =
      (∫ x in (-(h + r))..(-h), g1 x) + (∫ x in (-h)..h, g2 x) + ∫ x in h..(h + r), g3 x := by
  rw [← intervalIntegral.integral_add_adjacent_intervals (b := -h) (hf.intervalIntegrable _ _) (hf.intervalIntegrable _ _),
    ← intervalIntegral.integral_add_adjacent_intervals (a := -h) (b := h) (hf.intervalIntegrable _ _)
      (hf.intervalIntegrable _ _)]
  rw [intervalIntegral.integral_congr (a := -(h + r)) (b := -h) (g := g1), intervalIntegral.integral_congr (a := -h) (b := h) (g := g2),
    intervalIntegral.integral_congr (a := h) (b := h + r) (g := g3), add_assoc]
  · intro x hx
    rw [Set.uIcc_of_le (by linarith)] at hx
    exact h3 x hx.1 hx.2
  · intro x hx
    rw [Set.uIcc_of_le (by linarith)] at hx
    exact h2 x hx.1 hx.2
  · intro x hx
    rw [Set.uIcc_of_le (by linarith)] at hx
    exact h1 x hx.1 hx.2

theorem radius_pieces {h r : ℝ} (hh : 0 ≤ h) (hr : 0 ≤ r) (x : ℝ) :
    (-(h + r) ≤ x → x ≤ -h → capsuleRadius r h x ^ 2 = r ^ 2 - (x + h) ^ 2) ∧
    (-h ≤ x → x ≤ h → capsuleRadius r h x ^ 2 = r ^ 2) ∧
    (h ≤ x → x ≤ h + r → capsuleRadius r h x ^ 2 = r ^ 2 - (x - h) ^ 2) := by
  refine ⟨?_, ?_, ?_⟩
  · intro h1 h2
    have e : beyond h x ^ 2 = (x + h) ^ 2 := by
      rw [beyond, abs_of_nonpos (by linarith), max_eq_left (by linarith)]
      ring
    rw [capsuleRadius, e, Real.sq_sqrt]
    nlinarith
  · intro h1 h2
    have e : beyond h x = 0 := by
      rw [beyond, max_eq_right]
      linarith [abs_le.2 ⟨h1, h2⟩]
    rw [capsuleRadius, e, Real.sq_sqrt]
    · ring
    · nlinarith
  · intro h1 h2
    have e : beyond h x ^ 2 = (x - h) ^ 2 := by
      rw [beyond, abs_of_nonneg (by linarith), max_eq_left (by linarith)]
    rw [capsuleRadius, e, Real.sq_sqrt]
    nlinarith

theorem radius_continuous (r h : ℝ) : Continuous (capsuleRadius r h) := by
  unfold capsuleRadius beyond
  fun_prop

theorem radius_four (r h x s : ℝ) (e : capsuleRadius r h x ^ 2 = s) : capsuleRadius r h x ^ 4 = s ^ 2 := by
  rw [← e]
  ring

/-- The mass of the two ends and of the middle of a capsule. -/
noncomputable def endsMass (m r hl : ℝ) : ℝ := m * sphereVolume r / (cylinderVolume r (hl * 2) + sphereVolume r)
noncomputable def middleMass (m r hl : ℝ) : ℝ :=
  m * cylinderVolume r (hl * 2) / (cylinderVolume r (hl * 2) + sphereVolume r)

/-- The moment of inertia about the axis, and the one about the other axes. -/
noncomputable def capsuleAxial (m r hl : ℝ) : ℝ := middleMass m r hl * r ^ 2 / 2 + endsMass m r hl * (2 * r ^ 2 / 5)
noncomputable def capsuleAcross (m r hl : ℝ) : ℝ :=
  middleMass m r hl * (3 * r ^ 2 + (2 * hl) ^ 2) / 12 +
    endsMass m r hl * (2 * r ^ 2 / 5 + hl ^ 2 + 3 * r * hl / 4)

theorem capsule_mass_x (r hl : ℝ) (hr : 0 < r) (hh : 0 < hl) (m : ℝ) :
    volumeOf (capsuleSet r hl .x) = cylinderVolume r (hl * 2) + sphereVolume r ∧ centroidOf (capsuleSet r hl .x) = 0 ∧
      inertiaOf (capsuleSet r hl .x) m =
        M3.diagonal (alongAxis (capsuleAxial m r hl) (capsuleAcross m r hl) .x) := by
  have hc := radius_continuous r hl
  have hp := radius_pieces hh.le hr.le
  have h := revolution_mass (L := hl + r) (B := r) (R := capsuleRadius r hl) (by linarith) hc
    (fun x => by
      unfold capsuleRadius
      exact root_bound hr.le _)
    (fun x => Real.sqrt_nonneg _) (by intro x; simp [capsuleRadius, beyond]) (Real.pi * (2 * hl * r ^ 2 + 4 / 3 * r ^ 3))
    (Real.pi * (hl * r ^ 4 + 8 / 15 * r ^ 5))
    (Real.pi * (2 / 3 * hl ^ 3 * r ^ 2 + hl * r ^ 4 / 2 + 4 / 3 * hl ^ 2 * r ^ 3 + hl * r ^ 4 + 8 / 15 * r ^ 5))
    (by
      rw [integral_pieces hh.le hr.le _ (fun x => Real.pi * (r ^ 2 - (x + hl) ^ 2)) (fun x => Real.pi * r ^ 2)
        (fun x => Real.pi * (r ^ 2 - (x - hl) ^ 2)) (by fun_prop)
        (fun x h1 h2 => by rw [(hp x).1 h1 h2]) (fun x h1 h2 => by rw [(hp x).2.1 h1 h2])
        (fun x h1 h2 => by rw [(hp x).2.2 h1 h2])]
      rw [integral_of_poly _ _ (Real.pi * (r ^ 2 - hl ^ 2)) (-2 * Real.pi * hl) (-Real.pi) 0 0 (by intro x; ring),
        integral_of_poly _ _ (Real.pi * r ^ 2) 0 0 0 0 (by intro x; ring),
        integral_of_poly _ _ (Real.pi * (r ^ 2 - hl ^ 2)) (2 * Real.pi * hl) (-Real.pi) 0 0 (by intro x; ring)]
      ring)
    (by
      rw [integral_pieces hh.le hr.le _ (fun x => Real.pi * ((r ^ 2 - (x + hl) ^ 2) ^ 2 / 2)) (fun x => Real.pi * ((r ^ 2) ^ 2 / 2))
        (fun x => Real.pi * ((r ^ 2 - (x - hl) ^ 2) ^ 2 / 2)) (by fun_prop)
        (fun x h1 h2 => by rw [radius_four _ _ _ _ ((hp x).1 h1 h2)]) (fun x h1 h2 => by rw [radius_four _ _ _ _ ((hp x).2.1 h1 h2)])
        (fun x h1 h2 => by rw [radius_four _ _ _ _ ((hp x).2.2 h1 h2)])]
      rw [integral_of_poly _ _ (Real.pi / 2 * (r ^ 2 - hl ^ 2) ^ 2) (-2 * Real.pi * hl * (r ^ 2 - hl ^ 2))
          (Real.pi / 2 * (4 * hl ^ 2 - 2 * (r ^ 2 - hl ^ 2))) (2 * Real.pi * hl) (Real.pi / 2) (by intro x; ring),
        integral_of_poly _ _ (Real.pi * r ^ 4 / 2) 0 0 0 0 (by intro x; ring),
        integral_of_poly _ _ (Real.pi / 2 * (r ^ 2 - hl ^ 2) ^ 2) (2 * Real.pi * hl * (r ^ 2 - hl ^ 2))
          (Real.pi / 2 * (4 * hl ^ 2 - 2 * (r ^ 2 - hl ^ 2))) (-2 * Real.pi * hl) (Real.pi / 2) (by intro x; ring)]
      ring)
    (by
      rw [integral_pieces hh.le hr.le _
        (fun x => Real.pi * (x ^ 2 * (r ^ 2 - (x + hl) ^ 2) + (r ^ 2 - (x + hl) ^ 2) ^ 2 / 4))
        (fun x => Real.pi * (x ^ 2 * r ^ 2 + (r ^ 2) ^ 2 / 4))
        (fun x => Real.pi * (x ^ 2 * (r ^ 2 - (x - hl) ^ 2) + (r ^ 2 - (x - hl) ^ 2) ^ 2 / 4)) (by fun_prop)
        (fun x h1 h2 => by rw [radius_four _ _ _ _ ((hp x).1 h1 h2), (hp x).1 h1 h2])
        (fun x h1 h2 => by rw [radius_four _ _ _ _ ((hp x).2.1 h1 h2), (hp x).2.1 h1 h2])
        (fun x h1 h2 => by rw [radius_four _ _ _ _ ((hp x).2.2 h1 h2), (hp x).2.2 h1 h2])]
      rw [integral_of_poly _ _ (Real.pi / 4 * (r ^ 2 - hl ^ 2) ^ 2) (-Real.pi * hl * (r ^ 2 - hl ^ 2))
          (Real.pi / 4 * (4 * hl ^ 2 - 2 * (r ^ 2 - hl ^ 2)) + Real.pi * (r ^ 2 - hl ^ 2))
          (Real.pi * hl - 2 * Real.pi * hl) (Real.pi / 4 - Real.pi) (by intro x; ring),
        integral_of_poly _ _ (Real.pi * r ^ 4 / 4) 0 (Real.pi * r ^ 2) 0 0 (by intro x; ring),
        integral_of_poly _ _ (Real.pi / 4 * (r ^ 2 - hl ^ 2) ^ 2) (Real.pi * hl * (r ^ 2 - hl ^ 2))
          (Real.pi / 4 * (4 * hl ^ 2 - 2 * (r ^ 2 - hl ^ 2)) + Real.pi * (r ^ 2 - hl ^ 2))
          (-Real.pi * hl + 2 * Real.pi * hl) (Real.pi / 4 - Real.pi) (by intro x; ring)]
      ring) m
  rw [capsule_x hr.le hh.le]
  refine ⟨?_, h.2.1, ?_⟩
  · rw [h.1, cylinderVolume, sphereVolume]
    ring
  · rw [h.2.2]
    have hp := Real.pi_pos
    have h1 : 0 < 2 * hl * r ^ 2 + 4 / 3 * r ^ 3 := by positivity
    have h2 : 0 < Real.pi * r * r * (hl * 2) + Real.pi * r * r * r * 4 / 3 := by positivity
    simp only [M3.diagonal, capsuleAxial, capsuleAcross, alongAxis, middleMass, endsMass, cylinderVolume, sphereVolume]
    ext <;> simp only [] <;> field_simp <;> ring

/-- **C76**: the volume of a capsule is what `shape_volume` says, and its centre of mass is the origin.  Its moment of
inertia: that of the cylinder in the middle and of the two half balls at the ends. -/
theorem capsule_mass (r hl : ℝ) (a : Axis) (hr : 0 < r) (hh : 0 < hl) (m : ℝ) :
    volumeOf (capsuleSet r hl a) = cylinderVolume r (hl * 2) + sphereVolume r ∧ centroidOf (capsuleSet r hl a) = 0 ∧
      inertiaOf (capsuleSet r hl a) m = M3.diagonal (alongAxis (capsuleAxial m r hl) (capsuleAcross m r hl) a) := by
  obtain ⟨v, c, i⟩ := capsule_mass_x r hl hr hh m
  have hy := turn_mass _ m _ c i
  rw [← (capsule_turn r hl).1] at hy
  have hz := turn_mass _ m _ hy.2.1 hy.2.2
  rw [← (capsule_turn r hl).2] at hz
  cases a with
  | x => exact ⟨v, c, i⟩
  | y => exact ⟨hy.1.trans v, hy.2.1, hy.2.2⟩
  | z => exact ⟨hz.1.trans (hy.1.trans v), hz.2.1, hz.2.2⟩

/-- **C76**: the volumes of boxes, spheres, cylinders and capsules, and their centres of mass. -/
theorem solid_volume (s : Solid) (h : s.Proper) : s.volume = volumeOf s.set ∧ centroidOf s.set = 0 := by
  cases s with
  | box e => exact ⟨(box_mass e h.1 h.2.1 h.2.2 1).1.symm, (box_mass e h.1 h.2.1 h.2.2 1).2.1⟩
  | sphere r => exact ⟨(ball_mass r h 1).1.symm, (ball_mass r h 1).2.1⟩
  | cylinder r hl a => exact ⟨(cylinder_mass r hl a h.1 h.2 1).1.symm, (cylinder_mass r hl a h.1 h.2 1).2.1⟩
  | capsule r hl a => exact ⟨(capsule_mass r hl a h.1 h.2 1).1.symm, (capsule_mass r hl a h.1 h.2 1).2.1⟩

example : (Solid.cylinder 1 2 .y).Proper ∧ (Solid.cylinder 1 2 .y).volume = Real.pi * 4 := by
  refine ⟨⟨by norm_num, by norm_num⟩, ?_⟩
  simp [Solid.volume, cylinderVolume]
  norm_num

/-- The full property: the moment of inertia of a shape is that of a body which fills it evenly. -/
def InertiaFull : Prop := ∀ (s : Solid) (m : ℝ), s.Proper → 0 < m → s.inertia m = inertiaOf s.set m

/-- **C78**, in part: boxes, spheres and cylinders. -/
theorem solid_inertia_partial (s : Solid) (m : ℝ) (h : s.Proper) (hs : ∀ r hl a, s ≠ .capsule r hl a) :
    s.inertia m = inertiaOf s.set m := by
  cases s with
  | box e => exact (box_mass e h.1 h.2.1 h.2.2 m).2.2.symm
  | sphere r => exact (ball_mass r h m).2.2.symm
  | cylinder r hl a => exact (cylinder_mass r hl a h.1 h.2 m).2.2.symm
  | capsule r hl a => exact absurd rfl (hs r hl a)

/-- **C78**, in part: for a capsule along x, the moment of inertia about its axis is right, and the other two are too
large by nine sixty-fourths of the mass of the ends times the square of the radius. -/
theorem capsule_inertia_partial (r hl m : ℝ) (hr : 0 < r) (hh : 0 < hl) :
    ((Solid.capsule r hl .x).inertia m).r0 = (inertiaOf (capsuleSet r hl .x) m).r0 ∧
    ((Solid.capsule r hl .x).inertia m).r1.y =
      (inertiaOf (capsuleSet r hl .x) m).r1.y + 9 / 64 * endsMass m r hl * r ^ 2 ∧
    ((Solid.capsule r hl .x).inertia m).r2.z =
      (inertiaOf (capsuleSet r hl .x) m).r2.z + 9 / 64 * endsMass m r hl * r ^ 2 := by
  rw [(capsule_mass r hl .x hr hh m).2.2]
  simp only [Solid.inertia, M3.diagonal, alongAxis, solidCapsule, solidCylinder, solidSphere, capsuleAxial, capsuleAcross]
  rw [show m * cylinderVolume r (hl * 2) / (cylinderVolume r (hl * 2) + sphereVolume r) = middleMass m r hl from rfl,
    show m * sphereVolume r / (cylinderVolume r (hl * 2) + sphereVolume r) = endsMass m r hl from rfl]
  refine ⟨?_, ?_, ?_⟩
  · ext <;> simp only []
    ring
  · ring
  · ring

theorem masses_pos {m r hl : ℝ} (hm : 0 < m) (hr : 0 < r) (hh : 0 < hl) : 0 < endsMass m r hl ∧ 0 < middleMass m r hl := by
  have hp := Real.pi_pos
  unfold endsMass middleMass cylinderVolume sphereVolume
  constructor <;> positivity

/-- **C78** does not hold for capsules: whatever the axis and the sizes, the result is not the moment of inertia of the
capsule. -/
theorem capsule_inertia_wrong (r hl m : ℝ) (a : Axis) (hr : 0 < r) (hh : 0 < hl) (hm : 0 < m) :
    (Solid.capsule r hl a).inertia m ≠ inertiaOf (capsuleSet r hl a) m := by
  obtain ⟨h1, h2⟩ := masses_pos hm hr hh
  rw [(capsule_mass r hl a hr hh m).2.2]
  intro h
  cases a <;>
    simp only [Solid.inertia, M3.diagonal, alongAxis, solidCapsule, solidCylinder, solidSphere, capsuleAxial, capsuleAcross,
      M3.mk.injEq, V3.mk.injEq] at h <;>
    rw [show m * cylinderVolume r (hl * 2) / (cylinderVolume r (hl * 2) + sphereVolume r) = middleMass m r hl from rfl,
      show m * sphereVolume r / (cylinderVolume r (hl * 2) + sphereVolume r) = endsMass m r hl from rfl] at h <;>
    generalize endsMass m r hl = e at * <;> generalize middleMass m r hl = d at *
  · have k := h.2.1.2.1
    have : 9 / 64 * (e * r ^ 2) = 0 := by linear_combination k
    have : 0 < e * r ^ 2 := by positivity
    linarith
  · have k := h.1.1
    have l := h.2.1.2.1
    have k2 : d * (3 * r ^ 2 + (2 * hl) ^ 2) / 12 = d * r ^ 2 / 2 := by linear_combination l
    have : 9 / 64 * (e * r ^ 2) = 0 := by linear_combination k + k2
    have : 0 < e * r ^ 2 := by positivity
    linarith
  · have k := h.1.1
    have : 9 / 64 * (e * r ^ 2) = 0 := by linear_combination k
    have : 0 < e * r ^ 2 := by positivity
    linarith

theorem inertia_refuted : ¬ InertiaFull := by
  intro h
  exact capsule_inertia_wrong 1 1 1 .x one_pos one_pos one_pos (h (.capsule 1 1 .x) 1 ⟨one_pos, one_pos⟩ one_pos)

end Edyn.Mass
