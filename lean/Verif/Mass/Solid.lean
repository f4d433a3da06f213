import Verif.Mass.Affine

/-!
# Volumes and moments of inertia of boxes, spheres, cylinders and capsules (C76, C78)

`src/edyn/math/shape_volume.cpp` and `src/edyn/dynamics/moment_of_inertia.cpp`.  Scalars are exact reals.
-/

namespace Edyn.Mass

open Edyn.Math V3 Edyn.Geom MeasureTheory

/-! ## Model -/

/-- `cylinder_volume`, `shape_volume.cpp` 10-12. -/
noncomputable def cylinderVolume (radius length : ℝ) : ℝ := Real.pi * radius * radius * length

/-- `sphere_volume`, `shape_volume.cpp` 14-16. -/
noncomputable def sphereVolume (radius : ℝ) : ℝ := Real.pi * radius * radius * radius * 4 / 3

/-- `box_volume`, `shape_volume.cpp` 18-20. -/
noncomputable def boxVolume (e : V3 ℝ) : ℝ := e.x * e.y * e.z

/-- `moment_of_inertia_solid_box`, `moment_of_inertia.cpp` 11-17. -/
noncomputable def solidBox (mass : ℝ) (e : V3 ℝ) : V3 ℝ :=
  smul (1 / 12 * mass) ⟨e.y * e.y + e.z * e.z, e.z * e.z + e.x * e.x, e.x * e.x + e.y * e.y⟩

/-- `moment_of_inertia_solid_sphere`, `moment_of_inertia.cpp` 19-21.  The constant is the exact two fifths. -/
noncomputable def solidSphere (mass radius : ℝ) : ℝ := 2 / 5 * mass * radius * radius

/-- The switch over the axis, `moment_of_inertia.cpp` 34-41 and 81-88. -/
def alongAxis (xx yy_zz : ℝ) : Axis → V3 ℝ
  | .x => ⟨xx, yy_zz, yy_zz⟩
  | .y => ⟨yy_zz, xx, yy_zz⟩
  | .z => ⟨yy_zz, yy_zz, xx⟩

/-- `moment_of_inertia_solid_cylinder`, `moment_of_inertia.cpp` 27-44. -/
noncomputable def solidCylinder (mass len radius : ℝ) (axis : Axis) : V3 ℝ :=
  let xx := 1 / 2 * mass * radius * radius
  let yy_zz := 1 / 12 * mass * (3 * radius * radius + len * len)
  alongAxis xx yy_zz axis

/-- `moment_of_inertia_solid_capsule`, `moment_of_inertia.cpp` 65-91. -/
noncomputable def solidCapsule (mass len radius : ℝ) (axis : Axis) : V3 ℝ :=
  let cyl_vol := cylinderVolume radius len
  let sph_vol := sphereVolume radius
  let total_vol := cyl_vol + sph_vol
  let cyl_mass := mass * cyl_vol / total_vol
  let sph_mass := mass * sph_vol / total_vol
  let cyl_inertia := solidCylinder cyl_mass len radius axis
  let sph_inertia := solidSphere sph_mass radius
  let xx := sph_inertia + cyl_inertia.x
  let yy_zz := sph_inertia + sph_mass * ((4 * len + 3 * radius) * (4 * len + 3 * radius)) / 64 + cyl_inertia.y
  alongAxis xx yy_zz axis

/-- The shapes with a volume other than polyhedra and compounds. -/
inductive Solid
  | box (half : V3 ℝ)
  | sphere (radius : ℝ)
  | cylinder (radius halfLength : ℝ) (axis : Axis)
  | capsule (radius halfLength : ℝ) (axis : Axis)

/-- `shape_volume`, `shape_volume.cpp` 56-62, 76-78 and 84-86. -/
noncomputable def Solid.volume : Solid → ℝ
  | .box h => boxVolume (smul 2 h)
  | .sphere r => sphereVolume r
  | .cylinder r hl _ => cylinderVolume r (hl * 2)
  | .capsule r hl _ => cylinderVolume r (hl * 2) + sphereVolume r

/-- `moment_of_inertia`, `moment_of_inertia.cpp` 163-173 and 179-181. -/
noncomputable def Solid.inertia (mass : ℝ) : Solid → M3 ℝ
  | .box h => M3.diagonal (solidBox mass (smul 2 h))
  | .sphere r => (1 : M3 ℝ).scale (solidSphere mass r)
  | .cylinder r hl a => M3.diagonal (solidCylinder mass (hl * 2) r a)
  | .capsule r hl a => M3.diagonal (solidCapsule mass (hl * 2) r a)

/-! ## Specification -/

/-- The set a shape fills. -/
def Solid.set : Solid → Shape
  | .box h => boxSet h
  | .sphere r => ballSet r
  | .cylinder r hl a => cylinderSet r hl a
  | .capsule r hl a => capsuleSet r hl a

/-- The sizes are positive. -/
def Solid.Proper : Solid → Prop
  | .box h => 0 < h.x ∧ 0 < h.y ∧ 0 < h.z
  | .sphere r => 0 < r
  | .cylinder r hl _ => 0 < r ∧ 0 < hl
  | .capsule r hl _ => 0 < r ∧ 0 < hl

/-! ## Solids of revolution -/

/-- The set turned around the x axis whose radius at `x` is `R x`. -/
def revolution (L : ℝ) (R : ℝ → ℝ) : Shape := fun p => |p.x| ≤ L ∧ p.y ^ 2 + p.z ^ 2 ≤ R p.x ^ 2

theorem revolution_compact {L B : ℝ} {R : ℝ → ℝ} (hR : Continuous R) (hB : ∀ x, |R x| ≤ B) :
    IsCompact (region (revolution L R)) := by
  apply Metric.isCompact_of_isClosed_isBounded
  · have h1 : IsClosed {p : ℝ × ℝ × ℝ | |p.1| ≤ L} := isClosed_le (by fun_prop) (by fun_prop)
    have h2 : IsClosed {p : ℝ × ℝ × ℝ | p.2.1 ^ 2 + p.2.2 ^ 2 ≤ R p.1 ^ 2} := isClosed_le (by fun_prop) (by fun_prop)
    exact h1.inter h2
  · refine (Metric.isBounded_Icc (α := ℝ × ℝ × ℝ) (-L, -B, -B) (L, B, B)).subset ?_
    intro p hp
    obtain ⟨h1, h2⟩ := hp
    simp only [toV] at h1 h2
    have hb := hB p.1
    have hb0 : 0 ≤ B := le_trans (abs_nonneg _) hb
    have hs : R p.1 ^ 2 ≤ B ^ 2 := sq_le_sq.2 (by rwa [abs_of_nonneg hb0])
    have h3 := abs_le.1 (abs_le_of_sq_le_sq (by nlinarith [sq_nonneg p.2.2] : p.2.1 ^ 2 ≤ B ^ 2) hb0)
    have h4 := abs_le.1 (abs_le_of_sq_le_sq (by nlinarith [sq_nonneg p.2.1] : p.2.2 ^ 2 ≤ B ^ 2) hb0)
    rw [abs_le] at h1
    exact ⟨⟨h1.1, h3.1, h4.1⟩, ⟨h1.2, h3.2, h4.2⟩⟩

/-- The integral of a polynomial over a solid of revolution. -/
theorem revolution_integral {L B : ℝ} {R : ℝ → ℝ} (hL : 0 ≤ L) (hR : Continuous R) (hB : ∀ x, |R x| ≤ B)
    (h0 : ∀ x, 0 ≤ R x) (c : Quad) :
    integralOver (revolution L R) c.eval =
      ∫ x in (-L)..L, Real.pi * ((c.one + c.x * x + c.xx * x ^ 2) * R x ^ 2 + (c.yy + c.zz) * R x ^ 4 / 4) := by
  have hc := revolution_compact (L := L) hR hB
  have hq : Continuous fun p : ℝ × ℝ × ℝ => c.eval (toV p) := by
    unfold Quad.eval toV
    fun_prop
  unfold integralOver
  rw [slices hc hq (a := -L) (b := L) (by linarith) (fun p hp => abs_le.1 hp.1)]
  apply intervalIntegral.integral_congr
  intro x hx
  rw [Set.uIcc_of_le (by linarith)] at hx
  have e : {q : ℝ × ℝ | (x, q) ∈ region (revolution L R)} = disc (R x) := by
    ext q
    simp only [region, revolution, toV, disc, Set.mem_setOf_eq]
    exact ⟨fun h => h.2, fun h => ⟨abs_le.2 hx, h⟩⟩
  simp only
  rw [e, ← disc_moments (h0 x) (c.one + c.x * x + c.xx * x ^ 2) (c.y + c.xy * x) (c.z + c.zx * x) c.yy c.yz c.zz]
  apply integral_congr_ae
  apply Filter.Eventually.of_forall
  intro q
  simp only [Quad.eval, toV]
  ring

/-- Volume and moments of a solid of revolution. -/
theorem revolution_mass {L B : ℝ} {R : ℝ → ℝ} (hL : 0 ≤ L) (hR : Continuous R) (hB : ∀ x, |R x| ≤ B)
    (h0 : ∀ x, 0 ≤ R x) (he : ∀ x, R (-x) = R x) (V A T : ℝ) (hV : ∫ x in (-L)..L, Real.pi * R x ^ 2 = V)
    (hA : ∫ x in (-L)..L, Real.pi * (R x ^ 4 / 2) = A)
    (hT : ∫ x in (-L)..L, Real.pi * (x ^ 2 * R x ^ 2 + R x ^ 4 / 4) = T) (m : ℝ) :
    volumeOf (revolution L R) = V ∧ centroidOf (revolution L R) = 0 ∧
      inertiaOf (revolution L R) m = M3.diagonal ⟨m / V * A, m / V * T, m / V * T⟩ := by
  have hi : ∀ f c, (∀ p, f p = Quad.eval c p) → integralOver (revolution L R) f =
      ∫ x in (-L)..L, Real.pi * ((c.one + c.x * x + c.xx * x ^ 2) * R x ^ 2 + (c.yy + c.zz) * R x ^ 4 / 4) := by
    intro f c hf
    rw [show f = c.eval from funext hf]
    exact revolution_integral hL hR hB h0 c
  have hv : volumeOf (revolution L R) = V := by
    rw [volumeOf, hi _ ⟨1, 0, 0, 0, 0, 0, 0, 0, 0, 0⟩ (by intro p; simp [Quad.eval]), ← hV]
    simp
  refine ⟨hv, ?_, ?_⟩
  · rw [centroidOf, hi _ ⟨0, 1, 0, 0, 0, 0, 0, 0, 0, 0⟩ (by intro p; simp [Quad.eval]),
      hi _ ⟨0, 0, 1, 0, 0, 0, 0, 0, 0, 0⟩ (by intro p; simp [Quad.eval]),
      hi _ ⟨0, 0, 0, 1, 0, 0, 0, 0, 0, 0⟩ (by intro p; simp [Quad.eval])]
    rw [odd_integral L _ (by intro x; simp [he])]
    ext <;> simp
  · rw [inertiaOf, hv]
    simp only
    rw [hi (fun p => p.y * p.y + p.z * p.z) ⟨0, 0, 0, 0, 0, 1, 1, 0, 0, 0⟩ (by intro p; simp [Quad.eval]),
      hi (fun p => p.z * p.z + p.x * p.x) ⟨0, 0, 0, 0, 1, 0, 1, 0, 0, 0⟩ (by intro p; simp [Quad.eval]; ring),
      hi (fun p => p.x * p.x + p.y * p.y) ⟨0, 0, 0, 0, 1, 1, 0, 0, 0, 0⟩ (by intro p; simp [Quad.eval]),
      hi (fun p => -(p.x * p.y)) ⟨0, 0, 0, 0, 0, 0, 0, 0, 0, -1⟩ (by intro p; simp [Quad.eval]),
      hi (fun p => -(p.x * p.z)) ⟨0, 0, 0, 0, 0, 0, 0, 0, -1, 0⟩ (by intro p; simp [Quad.eval]; ring),
      hi (fun p => -(p.y * p.x)) ⟨0, 0, 0, 0, 0, 0, 0, 0, 0, -1⟩ (by intro p; simp [Quad.eval]; ring),
      hi (fun p => -(p.y * p.z)) ⟨0, 0, 0, 0, 0, 0, 0, -1, 0, 0⟩ (by intro p; simp [Quad.eval]),
      hi (fun p => -(p.z * p.x)) ⟨0, 0, 0, 0, 0, 0, 0, 0, -1, 0⟩ (by intro p; simp [Quad.eval]),
      hi (fun p => -(p.z * p.y)) ⟨0, 0, 0, 0, 0, 0, 0, -1, 0, 0⟩ (by intro p; simp [Quad.eval]; ring)]
    simp only [M3.diagonal]
    have a1 : ∀ x : ℝ, (0 + 0 * x + 0 * x ^ 2) * R x ^ 2 + (1 + 1) * R x ^ 4 / 4 = R x ^ 4 / 2 := by intro x; ring
    have a2 : ∀ x : ℝ, (0 + 0 * x + 1 * x ^ 2) * R x ^ 2 + (0 + 1) * R x ^ 4 / 4 = x ^ 2 * R x ^ 2 + R x ^ 4 / 4 := by
      intro x; ring
    have a3 : ∀ x : ℝ, (0 + 0 * x + 1 * x ^ 2) * R x ^ 2 + (1 + 0) * R x ^ 4 / 4 = x ^ 2 * R x ^ 2 + R x ^ 4 / 4 := by
      intro x; ring
    have a0 : ∀ x : ℝ, (0 + 0 * x + 0 * x ^ 2) * R x ^ 2 + (0 + 0) * R x ^ 4 / 4 = 0 := by intro x; ring
    simp only [a0, a1, a2, a3, hA, hT, mul_zero, intervalIntegral.integral_zero]

/-! ## Turning the axis -/

theorem turn_mass (S : Shape) (m : ℝ) (d : V3 ℝ) (hc : centroidOf S = 0) (hi : inertiaOf S m = M3.diagonal d) :
    volumeOf (fun p => S (turn p)) = volumeOf S ∧ centroidOf (fun p => S (turn p)) = 0 ∧
      inertiaOf (fun p => S (turn p)) m = M3.diagonal ⟨d.z, d.x, d.y⟩ := by
  have t : ∀ f g : V3 ℝ → ℝ, (∀ p, f p = g (turn p)) → integralOver (fun p => S (turn p)) f = integralOver S g := by
    intro f g h
    rw [show f = fun p => g (turn p) from funext h]
    exact integral_turn S g
  have hv : volumeOf (fun p => S (turn p)) = volumeOf S := t _ _ (fun _ => rfl)
  refine ⟨hv, ?_, ?_⟩
  · rw [centroidOf, hv, t (·.x) (·.z) (fun _ => rfl), t (·.y) (·.x) (fun _ => rfl), t (·.z) (·.y) (fun _ => rfl)]
    rw [centroidOf, V3.ext_iff] at hc
    obtain ⟨h1, h2, h3⟩ := hc
    exact V3.ext h3 h1 h2
  · simp only [inertiaOf, M3.diagonal, M3.mk.injEq, V3.mk.injEq] at hi
    obtain ⟨⟨h1, h2, h3⟩, ⟨h4, h5, h6⟩, ⟨h7, h8, h9⟩⟩ := hi
    simp only [inertiaOf, hv, M3.diagonal, M3.mk.injEq, V3.mk.injEq]
    rw [t (fun p => p.y * p.y + p.z * p.z) (fun p => p.x * p.x + p.y * p.y) (fun _ => rfl),
      t (fun p => p.z * p.z + p.x * p.x) (fun p => p.y * p.y + p.z * p.z) (fun _ => rfl),
      t (fun p => p.x * p.x + p.y * p.y) (fun p => p.z * p.z + p.x * p.x) (fun _ => rfl),
      t (fun p => -(p.x * p.y)) (fun p => -(p.z * p.x)) (fun _ => rfl),
      t (fun p => -(p.x * p.z)) (fun p => -(p.z * p.y)) (fun _ => rfl),
      t (fun p => -(p.y * p.x)) (fun p => -(p.x * p.z)) (fun _ => rfl),
      t (fun p => -(p.y * p.z)) (fun p => -(p.x * p.y)) (fun _ => rfl),
      t (fun p => -(p.z * p.x)) (fun p => -(p.y * p.z)) (fun _ => rfl),
      t (fun p => -(p.z * p.y)) (fun p => -(p.y * p.x)) (fun _ => rfl)]
    exact ⟨⟨h9, h7, h8⟩, ⟨h3, h1, h2⟩, ⟨h6, h4, h5⟩⟩

/-! ## Boxes -/

theorem box_integral (h : V3 ℝ) (hx : 0 ≤ h.x) (hy : 0 ≤ h.y) (hz : 0 ≤ h.z) (c : Quad) :
    integralOver (boxSet h) c.eval =
      8 * h.x * h.y * h.z * (c.one + c.xx * h.x ^ 2 / 3 + c.yy * h.y ^ 2 / 3 + c.zz * h.z ^ 2 / 3) := by
  have hq : Continuous fun p : ℝ × ℝ × ℝ => c.eval (toV p) := by
    unfold Quad.eval toV
    fun_prop
  rw [box_slices h hx hy hz _ hq]
  have e1 : ∀ x y : ℝ, (∫ z in (-h.z)..h.z, c.eval ⟨x, y, z⟩) =
      2 * h.z * (c.one + c.x * x + c.y * y + c.xx * x ^ 2 + c.yy * y ^ 2 + c.xy * (x * y) + c.zz * h.z ^ 2 / 3) := by
    intro x y
    rw [integral_of_poly _ _ (c.one + c.x * x + c.y * y + c.xx * (x * x) + c.yy * (y * y) + c.xy * (x * y))
      (c.z + c.yz * y + c.zx * x) c.zz 0 0 (by intro z; simp only [Quad.eval]; ring)]
    ring
  simp only [e1]
  have e2 : ∀ x : ℝ, (∫ y in (-h.y)..h.y,
      2 * h.z * (c.one + c.x * x + c.y * y + c.xx * x ^ 2 + c.yy * y ^ 2 + c.xy * (x * y) + c.zz * h.z ^ 2 / 3)) =
      4 * h.y * h.z * (c.one + c.x * x + c.xx * x ^ 2 + c.yy * h.y ^ 2 / 3 + c.zz * h.z ^ 2 / 3) := by
    intro x
    rw [integral_of_poly _ _ (2 * h.z * (c.one + c.x * x + c.xx * x ^ 2 + c.zz * h.z ^ 2 / 3))
      (2 * h.z * (c.y + c.xy * x)) (2 * h.z * c.yy) 0 0 (by intro z; ring)]
    ring
  simp only [e2]
  rw [integral_of_poly _ _ (4 * h.y * h.z * (c.one + c.yy * h.y ^ 2 / 3 + c.zz * h.z ^ 2 / 3))
      (4 * h.y * h.z * c.x) (4 * h.y * h.z * c.xx) 0 0 (by intro z; ring)]
  ring

theorem box_mass (h : V3 ℝ) (hx : 0 < h.x) (hy : 0 < h.y) (hz : 0 < h.z) (m : ℝ) :
    volumeOf (boxSet h) = boxVolume (smul 2 h) ∧ centroidOf (boxSet h) = 0 ∧
      inertiaOf (boxSet h) m = M3.diagonal (solidBox m (smul 2 h)) := by
  have hi : ∀ f c, (∀ p, f p = Quad.eval c p) → integralOver (boxSet h) f =
      8 * h.x * h.y * h.z * (c.one + c.xx * h.x ^ 2 / 3 + c.yy * h.y ^ 2 / 3 + c.zz * h.z ^ 2 / 3) := by
    intro f c hf
    rw [show f = c.eval from funext hf]
    exact box_integral h hx.le hy.le hz.le c
  have hv : volumeOf (boxSet h) = 8 * h.x * h.y * h.z := by
    rw [volumeOf, hi _ ⟨1, 0, 0, 0, 0, 0, 0, 0, 0, 0⟩ (by intro p; simp [Quad.eval])]
    simp
  refine ⟨?_, ?_, ?_⟩
  · rw [hv, boxVolume]
    simp only [smul_x, smul_y, smul_z]
    ring
  · rw [centroidOf, hi _ ⟨0, 1, 0, 0, 0, 0, 0, 0, 0, 0⟩ (by intro p; simp [Quad.eval]),
      hi _ ⟨0, 0, 1, 0, 0, 0, 0, 0, 0, 0⟩ (by intro p; simp [Quad.eval]),
      hi _ ⟨0, 0, 0, 1, 0, 0, 0, 0, 0, 0⟩ (by intro p; simp [Quad.eval])]
    ext <;> simp
  · rw [inertiaOf, hv]
    simp only
    rw [hi (fun p => p.y * p.y + p.z * p.z) ⟨0, 0, 0, 0, 0, 1, 1, 0, 0, 0⟩ (by intro p; simp [Quad.eval]),
      hi (fun p => p.z * p.z + p.x * p.x) ⟨0, 0, 0, 0, 1, 0, 1, 0, 0, 0⟩ (by intro p; simp [Quad.eval]; ring),
      hi (fun p => p.x * p.x + p.y * p.y) ⟨0, 0, 0, 0, 1, 1, 0, 0, 0, 0⟩ (by intro p; simp [Quad.eval]),
      hi (fun p => -(p.x * p.y)) ⟨0, 0, 0, 0, 0, 0, 0, 0, 0, -1⟩ (by intro p; simp [Quad.eval]),
      hi (fun p => -(p.x * p.z)) ⟨0, 0, 0, 0, 0, 0, 0, 0, -1, 0⟩ (by intro p; simp [Quad.eval]; ring),
      hi (fun p => -(p.y * p.x)) ⟨0, 0, 0, 0, 0, 0, 0, 0, 0, -1⟩ (by intro p; simp [Quad.eval]; ring),
      hi (fun p => -(p.y * p.z)) ⟨0, 0, 0, 0, 0, 0, 0, -1, 0, 0⟩ (by intro p; simp [Quad.eval]),
      hi (fun p => -(p.z * p.x)) ⟨0, 0, 0, 0, 0, 0, 0, 0, -1, 0⟩ (by intro p; simp [Quad.eval]),
      hi (fun p => -(p.z * p.y)) ⟨0, 0, 0, 0, 0, 0, 0, -1, 0, 0⟩ (by intro p; simp [Quad.eval]; ring)]
    simp only [M3.diagonal, solidBox]
    ext <;> simp only [smul_x, smul_y, smul_z] <;> field_simp <;> ring

/-! ## Balls and cylinders -/

theorem ball_eq {r : ℝ} (hr : 0 ≤ r) : ballSet r = revolution r (fun x => √(r ^ 2 - x ^ 2)) := by
  funext p
  apply propext
  simp only [ballSet, revolution, V3.lengthSqr, dot]
  constructor
  · intro h
    have h1 : p.x ^ 2 ≤ r ^ 2 := by nlinarith [sq_nonneg p.y, sq_nonneg p.z]
    refine ⟨abs_le_of_sq_le_sq h1 hr, ?_⟩
    rw [Real.sq_sqrt (by linarith)]
    nlinarith
  · rintro ⟨h1, h2⟩
    have h3 : p.x ^ 2 ≤ r ^ 2 := sq_le_sq.2 (by rwa [abs_of_nonneg hr])
    rw [Real.sq_sqrt (by linarith)] at h2
    nlinarith

theorem root_bound {r : ℝ} (hr : 0 ≤ r) (x : ℝ) : |√(r ^ 2 - x ^ 2)| ≤ r := by
  rw [abs_of_nonneg (Real.sqrt_nonneg _)]
  calc √(r ^ 2 - x ^ 2) ≤ √(r ^ 2) := Real.sqrt_le_sqrt (by nlinarith [sq_nonneg x])
    _ = r := Real.sqrt_sq hr

theorem ball_mass (r : ℝ) (hr : 0 < r) (m : ℝ) :
    volumeOf (ballSet r) = sphereVolume r ∧ centroidOf (ballSet r) = 0 ∧
      inertiaOf (ballSet r) m = (1 : M3 ℝ).scale (solidSphere m r) := by
  have sq : ∀ x ∈ Set.uIcc (-r) r, √(r ^ 2 - x ^ 2) ^ 2 = r ^ 2 - x ^ 2 := by
    intro x hx
    rw [Set.uIcc_of_le (by linarith)] at hx
    exact Real.sq_sqrt (by nlinarith [hx.1, hx.2])
  have fo : ∀ x ∈ Set.uIcc (-r) r, √(r ^ 2 - x ^ 2) ^ 4 = (r ^ 2 - x ^ 2) ^ 2 := by
    intro x hx
    calc √(r ^ 2 - x ^ 2) ^ 4 = (√(r ^ 2 - x ^ 2) ^ 2) ^ 2 := by ring
      _ = (r ^ 2 - x ^ 2) ^ 2 := by rw [sq x hx]
  have h := revolution_mass (L := r) (B := r) (R := fun x => √(r ^ 2 - x ^ 2)) hr.le (by fun_prop) (root_bound hr.le)
    (fun x => Real.sqrt_nonneg _) (by intro x; simp) (Real.pi * (4 / 3 * r ^ 3)) (Real.pi * (8 / 15 * r ^ 5))
    (Real.pi * (8 / 15 * r ^ 5))
    (by
      rw [intervalIntegral.integral_congr (g := fun x => Real.pi * (r ^ 2 - x ^ 2)) (by intro x hx; simp only; rw [sq x hx])]
      rw [integral_of_poly _ _ (Real.pi * r ^ 2) 0 (-Real.pi) 0 0 (by intro x; ring)]
      ring)
    (by
      rw [intervalIntegral.integral_congr (g := fun x => Real.pi * ((r ^ 2 - x ^ 2) ^ 2 / 2))
        (by intro x hx; simp only; rw [fo x hx])]
      rw [integral_of_poly _ _ (Real.pi * r ^ 4 / 2) 0 (-Real.pi * r ^ 2) 0 (Real.pi / 2) (by intro x; ring)]
      ring)
    (by
      rw [intervalIntegral.integral_congr (g := fun x => Real.pi * (x ^ 2 * (r ^ 2 - x ^ 2) + (r ^ 2 - x ^ 2) ^ 2 / 4))
        (by intro x hx; simp only; rw [fo x hx, sq x hx])]
      rw [integral_of_poly _ _ (Real.pi * r ^ 4 / 4) 0 (Real.pi * r ^ 2 / 2) 0 (-3 * Real.pi / 4) (by intro x; ring)]
      ring) m
  rw [ball_eq hr.le]
  refine ⟨?_, h.2.1, ?_⟩
  · rw [h.1, sphereVolume]
    ring
  · rw [h.2.2, M3.one_def]
    have hp := Real.pi_pos
    simp only [M3.diagonal, M3.scale, solidSphere]
    ext <;> simp only [smul_x, smul_y, smul_z, mul_zero] <;> field_simp <;> ring

theorem cylinder_x (r hl : ℝ) : cylinderSet r hl .x = revolution hl (fun _ => r) := by
  funext p
  simp only [cylinderSet, revolution, Axis.vec, ex, V3.lengthSqr, dot, sub_x, sub_y, sub_z, smul_x, smul_y, smul_z, mul_one,
    mul_zero, add_zero, sub_self, sub_zero, zero_add, pow_two]

theorem cylinder_turn (r hl : ℝ) : cylinderSet r hl .y = (fun p => cylinderSet r hl .x (turn p)) ∧
    cylinderSet r hl .z = (fun p => cylinderSet r hl .y (turn p)) := by
  constructor <;> funext p <;> simp [cylinderSet, Axis.vec, ex, ey, ez, V3.lengthSqr, dot, turn, add_comm]

theorem cylinder_mass_x (r hl : ℝ) (hr : 0 < r) (hh : 0 < hl) (m : ℝ) :
    volumeOf (cylinderSet r hl .x) = cylinderVolume r (hl * 2) ∧ centroidOf (cylinderSet r hl .x) = 0 ∧
      inertiaOf (cylinderSet r hl .x) m = M3.diagonal (solidCylinder m (hl * 2) r .x) := by
  have h := revolution_mass (L := hl) (B := r) (R := fun _ => r) hh.le (by fun_prop) (by intro x; rw [abs_of_pos hr])
    (fun _ => hr.le) (fun _ => rfl) (Real.pi * (2 * hl * r ^ 2)) (Real.pi * (hl * r ^ 4))
    (Real.pi * (2 / 3 * hl ^ 3 * r ^ 2 + hl * r ^ 4 / 2))
    (by rw [integral_of_poly _ _ (Real.pi * r ^ 2) 0 0 0 0 (by intro x; ring)]; ring)
    (by rw [integral_of_poly _ _ (Real.pi * r ^ 4 / 2) 0 0 0 0 (by intro x; ring)]; ring)
    (by rw [integral_of_poly _ _ (Real.pi * r ^ 4 / 4) 0 (Real.pi * r ^ 2) 0 0 (by intro x; ring)]; ring) m
  rw [cylinder_x]
  refine ⟨?_, h.2.1, ?_⟩
  · rw [h.1, cylinderVolume]
    ring
  · rw [h.2.2]
    have hp := Real.pi_pos
    simp only [M3.diagonal, solidCylinder, alongAxis]
    ext <;> simp only [] <;> field_simp <;> ring

theorem cylinder_mass (r hl : ℝ) (a : Axis) (hr : 0 < r) (hh : 0 < hl) (m : ℝ) :
    volumeOf (cylinderSet r hl a) = cylinderVolume r (hl * 2) ∧ centroidOf (cylinderSet r hl a) = 0 ∧
      inertiaOf (cylinderSet r hl a) m = M3.diagonal (solidCylinder m (hl * 2) r a) := by
  obtain ⟨v, c, i⟩ := cylinder_mass_x r hl hr hh m
  have hy := turn_mass _ m _ c i
  rw [← (cylinder_turn r hl).1] at hy
  have hz := turn_mass _ m _ hy.2.1 hy.2.2
  rw [← (cylinder_turn r hl).2] at hz
  cases a with
  | x => exact ⟨v, c, i⟩
  | y => exact ⟨hy.1.trans v, hy.2.1, hy.2.2⟩
  | z => exact ⟨hz.1.trans (hy.1.trans v), hz.2.1, hz.2.2⟩

end Edyn.Mass
