import Verif.Math.Rotation
import Mathlib.Data.Real.Basic
import Mathlib.Tactic.Linarith
import Mathlib.Tactic.Positivity

/-!
# Geometry over exact reals: common lemmas

Vectors of `Verif.Math.Vec` over `ℝ`.
-/

namespace Edyn.Geom

open Edyn.Math V3

/-- `vector3_x`, `vector3_y`, `vector3_z`, `vector3.hpp` 51-58. -/
def ex : V3 ℝ := ⟨1, 0, 0⟩
def ey : V3 ℝ := ⟨0, 1, 0⟩
def ez : V3 ℝ := ⟨0, 0, 1⟩

/-- `coordinate_axis`, `coordinate_axis.hpp` 14-16. -/
inductive Axis
  | x | y | z
deriving DecidableEq, Repr

/-- `coordinate_axis_vector`, `coordinate_axis.hpp` 23-34. -/
def Axis.vec : Axis → V3 ℝ
  | .x => ex
  | .y => ey
  | .z => ez

/-- The entries of a vector along the axis and along the two following ones:
`dir[cyl_ax_idx]`, `dir[cyl_ax_ortho_idx0]`, `dir[cyl_ax_ortho_idx1]` of `shape_util.cpp` 310-313. -/
def Axis.c0 : Axis → V3 ℝ → ℝ
  | .x, v => v.x
  | .y, v => v.y
  | .z, v => v.z
def Axis.c1 : Axis → V3 ℝ → ℝ
  | .x, v => v.y
  | .y, v => v.z
  | .z, v => v.x
def Axis.c2 : Axis → V3 ℝ → ℝ
  | .x, v => v.z
  | .y, v => v.x
  | .z, v => v.y

/-- The vector with the given entries along the axis and the two following ones. -/
def Axis.mk : Axis → ℝ → ℝ → ℝ → V3 ℝ
  | .x, a, b, c => ⟨a, b, c⟩
  | .y, a, b, c => ⟨c, a, b⟩
  | .z, a, b, c => ⟨b, c, a⟩

@[simp] theorem Axis.c0_mk (a : Axis) (x y z : ℝ) : a.c0 (a.mk x y z) = x := by cases a <;> rfl
@[simp] theorem Axis.c1_mk (a : Axis) (x y z : ℝ) : a.c1 (a.mk x y z) = y := by cases a <;> rfl
@[simp] theorem Axis.c2_mk (a : Axis) (x y z : ℝ) : a.c2 (a.mk x y z) = z := by cases a <;> rfl

theorem Axis.dot_eq (a : Axis) (v w : V3 ℝ) :
    dot v w = a.c0 v * a.c0 w + a.c1 v * a.c1 w + a.c2 v * a.c2 w := by
  cases a <;> simp only [dot, Axis.c0, Axis.c1, Axis.c2] <;> ring

theorem Axis.dot_vec (a : Axis) (v : V3 ℝ) : dot v a.vec = a.c0 v := by
  cases a <;> simp [dot, Axis.c0, Axis.vec, ex, ey, ez]

theorem Axis.vec_unit (a : Axis) : lengthSqr a.vec = 1 := by
  cases a <;> simp [lengthSqr, dot, Axis.vec, ex, ey, ez]

@[simp] theorem Axis.c0_sub_smul_vec (a : Axis) (v : V3 ℝ) (s : ℝ) :
    a.c0 (v - smul s a.vec) = a.c0 v - s := by
  cases a <;> simp [Axis.c0, Axis.vec, ex, ey, ez]
@[simp] theorem Axis.c1_sub_smul_vec (a : Axis) (v : V3 ℝ) (s : ℝ) :
    a.c1 (v - smul s a.vec) = a.c1 v := by
  cases a <;> simp [Axis.c1, Axis.vec, ex, ey, ez]
@[simp] theorem Axis.c2_sub_smul_vec (a : Axis) (v : V3 ℝ) (s : ℝ) :
    a.c2 (v - smul s a.vec) = a.c2 v := by
  cases a <;> simp [Axis.c2, Axis.vec, ex, ey, ez]

/-! ## Algebra of vectors -/

theorem dot_comm (v w : V3 ℝ) : dot v w = dot w v := by simp only [dot]; ring
theorem dot_add_left (u v w : V3 ℝ) : dot (u + v) w = dot u w + dot v w := by
  simp only [dot, add_x, add_y, add_z]; ring
theorem dot_add_right (u v w : V3 ℝ) : dot w (u + v) = dot w u + dot w v := by
  simp only [dot, add_x, add_y, add_z]; ring
theorem dot_sub_left (u v w : V3 ℝ) : dot (u - v) w = dot u w - dot v w := by
  simp only [dot, sub_x, sub_y, sub_z]; ring
theorem dot_sub_right (u v w : V3 ℝ) : dot w (u - v) = dot w u - dot w v := by
  simp only [dot, sub_x, sub_y, sub_z]; ring
theorem dot_smul_left (s : ℝ) (v w : V3 ℝ) : dot (smul s v) w = s * dot v w := by
  simp only [dot, smul_x, smul_y, smul_z]; ring
theorem dot_smul_right (s : ℝ) (v w : V3 ℝ) : dot w (smul s v) = s * dot w v := by
  simp only [dot, smul_x, smul_y, smul_z]; ring
theorem dot_neg_left (v w : V3 ℝ) : dot (-v) w = -dot v w := by
  simp only [dot, neg_x, neg_y, neg_z]; ring
theorem dot_neg_right (v w : V3 ℝ) : dot v (-w) = -dot v w := by
  simp only [dot, neg_x, neg_y, neg_z]; ring

theorem lengthSqr_nonneg (v : V3 ℝ) : 0 ≤ lengthSqr v := by
  simp only [lengthSqr, dot]; nlinarith [mul_self_nonneg v.x, mul_self_nonneg v.y, mul_self_nonneg v.z]

theorem lengthSqr_eq_zero {v : V3 ℝ} (h : lengthSqr v = 0) : v = 0 := by
  simp only [lengthSqr, dot] at h
  have hx := mul_self_nonneg v.x
  have hy := mul_self_nonneg v.y
  have hz := mul_self_nonneg v.z
  ext
  · exact mul_self_eq_zero.mp (by linarith)
  · exact mul_self_eq_zero.mp (by linarith)
  · exact mul_self_eq_zero.mp (by linarith)

/-- Cauchy-Schwarz. -/
theorem dot_sq_le (v w : V3 ℝ) : dot v w * dot v w ≤ lengthSqr v * lengthSqr w := by
  simp only [lengthSqr, dot]
  nlinarith [mul_self_nonneg (v.x * w.y - v.y * w.x), mul_self_nonneg (v.y * w.z - v.z * w.y),
    mul_self_nonneg (v.z * w.x - v.x * w.z)]

theorem dot_le_of_unit {v w : V3 ℝ} {r : ℝ} (hr : 0 ≤ r) (hv : lengthSqr v ≤ r * r)
    (hw : lengthSqr w = 1) : dot v w ≤ r ∧ -r ≤ dot v w := by
  have h := dot_sq_le v w
  rw [hw] at h
  constructor <;> nlinarith

/-- A rotation moves to the other factor of a dot product as its inverse. -/
theorem dot_rotate {q : Quat ℝ} (hq : q.lengthSqr = 1) (v w : V3 ℝ) :
    dot (Quat.rotate q v) w = dot v (Quat.rotate q.conjugate w) := by
  have h := rotate_dot q hq v (Quat.rotate q.conjugate w)
  rw [(rotate_conjugate q hq w).2] at h
  exact h

theorem conjugate_unit {q : Quat ℝ} (hq : q.lengthSqr = 1) : q.conjugate.lengthSqr = 1 := by
  rw [lengthSqr_conjugate]; exact hq

theorem rotate_unit {q : Quat ℝ} (hq : q.lengthSqr = 1) {v : V3 ℝ} (hv : lengthSqr v = 1) :
    lengthSqr (Quat.rotate q v) = 1 := by
  rw [rotate_length q hq]; exact hv

theorem x_eq_dot (v : V3 ℝ) : v.x = dot v ex := by simp [dot, ex]
theorem y_eq_dot (v : V3 ℝ) : v.y = dot v ey := by simp [dot, ey]
theorem z_eq_dot (v : V3 ℝ) : v.z = dot v ez := by simp [dot, ez]

theorem ex_unit : lengthSqr ex = 1 := by simp [lengthSqr, dot, ex]
theorem ey_unit : lengthSqr ey = 1 := by simp [lengthSqr, dot, ey]
theorem ez_unit : lengthSqr ez = 1 := by simp [lengthSqr, dot, ez]

end Edyn.Geom
