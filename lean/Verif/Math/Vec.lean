import Mathlib.Algebra.Field.Basic
import Mathlib.Tactic.Ring
import Mathlib.Tactic.LinearCombination

/-!
# Vectors, quaternions and matrices

`include/edyn/math/vector3.hpp`, `quaternion.hpp`, `matrix3x3.hpp` and `transform.hpp`.  Scalars are
elements of an arbitrary field instead of floating point numbers.
-/

namespace Edyn.Math

/-- `vector3`, `vector3.hpp` 12-44. -/
@[ext] structure V3 (T : Type) where
  x : T
  y : T
  z : T
deriving DecidableEq

/-- `quaternion`, `quaternion.hpp` 9-21. -/
@[ext] structure Quat (T : Type) where
  x : T
  y : T
  z : T
  w : T
deriving DecidableEq

/-- `matrix3x3`, `matrix3x3.hpp` 12-37: three rows. -/
@[ext] structure M3 (T : Type) where
  r0 : V3 T
  r1 : V3 T
  r2 : V3 T
deriving DecidableEq

variable {T : Type} [Field T]

namespace V3

/-- `operator+`, `vector3.hpp` 67-69. -/
instance : Add (V3 T) := ⟨fun v w => ⟨v.x + w.x, v.y + w.y, v.z + w.z⟩⟩
/-- `operator-`, `vector3.hpp` 80-82. -/
instance : Sub (V3 T) := ⟨fun v w => ⟨v.x - w.x, v.y - w.y, v.z - w.z⟩⟩
/-- Unary `operator-`, `vector3.hpp` 93-95. -/
instance : Neg (V3 T) := ⟨fun v => ⟨-v.x, -v.y, -v.z⟩⟩
/-- `vector3_zero`, `vector3.hpp` 46. -/
instance : Zero (V3 T) := ⟨⟨0, 0, 0⟩⟩

/-- `operator*` with a scalar, `vector3.hpp` 108-115. -/
def smul (s : T) (v : V3 T) : V3 T := ⟨s * v.x, s * v.y, s * v.z⟩

/-- `dot`, `vector3.hpp` 191-193. -/
def dot (v w : V3 T) : T := v.x * w.x + v.y * w.y + v.z * w.z

/-- `cross`, `vector3.hpp` 196-200. -/
def cross (v w : V3 T) : V3 T :=
  ⟨v.y * w.z - v.z * w.y, v.z * w.x - v.x * w.z, v.x * w.y - v.y * w.x⟩

/-- `length_sqr`, `vector3.hpp` 211-213. -/
def lengthSqr (v : V3 T) : T := dot v v

/-- `distance_sqr`, `vector3.hpp` 226-228. -/
def distanceSqr (v w : V3 T) : T := lengthSqr (v - w)

@[simp] theorem add_x (v w : V3 T) : (v + w).x = v.x + w.x := rfl
@[simp] theorem add_y (v w : V3 T) : (v + w).y = v.y + w.y := rfl
@[simp] theorem add_z (v w : V3 T) : (v + w).z = v.z + w.z := rfl
@[simp] theorem sub_x (v w : V3 T) : (v - w).x = v.x - w.x := rfl
@[simp] theorem sub_y (v w : V3 T) : (v - w).y = v.y - w.y := rfl
@[simp] theorem sub_z (v w : V3 T) : (v - w).z = v.z - w.z := rfl
@[simp] theorem neg_x (v : V3 T) : (-v).x = -v.x := rfl
@[simp] theorem neg_y (v : V3 T) : (-v).y = -v.y := rfl
@[simp] theorem neg_z (v : V3 T) : (-v).z = -v.z := rfl
@[simp] theorem zero_x : (0 : V3 T).x = 0 := rfl
@[simp] theorem zero_y : (0 : V3 T).y = 0 := rfl
@[simp] theorem zero_z : (0 : V3 T).z = 0 := rfl
@[simp] theorem smul_x (s : T) (v : V3 T) : (smul s v).x = s * v.x := rfl
@[simp] theorem smul_y (s : T) (v : V3 T) : (smul s v).y = s * v.y := rfl
@[simp] theorem smul_z (s : T) (v : V3 T) : (smul s v).z = s * v.z := rfl
@[simp] theorem cross_x (v w : V3 T) : (cross v w).x = v.y * w.z - v.z * w.y := rfl
@[simp] theorem cross_y (v w : V3 T) : (cross v w).y = v.z * w.x - v.x * w.z := rfl
@[simp] theorem cross_z (v w : V3 T) : (cross v w).z = v.x * w.y - v.y * w.x := rfl

end V3

open V3

namespace Quat

/-- Product, `quaternion.hpp` 74-81. -/
instance : Mul (Quat T) := ⟨fun q r =>
  ⟨q.w * r.x + q.x * r.w + q.y * r.z - q.z * r.y,
   q.w * r.y + q.y * r.w + q.z * r.x - q.x * r.z,
   q.w * r.z + q.z * r.w + q.x * r.y - q.y * r.x,
   q.w * r.w - q.x * r.x - q.y * r.y - q.z * r.z⟩⟩

/-- `quaternion_identity`, `quaternion.hpp` 23. -/
instance : One (Quat T) := ⟨⟨0, 0, 0, 1⟩⟩

/-- `length_sqr`, `quaternion.hpp` 119-121. -/
def lengthSqr (q : Quat T) : T := q.x * q.x + q.y * q.y + q.z * q.z + q.w * q.w

/-- `conjugate`, `quaternion.hpp` 140-142. -/
def conjugate (q : Quat T) : Quat T := ⟨-q.x, -q.y, -q.z, q.w⟩

/-- `rotate`, `quaternion.hpp` 145-149. -/
def rotate (q : Quat T) (v : V3 T) : V3 T :=
  let r : V3 T := ⟨q.x, q.y, q.z⟩
  v + cross (smul 2 r) (cross r v + smul q.w v)

@[simp] theorem mul_x (q r : Quat T) : (q * r).x = q.w * r.x + q.x * r.w + q.y * r.z - q.z * r.y := rfl
@[simp] theorem mul_y (q r : Quat T) : (q * r).y = q.w * r.y + q.y * r.w + q.z * r.x - q.x * r.z := rfl
@[simp] theorem mul_z (q r : Quat T) : (q * r).z = q.w * r.z + q.z * r.w + q.x * r.y - q.y * r.x := rfl
@[simp] theorem mul_w (q r : Quat T) : (q * r).w = q.w * r.w - q.x * r.x - q.y * r.y - q.z * r.z := rfl
@[simp] theorem one_x : (1 : Quat T).x = 0 := rfl
@[simp] theorem one_y : (1 : Quat T).y = 0 := rfl
@[simp] theorem one_z : (1 : Quat T).z = 0 := rfl
@[simp] theorem one_w : (1 : Quat T).w = 1 := rfl

end Quat

namespace M3

/-- `matrix3x3::column`, `matrix3x3.hpp` 25-27. -/
def column0 (m : M3 T) : V3 T := ⟨m.r0.x, m.r1.x, m.r2.x⟩
def column1 (m : M3 T) : V3 T := ⟨m.r0.y, m.r1.y, m.r2.y⟩
def column2 (m : M3 T) : V3 T := ⟨m.r0.z, m.r1.z, m.r2.z⟩

/-- `matrix3x3_identity`, `matrix3x3.hpp` 39. -/
instance : One (M3 T) := ⟨⟨⟨1, 0, 0⟩, ⟨0, 1, 0⟩, ⟨0, 0, 1⟩⟩⟩

/-- `operator*` of matrices, `matrix3x3.hpp` 58-64; `column_dot` 29-31 multiplies the column by the
vector entry by entry. -/
instance : Mul (M3 T) := ⟨fun m n =>
  ⟨⟨dot n.column0 m.r0, dot n.column1 m.r0, dot n.column2 m.r0⟩,
   ⟨dot n.column0 m.r1, dot n.column1 m.r1, dot n.column2 m.r1⟩,
   ⟨dot n.column0 m.r2, dot n.column1 m.r2, dot n.column2 m.r2⟩⟩⟩

/-- `operator*` of matrix and vector, `matrix3x3.hpp` 67-69. -/
def mulVec (m : M3 T) (v : V3 T) : V3 T := ⟨dot m.r0 v, dot m.r1 v, dot m.r2 v⟩

/-- `operator*` of vector and matrix, `matrix3x3.hpp` 73-75. -/
def vecMul (v : V3 T) (m : M3 T) : V3 T := ⟨dot m.column0 v, dot m.column1 v, dot m.column2 v⟩

/-- `operator*` of matrix and scalar, `matrix3x3.hpp` 78-80. -/
def scale (m : M3 T) (s : T) : M3 T := ⟨smul s m.r0, smul s m.r1, smul s m.r2⟩

/-- `determinant`, `matrix3x3.hpp` 33-35, `triple_product`, `vector3.hpp` 204-208. -/
def det (m : M3 T) : T := dot m.r0 (cross m.r1 m.r2)

/-- `transpose`, `matrix3x3.hpp` 163-165. -/
def transpose (m : M3 T) : M3 T := ⟨m.column0, m.column1, m.column2⟩

/-- `matrix3x3_columns`, `matrix3x3.hpp` 152-160. -/
def columns (v0 v1 v2 : V3 T) : M3 T := ⟨⟨v0.x, v1.x, v2.x⟩, ⟨v0.y, v1.y, v2.y⟩, ⟨v0.z, v1.z, v2.z⟩⟩

/-- `adjugate_matrix`, `matrix3x3.hpp` 168-175. -/
def adjugate (m : M3 T) : M3 T := columns (cross m.r1 m.r2) (cross m.r2 m.r0) (cross m.r0 m.r1)

/-- `inverse_matrix_symmetric`, `matrix3x3.hpp` 190-218; the assertions are hypotheses of the
theorems. -/
def inverseSymmetric (m : M3 T) : M3 T :=
  let d := 1 / m.det
  let a11 := m.r0.x
  let a12 := m.r0.y
  let a13 := m.r0.z
  let a22 := m.r1.y
  let a23 := m.r1.z
  let a33 := m.r2.z
  let m01 := d * (a13 * a23 - a12 * a33)
  let m02 := d * (a12 * a23 - a13 * a22)
  let m12 := d * (a12 * a13 - a11 * a23)
  ⟨⟨d * (a22 * a33 - a23 * a23), m01, m02⟩,
   ⟨m01, d * (a11 * a33 - a13 * a13), m12⟩,
   ⟨m02, m12, d * (a11 * a22 - a12 * a12)⟩⟩

/-- `diagonal_matrix`, `matrix3x3.hpp` 221-227. -/
def diagonal (v : V3 T) : M3 T := ⟨⟨v.x, 0, 0⟩, ⟨0, v.y, 0⟩, ⟨0, 0, v.z⟩⟩

/-- `scale_matrix`, `matrix3x3.hpp` 234-240. -/
def scaleColumns (m : M3 T) (v : V3 T) : M3 T :=
  ⟨⟨m.r0.x * v.x, m.r0.y * v.y, m.r0.z * v.z⟩,
   ⟨m.r1.x * v.x, m.r1.y * v.y, m.r1.z * v.z⟩,
   ⟨m.r2.x * v.x, m.r2.y * v.y, m.r2.z * v.z⟩⟩

/-- `skew_matrix`, `matrix3x3.hpp` 243-249. -/
def skew (v : V3 T) : M3 T := ⟨⟨0, -v.z, v.y⟩, ⟨v.z, 0, -v.x⟩, ⟨-v.y, v.x, 0⟩⟩

/-- `to_matrix3x3`, `matrix3x3.hpp` 252-265. -/
def ofQuat (q : Quat T) : M3 T :=
  let s := 2 / q.lengthSqr
  let xs := q.x * s
  let ys := q.y * s
  let zs := q.z * s
  let wx := q.w * xs
  let wy := q.w * ys
  let wz := q.w * zs
  let xx := q.x * xs
  let xy := q.x * ys
  let xz := q.x * zs
  let yy := q.y * ys
  let yz := q.y * zs
  let zz := q.z * zs
  ⟨⟨1 - (yy + zz), xy - wz, xz + wy⟩,
   ⟨xy + wz, 1 - (xx + zz), yz - wx⟩,
   ⟨xz - wy, yz + wx, 1 - (xx + yy)⟩⟩

end M3

/-- `to_object_space` with a matrix, `transform.hpp` 17-23. -/
def toObjectSpaceM (p pos : V3 T) (b : M3 T) : V3 T := M3.vecMul (p - pos) b

/-- `to_world_space` with a matrix, `transform.hpp` 32-35. -/
def toWorldSpaceM (p pos : V3 T) (b : M3 T) : V3 T := pos + M3.mulVec b p

/-- `to_object_space`, `transform.hpp` 37-40. -/
def toObjectSpace (p pos : V3 T) (orn : Quat T) : V3 T := Quat.rotate orn.conjugate (p - pos)

/-- `to_world_space`, `transform.hpp` 42-45. -/
def toWorldSpace (p pos : V3 T) (orn : Quat T) : V3 T := pos + Quat.rotate orn p

end Edyn.Math
