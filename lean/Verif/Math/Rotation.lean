import Verif.Math.Vec
import Mathlib.Tactic.FieldSimp
import Mathlib.Algebra.Field.Rat

/-!
# Rotations (C48)

Algebra of `rotate`, `conjugate`, the quaternion product, `to_matrix3x3`, matrix inverses and the
changes between object space and world space.  All identities hold in every field.
-/

namespace Edyn.Math

open V3 Quat

variable {T : Type} [Field T]

/-- Unfold everything to components. -/
macro "vsimp" : tactic => `(tactic| simp only [V3.dot, V3.lengthSqr, Quat.lengthSqr, Quat.rotate,
  Quat.conjugate, V3.add_x, V3.add_y, V3.add_z, V3.sub_x, V3.sub_y, V3.sub_z, V3.neg_x, V3.neg_y,
  V3.neg_z, V3.smul_x, V3.smul_y, V3.smul_z, V3.cross_x, V3.cross_y, V3.cross_z, Quat.mul_x,
  Quat.mul_y, Quat.mul_z, Quat.mul_w] at *)

/-! ### Quaternions -/

/-- Rotation by a unit quaternion preserves dot products. -/
theorem rotate_dot (q : Quat T) (h : q.lengthSqr = 1) (v w : V3 T) :
    dot (rotate q v) (rotate q w) = dot v w := by
  obtain ⟨a, b, c, d⟩ := q
  obtain ⟨v1, v2, v3⟩ := v
  obtain ⟨w1, w2, w3⟩ := w
  vsimp
  have hd : d * d = 1 - (a * a + b * b + c * c) := by linear_combination h
  linear_combination (4 * ((b * v3 - c * v2) * (b * w3 - c * w2) + (c * v1 - a * v3) * (c * w1 - a * w3)
    + (a * v2 - b * v1) * (a * w2 - b * w1))) * h

/-- Rotation by a unit quaternion preserves length. -/
theorem rotate_length (q : Quat T) (h : q.lengthSqr = 1) (v : V3 T) :
    V3.lengthSqr (rotate q v) = V3.lengthSqr v := rotate_dot q h v v

/-- Lengths of quaternions multiply. -/
theorem lengthSqr_mul (q r : Quat T) : (q * r).lengthSqr = q.lengthSqr * r.lengthSqr := by
  vsimp
  ring

theorem lengthSqr_conjugate (q : Quat T) : q.conjugate.lengthSqr = q.lengthSqr := by
  vsimp
  ring

/-- The vector part of `q * v * conjugate q`. -/
def sandwich (q : Quat T) (v : V3 T) : V3 T :=
  smul q.lengthSqr v + cross (smul 2 ⟨q.x, q.y, q.z⟩) (cross ⟨q.x, q.y, q.z⟩ v + smul q.w v)

theorem rotate_eq_sandwich (q : Quat T) (h : q.lengthSqr = 1) (v : V3 T) :
    rotate q v = sandwich q v := by
  simp only [rotate, sandwich, h]
  congr 1
  ext <;> simp

/-- `sandwich` is what its name says: the product of quaternions with `v` as a quaternion without real
part. -/
theorem sandwich_eq (q : Quat T) (v : V3 T) :
    q * ⟨v.x, v.y, v.z, 0⟩ * q.conjugate = ⟨(sandwich q v).x, (sandwich q v).y, (sandwich q v).z, 0⟩ := by
  ext <;> simp only [sandwich] <;> vsimp <;> ring

theorem sandwich_mul (q r : Quat T) (v : V3 T) : sandwich (q * r) v = sandwich q (sandwich r v) := by
  ext <;> simp only [sandwich] <;> vsimp <;> ring

/-- The product of quaternions is the composition of rotations. -/
theorem rotate_mul (q r : Quat T) (hq : q.lengthSqr = 1) (hr : r.lengthSqr = 1) (v : V3 T) :
    rotate (q * r) v = rotate q (rotate r v) := by
  rw [rotate_eq_sandwich q hq, rotate_eq_sandwich r hr, rotate_eq_sandwich, sandwich_mul]
  rw [lengthSqr_mul, hq, hr, one_mul]

theorem rotate_one (v : V3 T) : rotate 1 v = v := by
  ext <;> simp [rotate]

/-- A quaternion times its conjugate. -/
theorem mul_conjugate (q : Quat T) (h : q.lengthSqr = 1) : q * q.conjugate = 1 ∧ q.conjugate * q = 1 := by
  constructor <;> ext <;> simp <;> vsimp <;> first | ring1 | linear_combination h

/-- Rotating a vector and rotating back with the conjugate gives the vector, in both orders. -/
theorem rotate_conjugate (q : Quat T) (h : q.lengthSqr = 1) (v : V3 T) :
    rotate q.conjugate (rotate q v) = v ∧ rotate q (rotate q.conjugate v) = v := by
  have h' : q.conjugate.lengthSqr = 1 := by rw [lengthSqr_conjugate, h]
  constructor
  · rw [← rotate_mul _ _ h' h, (mul_conjugate q h).2, rotate_one]
  · rw [← rotate_mul _ _ h h', (mul_conjugate q h).1, rotate_one]

/-- Rotations are linear. -/
theorem rotate_add (q : Quat T) (v w : V3 T) : rotate q (v + w) = rotate q v + rotate q w := by
  ext <;> vsimp <;> ring

theorem rotate_smul (q : Quat T) (s : T) (v : V3 T) : rotate q (smul s v) = smul s (rotate q v) := by
  ext <;> vsimp <;> ring

theorem rotate_neg (q : Quat T) (v : V3 T) : rotate q (-v) = -rotate q v := by
  ext <;> vsimp <;> ring

theorem rotate_sub (q : Quat T) (v w : V3 T) : rotate q (v - w) = rotate q v - rotate q w := by
  ext <;> vsimp <;> ring

/-- Rotations keep the handedness of frames. -/
theorem rotate_cross (q : Quat T) (h : q.lengthSqr = 1) (v w : V3 T) :
    rotate q (cross v w) = cross (rotate q v) (rotate q w) := by
  have key : smul q.lengthSqr (sandwich q (cross v w)) = cross (sandwich q v) (sandwich q w) := by
    ext <;> simp only [sandwich] <;> vsimp <;> ring
  rw [rotate_eq_sandwich q h, rotate_eq_sandwich q h, rotate_eq_sandwich q h, ← key, h]
  ext <;> simp

/-- A quaternion and its negation rotate alike. -/
theorem rotate_neg_quat (q : Quat T) (v : V3 T) :
    rotate (⟨-q.x, -q.y, -q.z, -q.w⟩ : Quat T) v = rotate q v := by
  ext <;> vsimp <;> ring

/-! ### Matrices -/

macro "msimp" : tactic => `(tactic| simp only [M3.mulVec, M3.vecMul, M3.column0, M3.column1, M3.column2,
  M3.transpose, M3.scale, M3.det, M3.columns, M3.adjugate, M3.diagonal, M3.scaleColumns, M3.skew] at *)

theorem M3.mul_def (m n : M3 T) : m * n =
    ⟨⟨dot n.column0 m.r0, dot n.column1 m.r0, dot n.column2 m.r0⟩,
     ⟨dot n.column0 m.r1, dot n.column1 m.r1, dot n.column2 m.r1⟩,
     ⟨dot n.column0 m.r2, dot n.column1 m.r2, dot n.column2 m.r2⟩⟩ := rfl

theorem M3.one_def : (1 : M3 T) = ⟨⟨1, 0, 0⟩, ⟨0, 1, 0⟩, ⟨0, 0, 1⟩⟩ := rfl

/-- The product of matrices is the composition of the maps. -/
theorem M3.mul_mulVec (m n : M3 T) (v : V3 T) : M3.mulVec (m * n) v = M3.mulVec m (M3.mulVec n v) := by
  rw [M3.mul_def]
  ext <;> msimp <;> vsimp <;> ring

theorem M3.one_mulVec (v : V3 T) : M3.mulVec 1 v = v := by
  rw [M3.one_def]
  ext <;> msimp <;> vsimp <;> ring

/-- Multiplication of a matrix from the left is multiplication with the transpose. -/
theorem M3.vecMul_eq (m : M3 T) (v : V3 T) : M3.vecMul v m = M3.mulVec m.transpose v := rfl

theorem M3.transpose_transpose (m : M3 T) : m.transpose.transpose = m := rfl

theorem M3.mul_diagonal (m : M3 T) (v : V3 T) : m * M3.diagonal v = M3.scaleColumns m v := by
  rw [M3.mul_def]
  ext <;> msimp <;> vsimp <;> ring

/-- The skew matrix of a vector is the cross product with it. -/
theorem M3.skew_mulVec (v w : V3 T) : M3.mulVec (M3.skew v) w = cross v w := by
  ext <;> msimp <;> vsimp <;> ring

/-- The matrix of a quaternion of any non-zero length rotates like the normalized quaternion: lengths
cancel. -/
theorem M3.ofQuat_mulVec (q : Quat T) (h : q.lengthSqr ≠ 0) (v : V3 T) :
    smul q.lengthSqr (M3.mulVec (M3.ofQuat q) v) = sandwich q v := by
  have e : q.lengthSqr * (2 / q.lengthSqr) = 2 := by field_simp
  obtain ⟨a, b, c, d⟩ := q
  obtain ⟨v1, v2, v3⟩ := v
  generalize hs : 2 / (Quat.lengthSqr (⟨a, b, c, d⟩ : Quat T)) = s at e
  ext <;> simp only [M3.ofQuat, sandwich, M3.mulVec, V3.dot, smul_x, smul_y, smul_z, add_x, add_y, add_z,
    cross_x, cross_y, cross_z, hs] <;> vsimp
  · linear_combination (-(b * b + c * c) * v1 + (a * b - d * c) * v2 + (a * c + d * b) * v3) * e
  · linear_combination ((a * b + d * c) * v1 - (a * a + c * c) * v2 + (b * c - d * a) * v3) * e
  · linear_combination ((a * c - d * b) * v1 + (b * c + d * a) * v2 - (a * a + b * b) * v3) * e

/-- `to_matrix3x3` agrees with `rotate`. -/
theorem M3.ofQuat_rotate (q : Quat T) (h : q.lengthSqr = 1) (v : V3 T) :
    M3.mulVec (M3.ofQuat q) v = rotate q v := by
  rw [rotate_eq_sandwich q h, ← M3.ofQuat_mulVec q (by rw [h]; exact one_ne_zero), h]
  ext <;> simp

theorem M3.ext_mulVec {m n : M3 T} (h : ∀ v, M3.mulVec m v = M3.mulVec n v) : m = n := by
  have h0 := h ⟨1, 0, 0⟩
  have h1 := h ⟨0, 1, 0⟩
  have h2 := h ⟨0, 0, 1⟩
  simp only [M3.mulVec, V3.dot, V3.mk.injEq] at h0 h1 h2
  ext <;> simp_all

theorem smul_cancel {s : T} (h : s ≠ 0) {v w : V3 T} (e : smul s v = smul s w) : v = w := by
  simp only [smul, V3.mk.injEq] at e
  ext
  · exact mul_left_cancel₀ h e.1
  · exact mul_left_cancel₀ h e.2.1
  · exact mul_left_cancel₀ h e.2.2

/-- The matrix of a product is the product of the matrices, for quaternions of any non-zero length. -/
theorem M3.ofQuat_mul (q r : Quat T) (hq : q.lengthSqr ≠ 0) (hr : r.lengthSqr ≠ 0) :
    M3.ofQuat (q * r) = M3.ofQuat q * M3.ofQuat r := by
  have hqr : (q * r).lengthSqr ≠ 0 := by rw [lengthSqr_mul]; exact mul_ne_zero hq hr
  refine M3.ext_mulVec fun v => smul_cancel hqr ?_
  rw [M3.ofQuat_mulVec _ hqr, sandwich_mul, ← M3.ofQuat_mulVec _ hq, M3.mul_mulVec]
  have h2 : sandwich r v = smul r.lengthSqr (M3.mulVec (M3.ofQuat r) v) := (M3.ofQuat_mulVec r hr v).symm
  rw [h2, lengthSqr_mul]
  ext <;> simp only [M3.mulVec, V3.dot, smul_x, smul_y, smul_z] <;> ring

theorem M3.ofQuat_conjugate (q : Quat T) : M3.ofQuat q.conjugate = (M3.ofQuat q).transpose := by
  simp only [M3.ofQuat, lengthSqr_conjugate, M3.transpose, M3.column0, M3.column1, M3.column2]
  simp only [Quat.conjugate]
  ext <;> simp only [] <;> ring

/-- The matrix of a quaternion is orthogonal and has determinant one. -/
theorem M3.ofQuat_orthogonal (q : Quat T) (h : q.lengthSqr ≠ 0) :
    (M3.ofQuat q).transpose * M3.ofQuat q = 1 ∧ M3.ofQuat q * (M3.ofQuat q).transpose = 1 := by
  have hc : q.conjugate.lengthSqr ≠ 0 := by rwa [lengthSqr_conjugate]
  rw [← M3.ofQuat_conjugate, ← M3.ofQuat_mul _ _ hc h, ← M3.ofQuat_mul _ _ h hc]
  have e : ∀ r : Quat T, r.x = 0 → r.y = 0 → r.z = 0 → M3.ofQuat r = 1 := by
    intro r h1 h2 h3
    rw [M3.one_def]
    ext <;> simp [M3.ofQuat, h1, h2, h3]
  constructor
  · apply e <;> vsimp <;> ring
  · apply e <;> vsimp <;> ring

theorem M3.ofQuat_det (q : Quat T) (h : q.lengthSqr ≠ 0) : (M3.ofQuat q).det = 1 := by
  have e : q.lengthSqr * (2 / q.lengthSqr) = 2 := by field_simp
  obtain ⟨a, b, c, d⟩ := q
  generalize hs : 2 / (Quat.lengthSqr (⟨a, b, c, d⟩ : Quat T)) = s at e
  simp only [M3.ofQuat, M3.det, V3.dot, cross_x, cross_y, cross_z, hs]
  vsimp
  linear_combination (s * (a * a + b * b + c * c)) * e

/-- Changing to world space and back, and to object space and back, with an orientation. -/
theorem world_object_round_trip (p pos : V3 T) (orn : Quat T) (h : orn.lengthSqr = 1) :
    toObjectSpace (toWorldSpace p pos orn) pos orn = p ∧
    toWorldSpace (toObjectSpace p pos orn) pos orn = p := by
  constructor
  · have : pos + rotate orn p - pos = rotate orn p := by ext <;> simp
    rw [toObjectSpace, toWorldSpace, this, (rotate_conjugate orn h p).1]
  · rw [toObjectSpace, toWorldSpace, (rotate_conjugate orn h _).2]
    ext <;> simp

/-- The same with the matrix of the orientation. -/
theorem world_object_round_trip_matrix (p pos : V3 T) (orn : Quat T) (h : orn.lengthSqr ≠ 0) :
    toObjectSpaceM (toWorldSpaceM p pos (M3.ofQuat orn)) pos (M3.ofQuat orn) = p ∧
    toWorldSpaceM (toObjectSpaceM p pos (M3.ofQuat orn)) pos (M3.ofQuat orn) = p := by
  obtain ⟨h1, h2⟩ := M3.ofQuat_orthogonal orn h
  constructor
  · have : pos + M3.mulVec (M3.ofQuat orn) p - pos = M3.mulVec (M3.ofQuat orn) p := by ext <;> simp
    rw [toObjectSpaceM, toWorldSpaceM, this, M3.vecMul_eq, ← M3.mul_mulVec, h1, M3.one_mulVec]
  · rw [toObjectSpaceM, toWorldSpaceM, M3.vecMul_eq, ← M3.mul_mulVec, h2, M3.one_mulVec]
    ext <;> simp

/-- Both versions of the change of space agree. -/
theorem spaces_agree (p pos : V3 T) (orn : Quat T) (h : orn.lengthSqr = 1) :
    toWorldSpaceM p pos (M3.ofQuat orn) = toWorldSpace p pos orn ∧
    toObjectSpaceM p pos (M3.ofQuat orn) = toObjectSpace p pos orn := by
  constructor
  · rw [toWorldSpaceM, toWorldSpace, M3.ofQuat_rotate orn h]
  · rw [toObjectSpaceM, toObjectSpace, M3.vecMul_eq, ← M3.ofQuat_conjugate, M3.ofQuat_rotate]
    rw [lengthSqr_conjugate, h]

/-! ### Inverses -/

theorem M3.mul_adjugate (m : M3 T) : m * m.adjugate = (1 : M3 T).scale m.det ∧
    m.adjugate * m = (1 : M3 T).scale m.det := by
  rw [M3.mul_def, M3.mul_def, M3.one_def]
  constructor <;> ext <;> msimp <;> vsimp <;> ring

/-- `inverse_matrix_symmetric` inverts symmetric matrices with non-zero determinant. -/
theorem M3.inverseSymmetric_spec (m : M3 T) (h01 : m.r0.y = m.r1.x) (h02 : m.r0.z = m.r2.x)
    (h12 : m.r1.z = m.r2.y) (hd : m.det ≠ 0) :
    m * m.inverseSymmetric = 1 ∧ m.inverseSymmetric * m = 1 := by
  obtain ⟨⟨a, b, c⟩, ⟨b', d, e⟩, ⟨c', e', f⟩⟩ := m
  simp only at h01 h02 h12
  subst h01 h02 h12
  have key : (1 / M3.det ⟨⟨a, b, c⟩, ⟨b, d, e⟩, ⟨c, e, f⟩⟩) * M3.det ⟨⟨a, b, c⟩, ⟨b, d, e⟩, ⟨c, e, f⟩⟩ = 1 := by
    field_simp
  generalize hs : 1 / M3.det ⟨⟨a, b, c⟩, ⟨b, d, e⟩, ⟨c, e, f⟩⟩ = s at key
  rw [M3.mul_def, M3.mul_def, M3.one_def]
  simp only [M3.inverseSymmetric, hs]
  constructor <;> ext <;> msimp <;> vsimp <;> first | ring1 | linear_combination key

/-- A unit quaternion, and a rotation by it that is not trivial. -/
example : Quat.lengthSqr (⟨1, 1, 1, 1⟩ : Quat ℚ) = 4 ∧ M3.mulVec (M3.ofQuat (⟨1, 1, 1, 1⟩ : Quat ℚ)) ⟨1, 2, 3⟩ = ⟨3, 1, 2⟩ := by
  decide +kernel

example : Quat.lengthSqr (⟨3 / 5, 0, 0, 4 / 5⟩ : Quat ℚ) = 1 ∧
    rotate (⟨3 / 5, 0, 0, 4 / 5⟩ : Quat ℚ) ⟨1, 25, 0⟩ = ⟨1, 7, 24⟩ := by
  decide +kernel

example : M3.det (⟨⟨2, 1, 0⟩, ⟨1, 2, 1⟩, ⟨0, 1, 2⟩⟩ : M3 ℚ) = 4 := by decide +kernel

end Edyn.Math
