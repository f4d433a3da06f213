import Verif.Solver.Momentum
import Mathlib.Algebra.Order.Ring.Rat

/-!
# The Jacobians of the built-in constraints (C57)

The parts of the `prepare` functions in `src/edyn/constraints/*.cpp` that fill in `row.J`.  Directions
that are found with a square root or an inverse trigonometric function (normalised axes, tangents of a
plane, the direction of a cone) are parameters.
-/

namespace Edyn.Solver

open Edyn.Math V3

variable {T : Type} [Field T] [LinearOrder T] [IsStrictOrderedRing T]

/-- `constraint_body`, `constraint_body.hpp` 10-18: origin, position of the centre of mass and
orientation. -/
structure CBody (T : Type) where
  origin : V3 T
  pos : V3 T
  orn : Quat T

/-- `to_world_space(pivot, body.origin, body.orn)`. -/
def CBody.world (b : CBody T) (pivot : V3 T) : V3 T := toWorldSpace pivot b.origin b.orn

/-- `rA` or `rB`: the arm of a pivot. -/
def CBody.arm (b : CBody T) (pivot : V3 T) : V3 T := b.world pivot - b.pos

/-- `{vector3_zero, axis, vector3_zero, -axis}`. -/
def coupleJac (axis : V3 T) : Jac T := ⟨0, axis, 0, -axis⟩

/-- `contact_constraint::prepare`, `contact_constraint.cpp` 15-56; `t0`, `t1` are the results of
`plane_space`. -/
def contactJacs (A B : CBody T) (pivotA pivotB normal t0 t1 : V3 T) : List (Jac T) :=
  let rA := A.arm pivotA
  let rB := B.arm pivotB
  [⟨normal, rA.cross normal, -normal, -(rB.cross normal)⟩,
   ⟨t0, rA.cross t0, -t0, -(rB.cross t0)⟩, ⟨t1, rA.cross t1, -t1, -(rB.cross t1)⟩]

/-- `contact_extras_constraint::prepare`, `contact_extras_constraint.cpp` 36-79: rolling friction about
the two axes and spinning friction about the normal. -/
def contactExtrasJacs (A B : CBody T) (pivotA pivotB normal t0 t1 axis0 axis1 : V3 T) : List (Jac T) :=
  contactJacs A B pivotA pivotB normal t0 t1 ++
    [coupleJac axis0, coupleJac axis1, angularOnly normal (-normal)]

/-- `distance_constraint::prepare`, `distance_constraint.cpp` 7-33. -/
def distanceJacs (eps : T) (A B : CBody T) (pivotA pivotB : V3 T) : List (Jac T) :=
  let d₀ := A.world pivotA - B.world pivotB
  let d := if eps < d₀.lengthSqr then d₀ else ⟨1, 0, 0⟩
  [⟨d, (A.arm pivotA).cross d, -d, -((B.arm pivotB).cross d)⟩]

/-- `soft_distance_constraint::prepare`, `soft_distance_constraint.cpp` 8-63; `root` is `std::sqrt`. -/
def softDistanceJacs (root : T → T) (eps : T) (A B : CBody T) (pivotA pivotB : V3 T) : List (Jac T) :=
  let d := A.world pivotA - B.world pivotB
  let dn := if eps < d.lengthSqr then d.smul (1 / root d.lengthSqr) else ⟨1, 0, 0⟩
  let J : Jac T := ⟨dn, (A.arm pivotA).cross dn, -dn, -((B.arm pivotB).cross dn)⟩
  [J, J]

/-- `gravity_constraint::prepare`, `gravity_constraint.cpp` 6-28. -/
def gravityJacs (root : T → T) (eps : T) (A B : CBody T) : List (Jac T) :=
  let d := A.pos - B.pos
  let dn := d.smul (1 / root (max d.lengthSqr eps))
  [⟨dn, 0, -dn, -0⟩]

/-- Rows of `point_constraint.cpp` 22-31, `hinge_constraint.cpp` 40-47 and `cvjoint_constraint.cpp`
59-66: rows of the identity matrix and of the skew matrices of the arms. -/
def pivotJacs (A B : CBody T) (pivotA pivotB : V3 T) : List (Jac T) :=
  let sA := M3.skew (A.arm pivotA)
  let sB := M3.skew (B.arm pivotB)
  let I : M3 T := 1
  [⟨I.r0, -sA.r0, -I.r0, sB.r0⟩, ⟨I.r1, -sA.r1, -I.r1, sB.r1⟩, ⟨I.r2, -sA.r2, -I.r2, sB.r2⟩]

/-- `point_constraint::prepare`, `point_constraint.cpp` 9-46; `spinAxis` is there if there is friction
and relative spin. -/
def pointJacs (A B : CBody T) (pivotA pivotB : V3 T) (spinAxis : Option (V3 T)) : List (Jac T) :=
  pivotJacs A B pivotA pivotB ++ spinAxis.toList.map coupleJac

/-- `hinge_constraint::prepare`, `hinge_constraint.cpp` 26-178: `frameA` is `frame[0]`, `extra` is the
number of rows along the hinge axis. -/
def hingeJacs (A B : CBody T) (pivotA pivotB : V3 T) (frameA : M3 T) (extra : Nat) : List (Jac T) :=
  pivotJacs A B pivotA pivotB ++
    [coupleJac (A.orn.rotate frameA.column1), coupleJac (A.orn.rotate frameA.column2)] ++
    List.replicate extra (coupleJac (A.orn.rotate frameA.column0))

/-- `cone_constraint::prepare`, `cone_constraint.cpp` 12-94; the point on the cone and its normal are
parameters. -/
def coneJacs (A B : CBody T) (pointOnConeA pivotB normal : V3 T) (bump : Bool) : List (Jac T) :=
  let J : Jac T := ⟨normal, (A.arm pointOnConeA).cross normal, -normal, -((B.arm pivotB).cross normal)⟩
  if bump then [J, J] else [J]

/-- `cvjoint_constraint::prepare`, `cvjoint_constraint.cpp` 45-228: `twist` rows along the twist axes of
the two bodies, and rows about the bending axes. -/
def cvjointJacs (A B : CBody T) (pivotA pivotB : V3 T) (frameA frameB : M3 T) (twist : Nat)
    (bend : List (V3 T)) : List (Jac T) :=
  pivotJacs A B pivotA pivotB ++
    List.replicate twist ⟨0, A.orn.rotate frameA.column0, 0, -(B.orn.rotate frameB.column0)⟩ ++
    bend.map coupleJac

/-- `generic_constraint::prepare`, `generic_constraint.cpp` 10-250: rows along the axes of A, the first
angular degree of freedom about the `x` axes of both bodies, and the other two about `axis1` and
`axis2`. -/
def genericJacs (A B : CBody T) (pivotA pivotB : V3 T) (frameA frameB : M3 T) (axis1 axis2 : V3 T)
    (lin0 lin1 lin2 ang0 ang1 ang2 : Nat) : List (Jac T) :=
  let lin (axis : V3 T) : Jac T :=
    ⟨axis, (A.arm pivotA).cross axis, -axis, -((B.arm pivotB).cross axis)⟩
  List.replicate lin0 (lin (A.orn.rotate frameA.column0)) ++
  List.replicate lin1 (lin (A.orn.rotate frameA.column1)) ++
  List.replicate lin2 (lin (A.orn.rotate frameA.column2)) ++
  List.replicate ang0 ⟨0, A.orn.rotate frameA.column0, 0, -(B.orn.rotate frameB.column0)⟩ ++
  List.replicate ang1 (coupleJac (-axis1)) ++ List.replicate ang2 (coupleJac (-axis2))

/-- A constraint in any state: its kind, parameters and the directions that `prepare` found. -/
inductive Con (T : Type)
  | contact (pivotA pivotB normal t0 t1 : V3 T)
  | contactExtras (pivotA pivotB normal t0 t1 axis0 axis1 : V3 T)
  | distance (pivotA pivotB : V3 T)
  | softDistance (pivotA pivotB : V3 T)
  | gravity
  | point (pivotA pivotB : V3 T) (spinAxis : Option (V3 T))
  | hinge (pivotA pivotB : V3 T) (frameA : M3 T) (extra : Nat)
  | cone (pointOnConeA pivotB normal : V3 T) (bump : Bool)
  | cvjoint (pivotA pivotB : V3 T) (frameA frameB : M3 T) (twist : Nat) (bend : List (V3 T))
  | generic (pivotA pivotB : V3 T) (frameA frameB : M3 T) (axis1 axis2 : V3 T)
      (lin0 lin1 lin2 ang0 ang1 ang2 : Nat)

/-- The Jacobians of the rows a constraint makes; `constraints_tuple_t`, `constraint.hpp` 23-34. -/
def Con.jacs (root : T → T) (eps : T) (A B : CBody T) : Con T → List (Jac T)
  | .contact pA pB n t0 t1 => contactJacs A B pA pB n t0 t1
  | .contactExtras pA pB n t0 t1 a0 a1 => contactExtrasJacs A B pA pB n t0 t1 a0 a1
  | .distance pA pB => distanceJacs eps A B pA pB
  | .softDistance pA pB => softDistanceJacs root eps A B pA pB
  | .gravity => gravityJacs root eps A B
  | .point pA pB s => pointJacs A B pA pB s
  | .hinge pA pB f k => hingeJacs A B pA pB f k
  | .cone pA pB n b => coneJacs A B pA pB n b
  | .cvjoint pA pB fA fB k l => cvjointJacs A B pA pB fA fB k l
  | .generic pA pB fA fB x1 x2 a b c d e f => genericJacs A B pA pB fA fB x1 x2 a b c d e f

/-- The moment, about the origin, of the pair of impulses along a Jacobian. -/
def moment (A B : CBody T) (J : Jac T) : V3 T :=
  A.pos.cross J.linA + J.angA + B.pos.cross J.linB + J.angB

/-! ### Linear momentum -/

/-- **C57**, linear part.  Every row of every built-in constraint pushes the two bodies with opposite
impulses. -/
theorem builtin_constraints_push_oppositely (root : T → T) (eps : T) (A B : CBody T) (con : Con T)
    (J : Jac T) (h : J ∈ con.jacs root eps A B) : J.linB = -J.linA := by
  have z : (0 : V3 T) = -0 := neg_zero.symm
  cases con <;>
    simp only [Con.jacs, contactJacs, contactExtrasJacs, distanceJacs, softDistanceJacs, gravityJacs,
      pointJacs, pivotJacs, hingeJacs, coneJacs, cvjointJacs, genericJacs, List.mem_append, List.mem_cons,
      List.not_mem_nil, or_false, List.mem_map, List.mem_replicate, Option.mem_toList] at h
  case contact => rcases h with rfl | rfl | rfl <;> rfl
  case contactExtras =>
    rcases h with (rfl | rfl | rfl) | rfl | rfl | rfl <;> first | rfl | exact z
  case distance => subst h; rfl
  case softDistance => rcases h with rfl | rfl <;> rfl
  case gravity => subst h; rfl
  case point => rcases h with (rfl | rfl | rfl) | ⟨a, -, rfl⟩ <;> first | rfl | exact z
  case hinge =>
    rcases h with ((rfl | rfl | rfl) | rfl | rfl) | ⟨-, rfl⟩ <;> first | rfl | exact z
  case cone => split at h <;> simp at h <;> subst h <;> rfl
  case cvjoint =>
    rcases h with ((rfl | rfl | rfl) | ⟨-, rfl⟩) | ⟨a, -, rfl⟩ <;> first | rfl | exact z
  case generic =>
    rcases h with ((((⟨-, rfl⟩ | ⟨-, rfl⟩) | ⟨-, rfl⟩) | ⟨-, rfl⟩) | ⟨-, rfl⟩) | ⟨-, rfl⟩ <;>
      first | rfl | exact z

/-! ### Angular momentum -/

theorem couple_moment (A B : CBody T) (axis : V3 T) : moment A B (coupleJac axis) = 0 := by
  ext <;> simp [moment, coupleJac]

theorem line_moment (A B : CBody T) (pivotA pivotB d : V3 T) :
    moment A B ⟨d, (A.arm pivotA).cross d, -d, -((B.arm pivotB).cross d)⟩ =
      (A.world pivotA - B.world pivotB).cross d := by
  ext <;> simp [moment, CBody.arm] <;> ring

theorem pivot_moment (A B : CBody T) (pivotA pivotB : V3 T) (J : Jac T)
    (h : J ∈ pivotJacs A B pivotA pivotB) (hp : A.world pivotA = B.world pivotB) : moment A B J = 0 := by
  have hx := congrArg V3.x hp
  have hy := congrArg V3.y hp
  have hz := congrArg V3.z hp
  simp only [pivotJacs, List.mem_cons, List.not_mem_nil, or_false] at h
  rcases h with rfl | rfl | rfl <;> ext <;>
    simp [moment, M3.skew, CBody.arm, M3.one_def] <;>
    first
      | done
      | linear_combination hx
      | linear_combination -hx
      | linear_combination hy
      | linear_combination -hy
      | linear_combination hz
      | linear_combination -hz

theorem cross_self_smul (d : V3 T) (s : T) : d.cross (d.smul s) = 0 := by
  ext <;> simp <;> ring

/-- What it takes for the rows of a constraint to have no moment: the pivots coincide (or differ along
the direction of the row), and the twist axes of both bodies agree. -/
def Con.Aligned (eps : T) (A B : CBody T) : Con T → Prop
  | .contact pA pB _ _ _ => A.world pA = B.world pB
  | .contactExtras pA pB _ _ _ _ _ => A.world pA = B.world pB
  | .distance pA pB => eps < (A.world pA - B.world pB).lengthSqr ∨ A.world pA = B.world pB
  | .softDistance pA pB => eps < (A.world pA - B.world pB).lengthSqr ∨ A.world pA = B.world pB
  | .gravity => True
  | .point pA pB _ => A.world pA = B.world pB
  | .hinge pA pB _ _ => A.world pA = B.world pB
  | .cone pA pB n _ => (A.world pA - B.world pB).cross n = 0
  | .cvjoint pA pB fA fB _ _ => A.world pA = B.world pB ∧
      A.orn.rotate fA.column0 = B.orn.rotate fB.column0
  | .generic pA pB fA fB _ _ _ _ _ _ _ _ => A.world pA = B.world pB ∧
      A.orn.rotate fA.column0 = B.orn.rotate fB.column0

/-- The full statement of the angular part of C57: no row of a built-in constraint has a moment. -/
def AngularFull (T : Type) [Field T] [LinearOrder T] : Prop :=
  ∀ (root : T → T) (eps : T) (A B : CBody T) (con : Con T) (J : Jac T),
    J ∈ con.jacs root eps A B → moment A B J = 0

/-- **C57**, angular part.  The rows of a built-in constraint have no moment provided that its pivots
coincide and its twist axes agree; gravity and (soft) distance constraints have none in any case.
Missing: `AngularFull` is false, see `cvjoint_adds_angular_momentum` and
`generic_adds_angular_momentum`. -/
theorem builtin_constraints_no_moment_partial (root : T → T) (eps : T) (A B : CBody T) (con : Con T)
    (hal : con.Aligned eps A B) (J : Jac T) (h : J ∈ con.jacs root eps A B) : moment A B J = 0 := by
  have zc : ∀ {v w : V3 T} (d : V3 T), v = w → (v - w).cross d = 0 := by
    intro v w d h
    rw [h, sub_self]
    ext <;> simp
  have tw : ∀ {v w : V3 T}, v = w → moment A B ⟨0, v, 0, -w⟩ = 0 := by
    intro v w h
    rw [h]
    exact couple_moment A B w
  cases con <;>
    simp only [Con.jacs, contactJacs, contactExtrasJacs, distanceJacs, softDistanceJacs, gravityJacs,
      pointJacs, hingeJacs, coneJacs, cvjointJacs, genericJacs, List.mem_append, List.mem_cons,
      List.not_mem_nil, or_false, List.mem_map, List.mem_replicate, Option.mem_toList, Con.Aligned] at h hal
  case contact => rcases h with rfl | rfl | rfl <;> rw [line_moment, zc _ hal]
  case contactExtras =>
    rcases h with (rfl | rfl | rfl) | rfl | rfl | rfl
    · rw [line_moment, zc _ hal]
    · rw [line_moment, zc _ hal]
    · rw [line_moment, zc _ hal]
    · exact couple_moment ..
    · exact couple_moment ..
    · exact couple_moment ..
  case distance pA pB =>
    subst h
    rw [line_moment]
    rcases hal with hal | hal
    · rw [if_pos hal]
      have := cross_self_smul (A.world pA - B.world pB) 1
      have e : (A.world pA - B.world pB).smul 1 = A.world pA - B.world pB := by ext <;> simp
      rwa [e] at this
    · exact zc _ hal
  case softDistance pA pB =>
    rw [or_self] at h
    rw [h, line_moment]
    rcases hal with hal | hal
    · rw [if_pos hal]
      exact cross_self_smul _ _
    · exact zc _ hal
  case gravity =>
    subst h
    have := cross_self_smul (A.pos - B.pos) (1 / root (max (A.pos - B.pos).lengthSqr eps))
    rw [← this]
    ext <;> simp [moment] <;> ring
  case point =>
    rcases h with h | ⟨a, -, rfl⟩
    · exact pivot_moment _ _ _ _ _ h hal
    · exact couple_moment ..
  case hinge =>
    rcases h with (h | rfl | rfl) | ⟨-, rfl⟩
    · exact pivot_moment _ _ _ _ _ h hal
    all_goals exact couple_moment ..
  case cone =>
    split at h <;> simp at h <;> subst h <;> rw [line_moment] <;> exact hal
  case cvjoint =>
    rcases h with (h | ⟨-, rfl⟩) | ⟨a, -, rfl⟩
    · exact pivot_moment _ _ _ _ _ h hal.1
    · exact tw hal.2
    · exact couple_moment ..
  case generic =>
    rcases h with ((((⟨-, rfl⟩ | ⟨-, rfl⟩) | ⟨-, rfl⟩) | ⟨-, rfl⟩) | ⟨-, rfl⟩) | ⟨-, rfl⟩
    · rw [line_moment, zc _ hal.1]
    · rw [line_moment, zc _ hal.1]
    · rw [line_moment, zc _ hal.1]
    · exact tw hal.2
    · exact couple_moment ..
    · exact couple_moment ..

/-! ### Concrete cases -/

/-- Two bodies side by side; the second is turned a quarter about `z`. -/
def bodyA : CBody Rat := ⟨⟨0, 0, 0⟩, ⟨0, 0, 0⟩, ⟨0, 0, 0, 1⟩⟩
def bodyB : CBody Rat := ⟨⟨2, 0, 0⟩, ⟨2, 0, 0⟩, ⟨0, 0, 3/5, 4/5⟩⟩

/-- FINDING.  A twist row of a constant velocity joint that is bent applies torques about different
axes to its two bodies: the sum is not zero. -/
theorem cvjoint_adds_angular_momentum : ¬ AngularFull Rat := by
  intro h
  have := h (fun x => x) 0 bodyA bodyB (.cvjoint ⟨1, 0, 0⟩ ⟨-1, 0, 0⟩ 1 1 1 [])
    ⟨0, bodyA.orn.rotate (1 : M3 Rat).column0, 0, -(bodyB.orn.rotate (1 : M3 Rat).column0)⟩
    (by simp [Con.jacs, cvjointJacs])
  exact absurd this (by decide +kernel)

/-- FINDING.  A generic constraint whose pivots are apart along one free axis applies opposite impulses
along another axis at different points: a net torque. -/
theorem generic_adds_angular_momentum :
    ∃ J ∈ (Con.generic (⟨1, 0, 0⟩ : V3 Rat) ⟨0, 0, 0⟩ 1 1 0 0 0 1 0 0 0 0).jacs (fun x => x) 0 bodyA bodyB,
      moment bodyA bodyB J ≠ 0 := by
  refine ⟨⟨bodyA.orn.rotate (1 : M3 Rat).column1,
    (bodyA.arm ⟨1, 0, 0⟩).cross (bodyA.orn.rotate (1 : M3 Rat).column1),
    -(bodyA.orn.rotate (1 : M3 Rat).column1),
    -((bodyB.arm ⟨0, 0, 0⟩).cross (bodyA.orn.rotate (1 : M3 Rat).column1))⟩, ?_, ?_⟩
  · simp [Con.jacs, genericJacs]
  · decide +kernel

/-- A hinge between the two bodies, with pivots that coincide. -/
example : (Con.hinge (⟨1, 0, 0⟩ : V3 Rat) ⟨-7/25, 24/25, 0⟩ 1 3).Aligned 0 bodyA bodyB ∧
    ((Con.hinge (⟨1, 0, 0⟩ : V3 Rat) ⟨-7/25, 24/25, 0⟩ 1 3).jacs (fun x => x) 0 bodyA bodyB).length = 8 := by
  refine ⟨?_, by decide +kernel⟩
  show bodyA.world _ = bodyB.world _
  decide +kernel

end Edyn.Solver
