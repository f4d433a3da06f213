import Verif.Math.Real

/-!
# Model of the rag doll (C99)

`src/edyn/util/ragdoll.cpp`: `make_ragdoll_def_from_simple` and `make_ragdoll`.  Scalars are real
numbers.

Simplifications: the rigid bodies are their mass, place and shape (`make_rigidbody` is modelled
for other properties), friction, restitution and the inertia of the bodies without a shape are
left out; of the constraints the anchors and frames of the joints are modelled (`cvjoint_constraint`
and `hinge_constraint`), and the limits of the
angles, not the cones, the friction and the damping.
-/

namespace Edyn.Ragdoll

open Edyn.Math

noncomputable section

/-- `i == 0` in the loops over the two sides: left first. -/
inductive Side | left | right
deriving DecidableEq

/-- `to_sign(i == 0)`, `math.hpp` 84-86. -/
def Side.sign : Side → ℝ
  | .left => 1
  | .right => -1

/-- The bodies of `ragdoll_entities`, `ragdoll.hpp` 65-86. -/
inductive Part
  | head | neck | torsoUpper | torsoMiddle | torsoLower | hip
  | legUpper (s : Side) | legLower (s : Side) | foot (s : Side) | shoulder (s : Side)
  | armUpper (s : Side) | armLower (s : Side) | armTwist (s : Side) | hand (s : Side)
deriving DecidableEq

/-- `ragdoll_shape_type`, `ragdoll.hpp` 10-12. -/
inductive Kind | box | capsule | cylinder

/-- `coordinate_axis`. -/
inductive Axis | x | y | z

/-- `box_shape`, `capsule_shape` and `cylinder_shape`. -/
inductive Shape
  | box (halfExtents : V3 ℝ)
  | capsule (radius halfLength : ℝ) (axis : Axis)
  | cylinder (radius halfLength : ℝ) (axis : Axis)

/-- `ragdoll_simple_def`, `ragdoll.hpp` 14-25. -/
structure SimpleDef where
  position : V3 ℝ
  orientation : Quat ℝ
  height : ℝ
  weight : ℝ
  kind : Kind

/-- `ragdoll_def`, `ragdoll.hpp` 27-62. -/
structure Def where
  position : V3 ℝ
  orientation : Quat ℝ
  headMass : ℝ
  neckMass : ℝ
  torsoUpperMass : ℝ
  torsoMiddleMass : ℝ
  torsoLowerMass : ℝ
  hipMass : ℝ
  legUpperMass : ℝ
  legLowerMass : ℝ
  footMass : ℝ
  shoulderMass : ℝ
  armUpperMass : ℝ
  armLowerMass : ℝ
  handMass : ℝ
  headSize : V3 ℝ
  neckSize : V3 ℝ
  torsoUpperSize : V3 ℝ
  torsoMiddleSize : V3 ℝ
  torsoLowerSize : V3 ℝ
  hipSize : V3 ℝ
  legUpperSize : V3 ℝ
  legLowerSize : V3 ℝ
  footSize : V3 ℝ
  armUpperSize : V3 ℝ
  armLowerSize : V3 ℝ
  handSize : V3 ℝ
  kind : Kind

/-- `scale * 2 * v`, by components. -/
def scaled (s v : V3 ℝ) : V3 ℝ := ⟨s.x * 2 * v.x, s.y * 2 * v.y, s.z * 2 * v.z⟩

/-- `make_ragdoll_def_from_simple`, `ragdoll.cpp` 17-63. -/
def fromSimple (s : SimpleDef) : Def :=
  let v := s.height / 1.7
  let h := 0.2 + v * 0.8
  let scale : V3 ℝ := ⟨h, v, h⟩
  let flipped : V3 ℝ := ⟨v, h, h⟩
  { position := s.position
    orientation := s.orientation
    headMass := s.weight * 4 / 72
    neckMass := s.weight * 2 / 72
    torsoUpperMass := s.weight * 7 / 72
    torsoMiddleMass := s.weight * 6 / 72
    torsoLowerMass := s.weight * 5 / 72
    hipMass := s.weight * 3 / 72
    legUpperMass := s.weight * 8 / 72
    legLowerMass := s.weight * 7 / 72
    footMass := s.weight * 1 / 72
    shoulderMass := s.weight * 1.5 / 72
    armUpperMass := s.weight * 2.5 / 72
    armLowerMass := s.weight * 2 / 72
    handMass := s.weight * 0.5 / 72
    headSize := scaled scale ⟨0.075, 0.09, 0.105⟩
    neckSize := scaled scale ⟨0.06, 0.065, 0.06⟩
    torsoUpperSize := scaled scale ⟨0.17, 0.108, 0.095⟩
    torsoMiddleSize := scaled scale ⟨0.151, 0.084, 0.07⟩
    torsoLowerSize := scaled scale ⟨0.155, 0.065, 0.086⟩
    hipSize := scaled scale ⟨0.17, 0.07, 0.1⟩
    legUpperSize := scaled scale ⟨0.075, 0.205, 0.075⟩
    legLowerSize := scaled scale ⟨0.06, 0.205, 0.06⟩
    footSize := scaled scale ⟨0.05, 0.04, 0.13⟩
    armUpperSize := scaled flipped ⟨0.135, 0.05, 0.05⟩
    armLowerSize := scaled flipped ⟨0.135, 0.04, 0.04⟩
    handSize := scaled flipped ⟨0.065, 0.045, 0.045⟩
    kind := s.kind }

/-- The masses, `ragdoll.cpp` 76, 106, 135, 163, 190, 216, 242, 269, 296, 337, 353, 382, 417.  The
twist body (409) is made from the same definition as the lower arm, with half its mass. -/
def mass (d : Def) : Part → ℝ
  | .head => d.headMass
  | .neck => d.neckMass
  | .torsoUpper => d.torsoUpperMass
  | .torsoMiddle => d.torsoMiddleMass
  | .torsoLower => d.torsoLowerMass
  | .hip => d.hipMass
  | .legUpper _ => d.legUpperMass
  | .legLower _ => d.legLowerMass
  | .foot _ => d.footMass
  | .shoulder _ => d.shoulderMass
  | .armUpper _ => d.armUpperMass
  | .armLower _ => d.armLowerMass / 2
  | .armTwist _ => d.armLowerMass / 2
  | .hand _ => d.handMass

/-- `leg_pos_x`, `ragdoll.cpp` 235. -/
def legPosX (d : Def) : ℝ := d.hipSize.x / 2 - (d.legUpperSize.x - 0.0072) / 2

/-- `torso_upper_top`, `ragdoll.cpp` 320-324. -/
def torsoUpperTop (d : Def) : ℝ :=
  d.torsoUpperSize.y + d.torsoMiddleSize.y + d.torsoLowerSize.y + d.hipSize.y / 2

/-- The arguments of `to_world_space` for the positions of the bodies, `ragdoll.cpp` 77-84,
107-113, 136-141, 164-168, 191-194, 244-246, 271-273, 298-302, 339-342, 355-359, 384-389, 419-427;
the hip is at the position of the rag doll (217). -/
def place (d : Def) : Part → V3 ℝ
  | .head => ⟨0, d.headSize.y / 2 + d.neckSize.y * 0.627 + d.torsoUpperSize.y +
      d.torsoMiddleSize.y + d.torsoLowerSize.y + d.hipSize.y / 2, -0.025⟩
  | .neck => ⟨0, d.neckSize.y * 0.627 / 2 + d.torsoUpperSize.y + d.torsoMiddleSize.y +
      d.torsoLowerSize.y + d.hipSize.y / 2, 0⟩
  | .torsoUpper => ⟨0, d.torsoUpperSize.y / 2 + d.torsoMiddleSize.y + d.torsoLowerSize.y +
      d.hipSize.y / 2, 0⟩
  | .torsoMiddle => ⟨0, d.torsoMiddleSize.y / 2 + d.torsoLowerSize.y + d.hipSize.y / 2, 0⟩
  | .torsoLower => ⟨0, d.torsoLowerSize.y / 2 + d.hipSize.y / 2, 0⟩
  | .hip => 0
  | .legUpper s => ⟨legPosX d * s.sign, -d.legUpperSize.y / 2, 0⟩
  | .legLower s => ⟨legPosX d * s.sign, -(d.legUpperSize.y + d.legLowerSize.y / 2), 0⟩
  | .foot s => ⟨legPosX d * s.sign,
      -(d.legUpperSize.y + d.legLowerSize.y + d.footSize.y / 2), -d.legLowerSize.z / 2⟩
  | .shoulder s => ⟨d.torsoUpperSize.x / 2 * 0.65 * s.sign,
      torsoUpperTop d - d.armUpperSize.y / 2, 0⟩
  | .armUpper s => ⟨(d.torsoUpperSize.x / 2 + d.armUpperSize.x / 2) * s.sign,
      torsoUpperTop d - d.armUpperSize.y / 2, 0⟩
  | .armLower s => ⟨(d.torsoUpperSize.x / 2 + d.armUpperSize.x + d.armLowerSize.x / 2) * s.sign,
      torsoUpperTop d - d.armUpperSize.y / 2, 0⟩
  | .armTwist s => ⟨(d.torsoUpperSize.x / 2 + d.armUpperSize.x + d.armLowerSize.x / 2) * s.sign,
      torsoUpperTop d - d.armUpperSize.y / 2, 0⟩
  | .hand s => ⟨(d.torsoUpperSize.x / 2 + d.armUpperSize.x + d.armLowerSize.x +
        d.handSize.x / 2) * s.sign,
      torsoUpperTop d - d.armUpperSize.y / 2 - (d.handSize.y - d.armLowerSize.y) / 2,
      -(d.handSize.z - d.armLowerSize.z) / 2⟩

/-- The positions of the bodies. -/
def position (d : Def) : Part → V3 ℝ
  | .hip => d.position
  | p => toWorldSpace (place d p) d.position d.orientation

/-- `rot_z_pi`, `ragdoll.cpp` 330. The axis is a unit vector, for which `quaternion_axis_angle`
(`quaternion.hpp` 157-161) is `quaternion_axis_angle_unit`. -/
def rotZPi : Quat ℝ := axisAngle ⟨0, 0, 1⟩ Real.pi

/-- The orientation of bodies of the arms, `ragdoll.cpp` 343, 360, 390, 428. -/
def armOrientation (d : Def) : Side → Quat ℝ
  | .left => d.orientation
  | .right => d.orientation * rotZPi

/-- The orientations of the bodies. -/
def orientation (d : Def) : Part → Quat ℝ
  | .shoulder s | .armUpper s | .armLower s | .armTwist s | .hand s => armOrientation d s
  | _ => d.orientation

/-- The shapes along the `y` axis, `ragdoll.cpp` 87-97, 116-126, 249-259, 276-286. -/
def shapeY (k : Kind) (size : V3 ℝ) : Shape :=
  match k with
  | .box => .box ⟨size.x / 2, size.y / 2, size.z / 2⟩
  | .capsule => .capsule (size.x / 2) ((size.y - size.x) / 2) .y
  | .cylinder => .cylinder (size.x / 2) (size.y / 2) .y

/-- The shapes along the `x` axis, `ragdoll.cpp` 144-154, 171-181, 197-207, 220-230, 362-372,
392-402, 430-440. -/
def shapeX (k : Kind) (size : V3 ℝ) : Shape :=
  match k with
  | .box => .box ⟨size.x / 2, size.y / 2, size.z / 2⟩
  | .capsule => .capsule (size.y / 2) ((size.x - size.y) / 2) .x
  | .cylinder => .cylinder (size.y / 2) (size.x / 2) .x

/-- The shapes along the `z` axis, `ragdoll.cpp` 305-315. -/
def shapeZ (k : Kind) (size : V3 ℝ) : Shape :=
  match k with
  | .box => .box ⟨size.x / 2, size.y / 2, size.z / 2⟩
  | .capsule => .capsule (size.x / 2) ((size.z - size.x) / 2) .z
  | .cylinder => .cylinder (size.x / 2) (size.z / 2) .z

/-- The shapes of the bodies; shoulders and twist bodies have none (333-346, 408). -/
def shape (d : Def) : Part → Option Shape
  | .head => some (shapeY d.kind d.headSize)
  | .neck => some (shapeY d.kind d.neckSize)
  | .torsoUpper => some (shapeX d.kind d.torsoUpperSize)
  | .torsoMiddle => some (shapeX d.kind d.torsoMiddleSize)
  | .torsoLower => some (shapeX d.kind d.torsoLowerSize)
  | .hip => some (shapeX d.kind d.hipSize)
  | .legUpper _ => some (shapeY d.kind d.legUpperSize)
  | .legLower _ => some (shapeY d.kind d.legLowerSize)
  | .foot _ => some (shapeZ d.kind d.footSize)
  | .shoulder _ => none
  | .armUpper _ => some (shapeX d.kind d.armUpperSize)
  | .armLower _ => some (shapeX d.kind d.armLowerSize)
  | .armTwist _ => none
  | .hand _ => some (shapeX d.kind d.handSize)

/-- `exclude_collision`, `ragdoll.cpp` 445-466. -/
def exclusions : List (Part × Part) :=
  [(.hip, .torsoLower), (.torsoMiddle, .torsoLower), (.torsoMiddle, .torsoUpper),
   (.neck, .torsoUpper), (.neck, .head),
   (.hip, .legUpper .left), (.hip, .legUpper .right),
   (.torsoLower, .legUpper .left), (.torsoLower, .legUpper .right),
   (.legLower .left, .legUpper .left), (.legLower .right, .legUpper .right),
   (.legLower .left, .foot .left), (.legLower .right, .foot .right),
   (.torsoUpper, .shoulder .left), (.torsoUpper, .shoulder .right),
   (.torsoUpper, .armUpper .left), (.torsoUpper, .armUpper .right),
   (.armLower .left, .armUpper .left), (.armLower .right, .armUpper .right),
   (.armLower .left, .hand .left), (.armLower .right, .hand .right)]

/-- The joints, named after what they join: `ragdoll_entities`, `ragdoll.hpp` 88-118. -/
inductive Joint
  | hipTorso | torsoLowerMiddle | torsoMiddleUpper | torsoNeck | neckHead
  | hipLeg (s : Side) | knee (s : Side) | ankle (s : Side) | torsoShoulder (s : Side)
  | shoulderArm (s : Side) | elbow (s : Side) | twist (s : Side) | wrist (s : Side)
deriving DecidableEq

/-- The two bodies of a joint: arguments of `make_constraint`, `ragdoll.cpp` 483-484, 516-517,
549-550, 582-583, 615-616, 657, 684-689, 710-713 and 732, 779, 804-805 and 825, 850-854, 875-878,
898-899 and 914. -/
def Joint.bodies : Joint → Part × Part
  | .hipTorso => (.hip, .torsoLower)
  | .torsoLowerMiddle => (.torsoLower, .torsoMiddle)
  | .torsoMiddleUpper => (.torsoMiddle, .torsoUpper)
  | .torsoNeck => (.torsoUpper, .neck)
  | .neckHead => (.neck, .head)
  | .hipLeg s => (.hip, .legUpper s)
  | .knee s => (.legUpper s, .legLower s)
  | .ankle s => (.legLower s, .foot s)
  | .torsoShoulder s => (.torsoUpper, .shoulder s)
  | .shoulderArm s => (.shoulder s, .armUpper s)
  | .elbow s => (.armUpper s, .armLower s)
  | .twist s => (.armLower s, .armTwist s)
  | .wrist s => (.armTwist s, .hand s)

/-- `shoulder_size.x`, `ragdoll.cpp` 327, and `shoulder_size_x`, 760. -/
def shoulderSizeX (d : Def) : ℝ := d.torsoUpperSize.x * 0.352

/-- `pivot[0]` and `pivot[1]` of the joints: `ragdoll.cpp` 486-487, 519-520, 552-553, 585-586,
618-619, 637 and 659-660, 691-692, 734-735, 760-763 and 781-782, 809 and 827-828, 856-857, 880-881,
901 and 916-919. -/
def Joint.pivots (d : Def) : Joint → V3 ℝ × V3 ℝ
  | .hipTorso => (⟨0, d.hipSize.y / 2, 0⟩, ⟨0, -d.torsoLowerSize.y / 2, 0⟩)
  | .torsoLowerMiddle => (⟨0, d.torsoLowerSize.y / 2, 0⟩, ⟨0, -d.torsoMiddleSize.y / 2, 0⟩)
  | .torsoMiddleUpper => (⟨0, d.torsoMiddleSize.y / 2, 0⟩, ⟨0, -d.torsoUpperSize.y / 2, 0⟩)
  | .torsoNeck => (⟨0, d.torsoUpperSize.y / 2, 0⟩, ⟨0, -d.neckSize.y * 0.33, 0⟩)
  | .neckHead =>
    (⟨0, d.neckSize.y / 2, 0⟩, ⟨0, -(d.headSize.y / 2 - d.neckSize.y * 0.2), 0.025⟩)
  | .hipLeg s =>
    (⟨s.sign * (d.hipSize.x / 2 - (d.legUpperSize.x - 0.0072) / 2), 0, 0⟩,
      ⟨0, d.legUpperSize.y / 2, 0⟩)
  | .knee _ => (⟨0, -d.legUpperSize.y / 2, 0⟩, ⟨0, d.legLowerSize.y / 2, 0⟩)
  | .ankle _ => (⟨0, -d.legLowerSize.y / 2, 0⟩, ⟨0, d.footSize.y / 2, d.legLowerSize.z / 2⟩)
  | .torsoShoulder s =>
    (⟨(d.torsoUpperSize.x / 2 * 0.65 - shoulderSizeX d / 2) * s.sign,
      d.torsoUpperSize.y / 2 - d.armUpperSize.y / 2, 0⟩, ⟨-shoulderSizeX d / 2, 0, 0⟩)
  | .shoulderArm _ => (⟨shoulderSizeX d / 2, 0, 0⟩, ⟨-d.armUpperSize.x / 2, 0, 0⟩)
  | .elbow _ => (⟨d.armUpperSize.x / 2, 0, 0⟩, ⟨-d.armLowerSize.x / 2, 0, 0⟩)
  | .twist _ => (0, 0)
  | .wrist _ => (⟨d.armLowerSize.x / 2, 0, 0⟩,
      ⟨-d.handSize.x / 2, (d.handSize.y - d.armLowerSize.y) / 2,
        (d.handSize.z - d.armLowerSize.z) / 2⟩)

/-- `matrix3x3_columns`: a frame as its three columns. -/
structure Frame where
  c0 : V3 ℝ
  c1 : V3 ℝ
  c2 : V3 ℝ

/-- `hinge_constraint::set_axes`, `hinge_constraint.cpp` 11-17, for one axis. -/
def hingeFrame (axis : V3 ℝ) : Frame := ⟨axis, (planeSpace axis).1, (planeSpace axis).2⟩

/-- `frame[0]` and `frame[1]` of the joints: `ragdoll.cpp` 488-489, 521-522, 554-555, 587-588,
620-621, 661-662, 693, 736-737, 783-784, 829-830, 858, 882, 920-921. -/
def Joint.frames : Joint → Frame × Frame
  | .hipTorso | .torsoLowerMiddle | .torsoMiddleUpper | .torsoNeck | .neckHead =>
    (⟨⟨0, 1, 0⟩, -⟨1, 0, 0⟩, ⟨0, 0, 1⟩⟩, ⟨⟨0, 1, 0⟩, -⟨1, 0, 0⟩, ⟨0, 0, 1⟩⟩)
  | .hipLeg _ | .ankle _ =>
    (⟨⟨0, 1, 0⟩, ⟨1, 0, 0⟩, -⟨0, 0, 1⟩⟩, ⟨⟨0, 1, 0⟩, ⟨1, 0, 0⟩, -⟨0, 0, 1⟩⟩)
  | .knee _ => (hingeFrame ⟨1, 0, 0⟩, hingeFrame ⟨1, 0, 0⟩)
  | .torsoShoulder s =>
    (⟨V3.smul s.sign ⟨1, 0, 0⟩, V3.smul s.sign ⟨0, 1, 0⟩, ⟨0, 0, 1⟩⟩,
      ⟨⟨1, 0, 0⟩, ⟨0, 1, 0⟩, ⟨0, 0, 1⟩⟩)
  | .shoulderArm _ | .wrist _ =>
    (⟨⟨1, 0, 0⟩, ⟨0, 1, 0⟩, ⟨0, 0, 1⟩⟩, ⟨⟨1, 0, 0⟩, ⟨0, 1, 0⟩, ⟨0, 0, 1⟩⟩)
  | .elbow _ => (hingeFrame ⟨0, 1, 0⟩, hingeFrame ⟨0, 1, 0⟩)
  | .twist _ => (hingeFrame ⟨1, 0, 0⟩, hingeFrame ⟨1, 0, 0⟩)

/-- `to_radians`, `math.hpp` 21-23. -/
def toRadians (deg : ℝ) : ℝ := deg / 180 * Real.pi

/-- `twist_min`, `twist_max` or `angle_min`, `angle_max` of the joints, `ragdoll.cpp` 490-491,
523-524, 556-557, 589-590, 622-623, 663-664, 694-695, 785-786, 831-832, 859-860, 883-884; zero
(`cvjoint_constraint.hpp` 35) in ankles and wrists, where they are not set. -/
def Joint.limits : Joint → ℝ × ℝ
  | .hipTorso => (toRadians (-12), -toRadians (-12))
  | .torsoLowerMiddle => (toRadians (-18), -toRadians (-18))
  | .torsoMiddleUpper => (toRadians (-10), -toRadians (-10))
  | .torsoNeck | .neckHead => (toRadians (-30), -toRadians (-30))
  | .hipLeg .left => (toRadians (-80), toRadians 15)
  | .hipLeg .right => (toRadians (-15), toRadians 80)
  | .knee _ => (toRadians (-140), 0)
  | .ankle _ | .wrist _ => (0, 0)
  | .torsoShoulder _ => (toRadians (-5), -toRadians (-5))
  | .shoulderArm _ => (toRadians (-45), -toRadians (-45))
  | .elbow _ => (0, toRadians 140)
  | .twist _ => (-(Real.pi / 2), Real.pi / 2)

end

end Edyn.Ragdoll
