import Verif.Math.Real
import Verif.Mass.Compound

/-!
# Rigid bodies

`src/edyn/util/rigidbody.cpp` and `include/edyn/util/rigidbody.hpp`: creation and removal of the components of a body and
the functions which change them.  The components of one entity are modelled; the edges of the entity graph and the contacts
of the body are not (see `Verif.Islands` and `Verif.Contact`).  Scalars are real numbers.  `none` as a result: an assertion
fails, a component which does not exist is read, or one which exists is emplaced again.
-/

namespace Edyn.Body

open Edyn.Math hiding lengthSqr_nonneg
open V3

noncomputable section

/-- `rigidbody_kind`, `rigidbody.hpp` 21-25. -/
inductive Kind
  | dynamic | kinematic | static
  deriving DecidableEq

/-- A shape: its type and its value. -/
structure Shape where
  type : ℕ
  value : ℕ
  deriving DecidableEq

/-- What is known about shapes, and the constants: `static_shapes_tuple_t` and `rolling_shapes_tuple_t`, `shapes.hpp` 33-44,
`shape_rolling_direction`, `moment_of_inertia`, `shape_aabb`, `EDYN_EPSILON`, `large_scalar`, `settings::gravity`,
`execution_mode::asynchronous`. -/
structure Env where
  staticOnly : ℕ → Bool
  rolling : ℕ → Bool
  rollDir : Shape → V3 ℝ
  inertia : Shape → ℝ → M3 ℝ
  aabb : Shape → V3 ℝ → Quat ℝ → V3 ℝ × V3 ℝ
  eps : ℝ
  large : ℝ
  gravity : V3 ℝ
  async : Bool

/-- `rigidbody_def`, `rigidbody.hpp` 29-75. -/
structure Def where
  kind : Kind := .dynamic
  position : V3 ℝ := 0
  orientation : Quat ℝ := 1
  mass : ℝ := 1
  inertia : Option (M3 ℝ) := none
  linvel : V3 ℝ := 0
  angvel : V3 ℝ := 0
  com : Option (V3 ℝ) := none
  gravity : Option (V3 ℝ) := none
  shape : Option Shape := none
  material : Option ℕ := some 0
  filter : Option ℕ := none
  presentation : Bool := true
  sleepingDisabled : Bool := false
  networked : Bool := false

/-- The components of an entity.  `filter` stands for `collision_filter`; in `Def` it is `none` if group and mask are the
default.  `node`: `graph_node`, and whether it is non-connecting. -/
@[ext] structure Rb where
  position : Option (V3 ℝ) := none
  orientation : Option (Quat ℝ) := none
  mass : Option ℝ := none
  massInv : Option ℝ := none
  inertia : Option (M3 ℝ) := none
  inertiaInv : Option (M3 ℝ) := none
  worldInv : Option (M3 ℝ) := none
  linvel : Option (V3 ℝ) := none
  angvel : Option (V3 ℝ) := none
  com : Option (V3 ℝ) := none
  origin : Option (V3 ℝ) := none
  gravity : Option (V3 ℝ) := none
  material : Option ℕ := none
  presentPos : Option (V3 ℝ) := none
  presentOrn : Option (Quat ℝ) := none
  shapes : ℕ → Option ℕ := fun _ => none
  shapeIndex : Option ℕ := none
  aabb : Option (V3 ℝ × V3 ℝ) := none
  rollingTag : Bool := false
  rollDir : Option (V3 ℝ) := none
  filter : Option ℕ := none
  dynamicTag : Bool := false
  proceduralTag : Bool := false
  kinematicTag : Bool := false
  staticTag : Bool := false
  sleepingDisabled : Bool := false
  networked : Bool := false
  node : Option Bool := none
  resident : Bool := false
  multiResident : Bool := false
  transient : Bool := false
  bodyTag : Bool := false

/-- `inverse_matrix_symmetric`, `matrix3x3.hpp` 190-218, with its assertions. -/
def inverse? (m : M3 ℝ) : Option (M3 ℝ) :=
  if m.r0.y = m.r1.x ∧ m.r0.z = m.r2.x ∧ m.r1.z = m.r2.y ∧ m.det ≠ 0 then some m.inverseSymmetric else none

/-- `basis * I_inv * transpose(basis)`, `rigidbody.cpp` 75-76, `update_inertias.cpp` 15-16. -/
def toWorld (orn : Quat ℝ) (inv : M3 ℝ) : M3 ℝ := M3.ofQuat orn * inv * (M3.ofQuat orn).transpose

/-- The moment of inertia of a new body, `rigidbody.cpp` 56-69. -/
def defInertia (env : Env) (d : Def) : Option (M3 ℝ) :=
  match d.inertia with
  | some i => some i
  | none =>
    d.shape.map fun s =>
      match d.com with
      | some c => Mass.shiftInertia (env.inertia s d.mass) d.mass c
      | none => env.inertia s d.mass

/-- Mass and inertia, `rigidbody.cpp` 51-78. -/
def makeMass (env : Env) (d : Def) (b : Rb) : Option Rb :=
  if d.kind ≠ .dynamic then some b
  else if ¬(env.eps < d.mass ∧ d.mass < env.large) then none
  else if b.mass.isSome || b.massInv.isSome || b.inertia.isSome || b.inertiaInv.isSome || b.worldInv.isSome then none
  else
    (defInertia env d).bind fun i =>
    (inverse? i).bind fun inv =>
      some { b with
        mass := some d.mass, massInv := some (1 / d.mass), inertia := some i, inertiaInv := some inv,
        worldInv := some (toWorld d.orientation inv) }

/-- Velocities, `rigidbody.cpp` 80-83. -/
def makeVel (d : Def) (b : Rb) : Option Rb :=
  if d.kind = .static then some b
  else if b.linvel.isSome || b.angvel.isSome then none
  else some { b with linvel := some d.linvel, angvel := some d.angvel }

/-- `apply_center_of_mass`, `rigidbody.cpp` 517-548. -/
def applyCom (c : V3 ℝ) (b : Rb) : Option Rb :=
  b.position.bind fun pos => b.orientation.bind fun orn => b.linvel.bind fun v => b.angvel.bind fun w =>
    let old := b.com.getD 0
    let origin := toWorldSpace (-old) pos orn
    let world := toWorldSpace c origin orn
    let b' := { b with linvel := some (v + cross w (world - pos)), position := some world }
    if c ≠ 0 then
      match b.com with
      | some _ => if b.origin.isSome then some { b' with com := some c, origin := some origin } else none
      | none => if b.origin.isSome then none else some { b' with com := some c, origin := some origin }
    else
      match b.com with
      | some _ => some { b' with com := none, origin := none }
      | none => some b'

/-- The centre of mass, `rigidbody.cpp` 85-87. -/
def makeCom (d : Def) (b : Rb) : Option Rb :=
  match d.com with
  | some c => applyCom c b
  | none => some b

/-- Gravity, material and presentation, `rigidbody.cpp` 89-102. -/
def makeLook (env : Env) (d : Def) (b : Rb) : Option Rb :=
  if b.gravity.isSome || b.material.isSome || b.presentPos.isSome || b.presentOrn.isSome then none
  else
    let g := d.gravity.getD env.gravity
    some { b with
      gravity := if g ≠ 0 ∧ d.kind = .dynamic then some g else none
      material := d.material
      presentPos := if d.presentation ∧ d.kind = .dynamic then some d.position else none
      presentOrn := if d.presentation ∧ d.kind = .dynamic then some d.orientation else none }

/-- `rolling_tag` and `roll_direction`, `rigidbody.cpp` 120-130. -/
def makeRoll (env : Env) (s : Shape) (b : Rb) : Rb :=
  if env.rolling s.type then
    { b with rollingTag := true, rollDir := if env.rollDir s ≠ 0 then some (env.rollDir s) else none }
  else b

/-- The shape, `rigidbody.cpp` 104-140. -/
def makeShape (env : Env) (d : Def) (b : Rb) : Option Rb :=
  match d.shape with
  | none => some b
  | some s =>
    if d.kind ≠ .static ∧ env.staticOnly s.type then none
    else if (b.shapes s.type).isSome || b.shapeIndex.isSome || b.aabb.isSome || b.rollingTag || b.rollDir.isSome ||
      b.filter.isSome then none
    else
      let b := { b with
        shapes := fun t => if t = s.type then some s.value else b.shapes t
        shapeIndex := some s.type
        aabb := some (env.aabb s d.position d.orientation)
        filter := d.filter }
      some (if d.kind = .dynamic then makeRoll env s b else b)

/-- The tags and the node, `rigidbody.cpp` 142-184. -/
def makeTags (env : Env) (d : Def) (b : Rb) : Option Rb :=
  if b.dynamicTag || b.proceduralTag || b.kinematicTag || b.staticTag || b.sleepingDisabled || b.networked ||
    b.node.isSome || b.resident || b.multiResident || b.bodyTag then none
  else
    some { b with
      dynamicTag := d.kind = .dynamic
      proceduralTag := d.kind = .dynamic
      kinematicTag := d.kind = .kinematic
      staticTag := d.kind = .static
      sleepingDisabled := d.sleepingDisabled
      networked := d.networked
      node := some (d.kind ≠ .dynamic)
      resident := d.kind = .dynamic
      multiResident := d.kind ≠ .dynamic
      transient := b.transient || (env.async && d.kind ≠ .static)
      bodyTag := true }

/-- `make_rigidbody`, `rigidbody.cpp` 47-185.  The absence of the components which are emplaced is checked in groups. -/
def make (env : Env) (d : Def) (b : Rb) : Option Rb :=
  if b.position.isSome || b.orientation.isSome then none
  else
    (makeMass env d { b with position := some d.position, orientation := some d.orientation }).bind fun b =>
    (makeVel d b).bind fun b =>
    (makeCom d b).bind fun b =>
    (makeLook env d b).bind fun b =>
    (makeShape env d b).bind fun b =>
    makeTags env d b

/-- The shape is removed, `rigidbody.cpp` 202-211 and 476-485. -/
def dropShape (b : Rb) : Option Rb :=
  match b.shapeIndex with
  | none => some b
  | some t =>
    if (b.shapes t).isNone || b.aabb.isNone then none
    else some { b with
      shapes := fun t' => if t' = t then none else b.shapes t', shapeIndex := none, aabb := none, rollingTag := false,
      rollDir := none }

/-- `clear_rigidbody`, `rigidbody.cpp` 193-226.  `remove` does nothing if the component is missing, `erase` is not allowed
then. -/
def clear (b : Rb) : Option Rb :=
  if !b.bodyTag || b.position.isNone || b.orientation.isNone || b.node.isNone then none
  else
    (dropShape b).map fun b =>
    { b with
      bodyTag := false, dynamicTag := false, kinematicTag := false, staticTag := false, proceduralTag := false,
      networked := false, sleepingDisabled := false, filter := none, material := none, gravity := none, com := none,
      linvel := none, angvel := none, mass := none, massInv := none, inertia := none, inertiaInv := none, worldInv := none,
      presentPos := none, presentOrn := none, position := none, orientation := none, node := none, resident := false,
      multiResident := false }

/-- `rigidbody_apply_impulse`, `rigidbody.cpp` 228-238. -/
def applyImpulse (j rel : V3 ℝ) (b : Rb) : Option Rb :=
  b.massInv.bind fun mInv => b.worldInv.bind fun iInv => b.linvel.bind fun v => b.angvel.bind fun w =>
    some { b with linvel := some (v + smul mInv j), angvel := some (w + M3.mulVec iInv (cross rel j)) }

/-- `rigidbody_apply_torque_impulse`, `rigidbody.cpp` 240-246. -/
def applyTorque (t : V3 ℝ) (b : Rb) : Option Rb :=
  b.worldInv.bind fun iInv => b.angvel.bind fun w => some { b with angvel := some (w + M3.mulVec iInv t) }

/-- `set_kinematic_position`, `rigidbody.cpp` 248-258. -/
def setKinPos (pos : V3 ℝ) (dt : ℝ) (b : Rb) : Option Rb :=
  if !b.kinematicTag then none
  else b.position.bind fun p => b.linvel.bind fun _ =>
    some { b with linvel := some (smul (1 / dt) (pos - p)), position := some pos }

/-- The angular velocity in `set_kinematic_orientation`, `rigidbody.cpp` 266-282.  `none`: a division by zero. -/
def kinAngvel (r : Quat ℝ) (dt : ℝ) : Option (V3 ℝ) :=
  let ws := Real.arccos r.w / (1 / 2 * dt)
  let t := if ws < 1 / 1000 then (1 / 2) * dt - dt * dt * dt * (1 / 48) * ws * ws
    else Real.sin (1 / 2 * ws * dt) / ws
  if dt = 0 ∨ t = 0 then none else some (smul (1 / t) ⟨r.x, r.y, r.z⟩)

/-- `set_kinematic_orientation`, `rigidbody.cpp` 260-287. -/
def setKinOrn (orn : Quat ℝ) (dt : ℝ) (b : Rb) : Option Rb :=
  if !b.kinematicTag then none
  else b.orientation.bind fun q => b.angvel.bind fun _ => (kinAngvel (orn * q.conjugate) dt).bind fun w =>
    some { b with angvel := some w, orientation := some orn }

/-- `validate_rigidbody`, `rigidbody.cpp` 289-298. -/
def validate (b : Rb) : Bool :=
  b.bodyTag && (b.dynamicTag || b.kinematicTag || b.staticTag) && (b.resident || b.multiResident) &&
    (b.position.isSome && b.orientation.isSome && b.linvel.isSome && b.angvel.isSome) &&
    (b.mass.isSome && b.massInv.isSome && b.inertia.isSome && b.inertiaInv.isSome && b.worldInv.isSome)

/-- `set_rigidbody_mass`, `rigidbody.cpp` 300-305. -/
def setMass (env : Env) (m : ℝ) (b : Rb) : Option Rb :=
  if env.eps < m ∧ m < env.large ∧ b.bodyTag ∧ b.mass.isSome ∧ b.massInv.isSome then
    some { b with mass := some m, massInv := some (1 / m) }
  else none

/-- `set_rigidbody_inertia`, `rigidbody.cpp` 307-312. -/
def setInertia (i : M3 ℝ) (b : Rb) : Option Rb :=
  if b.bodyTag ∧ b.inertia.isSome ∧ b.inertiaInv.isSome then
    (inverse? i).map fun inv => { b with inertia := some i, inertiaInv := some inv }
  else none

/-- `get_rigidbody_origin`, `rigidbody.cpp` 372-380. -/
def getOrigin (b : Rb) : Option (V3 ℝ) :=
  match b.com with
  | none => b.position
  | some c => b.position.bind fun pos => b.orientation.map fun orn => toWorldSpace (-c) pos orn

/-- `set_rigidbody_origin`, `rigidbody.cpp` 382-391. -/
def setOrigin (o : V3 ℝ) (b : Rb) : Option Rb :=
  match b.com with
  | none => b.position.map fun _ => { b with position := some o }
  | some c => b.position.bind fun _ => b.orientation.bind fun orn =>
    if b.origin.isSome then some { b with position := some (toWorldSpace c o orn), origin := some o } else none

/-- `get_rigidbody_present_origin`, `rigidbody.cpp` 393-401. -/
def presentOrigin (b : Rb) : Option (V3 ℝ) :=
  match b.com with
  | none => b.presentPos
  | some c => b.presentPos.bind fun pos => b.presentOrn.map fun orn => toWorldSpace (-c) pos orn

/-- The rolling tag in `rigidbody_assign_shape`, `rigidbody.cpp` 450-468. -/
def assignRoll (env : Env) (s : Shape) (b : Rb) : Rb :=
  if b.dynamicTag then
    if env.rolling s.type then
      { b with rollingTag := true, rollDir := if env.rollDir s ≠ 0 then some (env.rollDir s) else none }
    else { b with rollingTag := false, rollDir := none }
  else b

/-- `rigidbody_assign_shape`, `rigidbody.cpp` 417-469. -/
def assignShape (env : Env) (s : Shape) (b : Rb) : Option Rb :=
  if !b.staticTag && env.staticOnly s.type then none
  else
    (match b.shapeIndex with
     | some t =>
       if t = s.type then
         if (b.shapes t).isSome then some { b with shapes := fun t' => if t' = t then some s.value else b.shapes t' } else none
       else if (b.shapes t).isNone || (b.shapes s.type).isSome then none
       else some { b with
         shapes := fun t' => if t' = s.type then some s.value else if t' = t then none else b.shapes t'
         shapeIndex := some s.type }
     | none =>
       if (b.shapes s.type).isSome || b.aabb.isSome then none
       else b.position.bind fun pos => b.orientation.map fun orn =>
         { b with
           shapes := fun t' => if t' = s.type then some s.value else b.shapes t'
           shapeIndex := some s.type
           aabb := some (env.aabb s pos orn) }).map (assignRoll env s)

/-- `rigidbody_set_shape`, `rigidbody.cpp` 471-495, without the contacts. -/
def setShape (env : Env) (s : Option Shape) (b : Rb) : Option Rb :=
  match s with
  | some s => assignShape env s b
  | none => dropShape b

/-- `rigidbody_replace_kind_tags`, `rigidbody.cpp` 550-566. -/
def replaceTags (k : Kind) (b : Rb) : Rb :=
  { b with
    dynamicTag := k = .dynamic, proceduralTag := k = .dynamic, kinematicTag := k = .kinematic, staticTag := k = .static }

/-- `rigidbody_assert_supports_kind`, `rigidbody.cpp` 568-577. -/
def supports (env : Env) (k : Kind) (b : Rb) : Bool :=
  if k = .dynamic then
    match b.mass, b.inertia with
    | some m, some i => decide (env.eps < m ∧ m < env.large ∧ i ≠ ⟨0, 0, 0⟩)
    | _, _ => false
  else true

/-- `rigidbody_apply_kind`, `rigidbody.cpp` 579-589, with `island_manager::set_procedural`, `island_manager.cpp` 625-662: the
kinds of residents are exchanged. -/
def setKind (env : Env) (k : Kind) (b : Rb) : Option Rb :=
  if supports env k (replaceTags k b) && b.node.isSome then
    some { replaceTags k b with
      node := some (k ≠ .dynamic), resident := k = .dynamic, multiResident := k ≠ .dynamic }
  else none

/-- `update_inertia`, `update_inertias.cpp` 12-42, done in every step for dynamic bodies. -/
def updateInertia (b : Rb) : Rb :=
  if b.dynamicTag then
    match b.orientation, b.inertiaInv, b.worldInv with
    | some orn, some inv, some _ => { b with worldInv := some (toWorld orn inv) }
    | _, _, _ => b
  else b

/-- `rigidbody_update_origin`, `rigidbody.cpp` 403-407, and `update_origins`, `update_origins.cpp` 13-19. -/
def updateOrigin (b : Rb) : Rb :=
  match b.position, b.orientation, b.com, b.origin with
  | some pos, some orn, some c, some _ => { b with origin := some (toWorldSpace (-c) pos orn) }
  | _, _, _, _ => b

/-- `update_aabb` and `update_aabbs`, `update_aabbs.cpp` 33-78.  The box of a polyhedron is taken from its rotated mesh
there. -/
def updateAabb (env : Env) (b : Rb) : Rb :=
  if b.dynamicTag || b.kinematicTag then
    match b.position, b.orientation, b.shapeIndex, b.aabb with
    | some pos, some orn, some t, some _ =>
      match b.shapes t with
      | some value =>
        if env.staticOnly t then b else { b with aabb := some (env.aabb ⟨t, value⟩ (b.origin.getD pos) orn) }
      | none => b
    | _, _, _, _ => b
  else b

/-- A step of the simulation: the solver moves dynamic bodies and changes their velocities, `island_solver.cpp` 358-376 and
the position constraints, here to arbitrary values; then `solver.cpp` 453-465. -/
def step (env : Env) (pos : V3 ℝ) (orn : Quat ℝ) (v w : V3 ℝ) (b : Rb) : Rb :=
  let b' := if b.dynamicTag then
      { b with position := some pos, orientation := some orn, linvel := some v, angvel := some w }
    else b
  updateInertia (updateAabb env (updateOrigin b'))

/-- What can be done to a body. -/
inductive Op
  | impulse (j rel : V3 ℝ)
  | torque (t : V3 ℝ)
  | kinPos (pos : V3 ℝ) (dt : ℝ)
  | kinOrn (orn : Quat ℝ) (dt : ℝ)
  | mass (m : ℝ)
  | inertia (i : M3 ℝ)
  | com (c : V3 ℝ)
  | origin (o : V3 ℝ)
  | shape (s : Option Shape)
  | kind (k : Kind)
  | step (pos : V3 ℝ) (orn : Quat ℝ) (v w : V3 ℝ)

/-- One operation. -/
def apply (env : Env) : Op → Rb → Option Rb
  | .impulse j rel, b => applyImpulse j rel b
  | .torque t, b => applyTorque t b
  | .kinPos pos dt, b => setKinPos pos dt b
  | .kinOrn orn dt, b => setKinOrn orn dt b
  | .mass m, b => setMass env m b
  | .inertia i, b => setInertia i b
  | .com c, b => applyCom c b
  | .origin o, b => setOrigin o b
  | .shape s, b => setShape env s b
  | .kind k, b => setKind env k b
  | .step pos orn v w, b => some (step env pos orn v w b)

/-- A sequence of operations. -/
def run (env : Env) : List Op → Rb → Option Rb
  | [], b => some b
  | op :: ops, b => (apply env op b).bind (run env ops)

end

end Edyn.Body
