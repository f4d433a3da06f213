import Verif.Math.Real

/-!
# Presentation of bodies: interpolation and smoothing of corrections (C83, C84)

`src/edyn/sys/update_presentation.cpp`, `include/edyn/networking/sys/assign_previous_transforms.hpp`,
`include/edyn/networking/sys/accumulate_discontinuities.hpp`, `include/edyn/networking/comp/discontinuity.hpp`,
`src/edyn/networking/util/process_extrapolation_result.cpp`, `src/edyn/networking/util/snap_to_pool_snapshot.cpp`
and `stepper_async::calculate_presentation_delay`.

All these systems treat every entity on its own, so the model is of one dynamic body of a client with
presentation.  It has the components given to such bodies (`client_side.cpp` 434-445, `rigidbody.cpp` 99-102).
Scalars are exact reals.
-/

namespace Edyn.Present

open Edyn.Math

/-- A position with an orientation, or an offset of both (`discontinuity`, `discontinuity.hpp` 15-18). -/
@[ext] structure Pose where
  pos : V3 ℝ
  orn : Quat ℝ

/-- The default members of `discontinuity`, `discontinuity.hpp` 16-17. -/
noncomputable def Pose.none : Pose := ⟨0, 1⟩

/-- The simulated state of a body: `position`, `orientation`, `linvel`, `angvel`. -/
@[ext] structure State where
  pose : Pose
  vel : V3 ℝ
  ang : V3 ℝ

/-- A dynamic body of a client. -/
@[ext] structure Body where
  st : State
  /-- `previous_position`, `previous_orientation`. -/
  prev : Pose
  /-- `discontinuity`. -/
  dis : Pose
  /-- `discontinuity_accumulator`. -/
  acc : Pose
  /-- `present_position`, `present_orientation`. -/
  shown : Pose
  procedural : Bool
  sleeping : Bool
  disabled : Bool

/-- `exclude_sleeping_disabled`, `island_util.hpp` 11. -/
abbrev Body.awake (b : Body) : Bool := !b.sleeping && !b.disabled

/-! ### Corrections -/

/-- `assign_previous_transforms`, `assign_previous_transforms.hpp` 11-19. -/
def assignPrevious (b : Body) : Body := { b with prev := b.st.pose }

/-- The accumulator after one more jump, `accumulate_discontinuities.hpp` 18-19. -/
noncomputable def addJump (acc prev now : Pose) : Pose :=
  ⟨acc.pos + (prev.pos - now.pos), acc.orn * (prev.orn * now.orn.conjugate)⟩

/-- `accumulate_discontinuities`, `accumulate_discontinuities.hpp` 12-22. -/
noncomputable def accumulate (b : Body) : Body :=
  if b.awake then { b with acc := addJump b.acc b.prev b.st.pose } else b

/-- Component values of the body are replaced, if it is part of the message: `registry_operation::execute`,
`process_extrapolation_result.cpp` 42, and `replace_into_registry`, `snap_to_pool_snapshot.cpp` 31-33. -/
def replace (new : Option State) (b : Body) : Body :=
  match new with
  | some s => { b with st := s }
  | none => b

/-- A state received from the server or computed by extrapolation is applied: `process_extrapolation_result`,
`process_extrapolation_result.cpp` 35-61, and `snap_to_pool_snapshot`, `snap_to_pool_snapshot.cpp` 23-49, with
`wake_up_island_residents`, `client_side.cpp` 731, after it; `wake`: the island of the body is woken up.  Origins,
inertias and bounding boxes are in `Body/Model.lean`. -/
noncomputable def correct (new : Option State) (wake : Bool) (b : Body) : Body :=
  let b := accumulate (replace new (assignPrevious b))
  if wake then { b with sleeping := false } else b

/-! ### Presentation -/

/-- The transfer of the accumulated offset, `update_presentation.cpp` 24-29. -/
noncomputable def transfer (b : Body) : Body :=
  { b with dis := ⟨b.dis.pos + b.acc.pos, Quat.normalize (b.dis.orn * b.acc.orn)⟩, acc := .none }

/-- `update_presentation.cpp` 36-40. -/
noncomputable def decayPos (s : ℝ) (o : V3 ℝ) : V3 ℝ :=
  if 1 / 10000 < V3.lengthSqr o then o - V3.smul (min s 1) o else 0

/-- `update_presentation.cpp` 42-46; `eps` is `EDYN_EPSILON`. -/
noncomputable def decayOrn (eps s : ℝ) (q : Quat ℝ) : Quat ℝ :=
  if |q.w| < 9999 / 10000 then slerp eps q 1 (min s 1) else 1

/-- `update_discontinuities`, `update_presentation.cpp` 19-54; `rate` is the decay rate. -/
noncomputable def updateDis (eps rate dt : ℝ) (b : Body) : Body :=
  let b := transfer b
  let b := { b with dis := ⟨decayPos (rate * dt) b.dis.pos, decayOrn eps (rate * dt) b.dis.orn⟩ }
  if b.sleeping then { b with dis := .none } else b

/-- Interpolation of the transforms, `update_presentation.cpp` 71-77. -/
noncomputable def interpolate (idt : ℝ) (b : Body) : Body :=
  if b.awake && b.procedural then
    { b with shown := ⟨b.st.pose.pos + V3.smul idt b.st.vel, Quat.integrate b.st.pose.orn b.st.ang idt⟩ }
  else b

/-- The offset is added, `update_presentation.cpp` 79-83. -/
noncomputable def addOffset (b : Body) : Body :=
  { b with shown := ⟨b.shown.pos + b.dis.pos, b.dis.orn * b.shown.orn⟩ }

/-- `interpolation_dt`, `update_presentation.cpp` 69. -/
noncomputable def interpolationDt (fixedDt simTime now delay : ℝ) : ℝ := min (now - delay - simTime) fixedDt

/-- `update_presentation` of a client, `update_presentation.cpp` 56-84, for an interpolation interval. -/
noncomputable def present (eps rate dt idt : ℝ) (b : Body) : Body :=
  addOffset (interpolate idt (updateDis eps rate dt b))

/-- `snap_presentation`, `update_presentation.cpp` 86-92. -/
def snapPresentation (b : Body) : Body := { b with shown := b.st.pose }

/-- The body falls asleep, `island_manager.cpp` 548-560. -/
noncomputable def fallAsleep (b : Body) : Body := { b with sleeping := true, st := { b.st with vel := 0, ang := 0 } }

/-! ### Corrections in the simulation worker -/

/-- The body in the simulation worker and the values of its accumulator among the operations which have not
been sent yet (`m_op_builder`). -/
structure Worker where
  b : Body
  out : List Pose

/-- `clear_accumulated_discontinuities_quietly`, `accumulate_discontinuities.hpp` 24-30, called at
`simulation_worker.cpp` 351. -/
noncomputable def Worker.clear (w : Worker) : Worker :=
  if w.b.awake then { w with b := { w.b with acc := .none } } else w

/-- A correction in the worker, `simulation_worker.cpp` 694-704: the accumulator is patched
(`accumulate_discontinuities.hpp` 20) for every body that is awake, which appends an operation with its value
(`registry_operation_observer.hpp` 58-62). -/
noncomputable def Worker.correct (new : Option State) (wake : Bool) (w : Worker) : Worker :=
  let b := Present.correct new wake w.b
  ⟨b, if w.b.awake then w.out ++ [b.acc] else w.out⟩

/-- The messages of one update are processed, `simulation_worker.cpp` 348-353. -/
noncomputable def Worker.messages (cs : List (Option State × Bool)) (w : Worker) : Worker :=
  cs.foldl (fun w c => w.correct c.1 c.2) w.clear

/-- `merge_component` of accumulators, `discontinuity.hpp` 22-25. -/
noncomputable def merge (acc op : Pose) : Pose := ⟨acc.pos + op.pos, Quat.normalize (acc.orn * op.orn)⟩

/-- The main thread executes the operations of a step update, `stepper_async.cpp` 134-135 with
`registry_operation.hpp` 197-213: offsets are merged, the state is replaced. -/
noncomputable def receive (ops : List Pose) (s : State) (b : Body) : Body :=
  { b with acc := ops.foldl merge b.acc, st := s }

/-- One update of the worker, `simulation_worker.cpp` 348-460, and the main thread receiving what it sent.  `moved`
is the state after the steps of the update; without steps nothing is sent. -/
noncomputable def workerUpdate (cs : List (Option State × Bool)) (moved : Option State) (x : Worker × Body) : Worker × Body :=
  let w := x.1.messages cs
  match moved with
  | none => (w, x.2)
  | some s => (⟨{ w.b with st := s }, []⟩, receive w.out s x.2)

/-! ### The delay of the presentation -/

/-- The members of `stepper_async` for the delay, `stepper_async.hpp` 117-122; `samples` has 48 elements. -/
structure Delay where
  samples : List ℝ
  delay : ℝ
  adjusting : Bool

/-- `target_presentation_delay`, `stepper_async.cpp` 249-259. -/
noncomputable def targetDelay (fixedDt : ℝ) (samples : List ℝ) : ℝ :=
  let avg := samples.sum / samples.length
  let dev := (samples.map fun v => |v - avg|).sum / samples.length
  ⌈(avg + dev) / fixedDt⌉ * fixedDt

/-- The samples with the newest one, `stepper_async.cpp` 245-247. -/
noncomputable def addSample (d : ℝ) (samples : List ℝ) : List ℝ := samples.drop 1 ++ [min d 1]

/-- `calculate_presentation_delay`, `stepper_async.cpp` 240-277; `diff` is the current time minus the
simulation time. -/
noncomputable def calcDelay (fixedDt diff elapsed : ℝ) (s : Delay) : Delay :=
  let samples := addSample diff s.samples
  let target := targetDelay fixedDt samples
  let err := target - s.delay
  let adjusting := if s.adjusting then true else decide (fixedDt < |err|)
  if adjusting then
    let rate : ℝ := if 0 < err then 5 else 2
    let delay := s.delay + err * min (rate * elapsed) 1
    if |target - delay| < 1 / 100000 then ⟨samples, target, false⟩ else ⟨samples, delay, true⟩
  else ⟨samples, s.delay, adjusting⟩

/-- `stepper_async::set_paused`, `stepper_async.cpp` 304-310, and the initial values. -/
noncomputable def Delay.start : Delay := ⟨List.replicate 48 0, 0, true⟩

end Edyn.Present
