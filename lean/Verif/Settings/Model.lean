import Mathlib.Order.Defs.LinearOrder
import Mathlib.Data.List.Basic

/-!
# Settings (C97)

`attach`, the functions which change settings, and the simulation and extrapolation workers which have copies of them:
`src/edyn/edyn.cpp`, `config/solver_iteration_config.cpp`, `context/step_callback.cpp`, `collision/should_collide.cpp`,
`util/gravity_util.cpp`, `util/insert_material_mixing.cpp`, `util/settings_util.cpp`, `include/edyn/util/transient_util.hpp`,
`replication/register_external.cpp`, `networking/networking.cpp`, `networking/extrapolation/extrapolation_callback.cpp`,
`networking/sys/client_side.cpp`, `networking/sys/server_side.cpp`, `simulation/simulation_worker.cpp` and
`networking/extrapolation/extrapolation_worker.cpp`.  Functions are numbers, a pointer to a function that may be null is an
option.  `V`: numbers; `K`: tables of material pairs.
-/

namespace Edyn.Cfg

/-- `client_network_settings`, `include/edyn/networking/settings/client_network_settings.hpp` 11-32. -/
structure Client (V : Type) where
  snapshotRate : V
  roundTrip : V
  extrapolation : Bool
  decay : V
  maxAge : V
  init : Option ℕ := none
  deinit : Option ℕ := none
  begin : Option ℕ := none
  finish : Option ℕ := none
  preStep : Option ℕ := none
  postStep : Option ℕ := none

/-- `settings::network_settings`, `include/edyn/context/settings.hpp` 51-54; the fields of `server_network_settings` are one
value here, which no function changes. -/
inductive Net (V : Type) where
  | off
  | client (c : Client V)
  | server

/-- `std::holds_alternative<client_network_settings>`. -/
def Net.isClient {V : Type} : Net V → Bool
  | .client _ => true
  | _ => false

/-- `include/edyn/config/execution_mode.hpp` 9-29. -/
inductive Mode where
  | sequential | multithreaded | async
  deriving DecidableEq

/-- `settings`, `include/edyn/context/settings.hpp` 21-57.  `async`: `async_settings`, with the ids of
`contact_points_transient`. -/
structure Settings (V : Type) where
  dt : V
  paused : Bool
  gravity : V × V × V
  maxSteps : ℕ
  velocity : ℕ
  position : ℕ
  restitution : ℕ
  individual : ℕ
  mode : Mode
  tasks : ℕ × ℕ × ℕ
  init : Option ℕ
  deinit : Option ℕ
  preStep : Option ℕ
  postStep : Option ℕ
  collide : ℕ
  clear : Option ℕ
  time : ℕ
  net : Net V
  async : Option (Option (List ℕ))

/-- Messages, `include/edyn/parallel/message.hpp` 23-37.  `ops`: `set_registry_operation_context`. -/
inductive Msg (V K : Type) where
  | paused (b : Bool)
  | settings (s : Settings V)
  | ops (k : ℕ)
  | table (t : K)

/-- The part of the simulation worker that settings are about: its copies, `m_paused`, whether it takes results of
extrapolations, and the init callbacks that it has called so far. -/
structure Worker (V K : Type) where
  settings : Settings V
  paused : Bool
  table : K
  ops : ℕ
  results : Bool
  inits : List ℕ

/-- The same for the extrapolation worker. -/
structure Extra (V K : Type) where
  settings : Settings V
  table : K
  ops : ℕ
  inits : List ℕ

/-- The main registry, the stepper (`seqPaused` is `m_paused` of `stepper_sequential`), the simulation worker with the
messages on their way to it (C20: in order, each once), and the extrapolation worker likewise. -/
structure World (V K : Type) where
  settings : Settings V
  table : K
  ops : ℕ
  seqPaused : Bool
  worker : Option (Worker V K × List (Msg V K))
  extra : Option (Extra V K × List (Msg V K))

variable {V K : Type}

/-- Calling an init callback: `simulation_worker.cpp` 560-562, `extrapolation_worker.cpp` 256-259. -/
def initRun (new cur : Option ℕ) : List ℕ :=
  match new with
  | none => []
  | some f => if some f = cur then [] else [f]

/-- `simulation_worker::on_set_paused`, `on_set_settings`, `on_set_reg_op_ctx` and `on_set_material_table`,
`simulation_worker.cpp` 515-524, 556-588.  Times are left out (C55). -/
def Worker.handle (w : Worker V K) : Msg V K → Worker V K
  | .paused b => { w with paused := b, settings := { w.settings with paused := b } }
  | .settings s => { w with settings := s, inits := w.inits ++ initRun s.init w.settings.init, results := s.net.isClient }
  | .ops k => { w with ops := k }
  | .table t => { w with table := t }

/-- The init callback of `client_network_settings`. -/
def Net.init : Net V → Option ℕ
  | .client c => c.init
  | _ => none

/-- `extrapolation_worker::on_set_settings`, `on_set_reg_op_ctx` and `on_set_material_table`, `extrapolation_worker.cpp`
250-270.  `none`: `std::get` of the wrong alternative.  `set_paused` is not a message of this queue and is dropped. -/
def Extra.handle (x : Extra V K) : Msg V K → Option (Extra V K)
  | .paused _ => some x
  | .settings s => if s.net.isClient ∧ x.settings.net.isClient then
      some { x with settings := s, inits := x.inits ++ initRun s.net.init x.settings.net.init } else none
  | .ops k => some { x with ops := k }
  | .table t => some { x with table := t }

/-- `send_message_to_worker`, if there is a `stepper_async`. -/
def World.toWorker (w : World V K) (m : Msg V K) : World V K :=
  { w with worker := w.worker.map fun p => (p.1, p.2 ++ [m]) }

/-- A message to the extrapolation worker, if there is a `client_network_context`. -/
def World.toExtra (w : World V K) (m : Msg V K) : World V K :=
  { w with extra := w.extra.map fun p => (p.1, p.2 ++ [m]) }

/-- `refresh_settings`, `settings_util.cpp` 8-18; `internal::notify_settings`, `step_callback.cpp` 10-18, and the same lines in
the other functions. -/
def World.refresh (w : World V K) : World V K :=
  (w.toWorker (.settings w.settings)).toExtra (.settings w.settings)

/-- Defaults of `settings`, `settings.hpp` 22-56, and of `client_network_settings`. -/
structure Defaults (V : Type) where
  gravity : V × V × V
  client : Client V

/-- `attach`, `edyn.cpp` 73-141: settings and the stepper.  The job dispatcher and everything else in the context of the
registry are left out. -/
def attach (d : Defaults V) (mode : Mode) (dt : V) (tasks : ℕ × ℕ × ℕ) (table : K) : World V K :=
  let s : Settings V :=
    { dt := dt, paused := false, gravity := d.gravity, maxSteps := 10, velocity := 8, position := 3, restitution := 8, individual := 3,
      mode := mode, tasks := tasks, init := none, deinit := none, preStep := none, postStep := none, collide := 0, clear := none, time := 0,
      net := .off, async := if mode = .async then some none else none }
  { settings := s, table := table, ops := 0, seqPaused := false, extra := none,
    worker := if mode = .async then some (⟨s, false, table, 0, false, []⟩, []) else none }

/-- Functions that set something and then call `refresh_settings`, or do what it does. -/
inductive Setter (V : Type) where
  /-- `set_fixed_dt`, `edyn.cpp` 203-207. -/
  | dt (v : V)
  /-- `set_max_steps_per_update`, `edyn.cpp` 209-213. -/
  | maxSteps (n : ℕ)
  /-- `set_solver_velocity_iterations` and so on, `solver_iteration_config.cpp` 13-75. -/
  | velocity (n : ℕ)
  | position (n : ℕ)
  | restitution (n : ℕ)
  | individual (n : ℕ)
  /-- `set_pre_step_callback` and so on, `step_callback.cpp` 21-43. -/
  | preStep (f : Option ℕ)
  | postStep (f : Option ℕ)
  | init (f : Option ℕ)
  | deinit (f : Option ℕ)
  /-- `set_should_collide`, `should_collide.cpp` 59-70. -/
  | collide (f : ℕ)
  /-- `set_time_source`, `edyn.cpp` 280-287. -/
  | time (f : ℕ)
  /-- `set_contact_point_transient`, `transient_util.hpp` 39-46. -/
  | transient (ids : List ℕ)
  /-- `set_extrapolation_callbacks`, and the functions for one of them with the others as they are,
  `extrapolation_callback.cpp` 8-57. -/
  | callbacks (init deinit begin finish preStep postStep : Option ℕ)

/-- The assignment.  `none`: an empty optional or the wrong alternative of a variant is accessed. -/
def Setter.apply (s : Settings V) : Setter V → Option (Settings V)
  | .dt v => some { s with dt := v }
  | .maxSteps n => some { s with maxSteps := n }
  | .velocity n => some { s with velocity := n }
  | .position n => some { s with position := n }
  | .restitution n => some { s with restitution := n }
  | .individual n => some { s with individual := n }
  | .preStep f => some { s with preStep := f }
  | .postStep f => some { s with postStep := f }
  | .init f => some { s with init := f }
  | .deinit f => some { s with deinit := f }
  | .collide f => some { s with collide := f }
  | .time f => some { s with time := f }
  | .transient ids => match s.async with
    | some _ => some { s with async := some (some ids) }
    | none => none
  | .callbacks a b c d e f => match s.net with
    | .client n => some { s with net := .client { n with init := a, deinit := b, begin := c, finish := d, preStep := e, postStep := f } }
    | _ => none

/-- Functions on the settings of a client, `networking.cpp` 37-98. -/
inductive ClientOp (V : Type) where
  | rate (v : V)
  | roundTrip (v : V)
  | extrapolation (b : Bool)
  | toggle
  | decay (v : V)

/-- The new settings, and whether they count as changed.  `none`: the assertion on the argument fails. -/
def ClientOp.apply [LinearOrder V] [Zero V] (c : Client V) : ClientOp V → Option (Client V × Bool)
  | .rate v => if 0 < v then some ({ c with snapshotRate := v }, decide (c.snapshotRate ≠ v)) else none
  | .roundTrip v => if v < 0 then none else some ({ c with roundTrip := v }, decide (c.roundTrip ≠ v))
  | .extrapolation b => some ({ c with extrapolation := b }, decide (c.extrapolation ≠ b))
  | .toggle => some ({ c with extrapolation := !c.extrapolation }, true)
  | .decay v => if 0 < v then some ({ c with decay := v }, decide (c.decay ≠ v)) else none

/-- What the application, the network and the workers do. -/
inductive Op (V K : Type) where
  | set (o : Setter V)
  | client (o : ClientOp V)
  /-- `set_paused`, `edyn.cpp` 223-231. -/
  | paused (b : Bool)
  /-- `set_gravity`, `gravity_util.cpp` 12-20. -/
  | gravity (g : V × V × V)
  /-- `insert_material_mixing`, `insert_material_mixing.cpp` 9-21, with the new table. -/
  | table (t : K)
  /-- `register_external_components`, `register_external.hpp` 28-64. -/
  | register (actions : Option ℕ) (k : ℕ)
  /-- `remove_external_components`, `register_external.cpp` 9-26. -/
  | unregister
  /-- `init_network_client`, `client_side.cpp` 136-170, once. -/
  | initClient
  /-- `deinit_network_client`, `client_side.cpp` 171-187. -/
  | deinitClient
  /-- `init_network_server` and `deinit_network_server`, `server_side.cpp` 286-306. -/
  | initServer
  | deinitServer
  /-- A packet with the settings of the server, `client_side.cpp` 823-839. -/
  | packet (dt : V) (g : V × V × V) (velocity position restitution individual : ℕ)
  /-- The simulation worker takes a message. -/
  | workerTakes
  /-- The extrapolation worker takes a message. -/
  | extraTakes

/-- One of these. -/
def step [LinearOrder V] [Zero V] (d : Defaults V) (w : World V K) : Op V K → Option (World V K)
  | .set o => (o.apply w.settings).map fun s => ({ w with settings := s } : World V K).refresh
  | .client o => match w.settings.net with
    | .client c => (o.apply c).map fun p =>
        let w' : World V K := { w with settings := { w.settings with net := .client p.1 } }
        if p.2 = true then w'.refresh else w'
    | _ => none
  | .paused b =>
    let w' : World V K := { w with settings := { w.settings with paused := b } }
    some (if w'.worker.isSome then w'.toWorker (.paused b) else { w' with seqPaused := b })
  | .gravity g => some { w with settings := { w.settings with gravity := g } }
  | .table t => some ((({ w with table := t } : World V K).toWorker (.table t)).toExtra (.table t))
  | .register f k =>
    let s : Settings V := match f with
      | some f => { w.settings with clear := some f }
      | none => w.settings
    let w' : World V K := { w with settings := s, ops := k }
    some ((w'.refresh.toWorker (.ops k)).toExtra (.ops k))
  | .unregister =>
    let w' : World V K := { w with settings := { w.settings with clear := none }, ops := 0 }
    some ((w'.refresh.toWorker (.ops 0)).toExtra (.ops 0))
  | .initClient => if w.extra.isSome then none else
    let s : Settings V := { w.settings with net := .client d.client }
    some { ({ w with settings := s } : World V K).toWorker (.settings s) with extra := some (⟨s, w.table, w.ops, []⟩, []) }
  | .deinitClient => some { w with extra := none }
  | .initServer => some { w with settings := { w.settings with net := .server } }
  | .deinitServer => some { w with settings := { w.settings with net := .off } }
  | .packet dt g a b c e => if w.extra.isSome then
      some ({ w with settings := { w.settings with dt := dt, gravity := g, velocity := a, position := b, restitution := c, individual := e } } :
        World V K).refresh
    else none
  | .workerTakes => match w.worker with
    | some (x, m :: q) => some { w with worker := some (x.handle m, q) }
    | _ => some w
  | .extraTakes => match w.extra with
    | some (x, m :: q) => (x.handle m).map fun y => { w with extra := some (y, q) }
    | _ => some w

/-- A history. -/
def run [LinearOrder V] [Zero V] (d : Defaults V) (w : World V K) : List (Op V K) → Option (World V K)
  | [] => some w
  | o :: os => (step d w o).bind fun w' => run d w' os

/-- `narrowphase::finish_detect_collision`, `narrowphase.cpp` 93-94, and `narrowphase::update_contact_manifolds`,
`narrowphase.hpp` 66-67: what is read before contact points are created, even if there are none to create.  `none`: an empty
optional is accessed. -/
def contactTransient (s : Settings V) : Option (Option (List ℕ)) := s.async

end Edyn.Cfg
