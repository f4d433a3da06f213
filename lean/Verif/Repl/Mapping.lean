import Verif.EntityMap.Lemmas

/-!
# Main thread and simulation worker: the entity mapping protocol

`src/edyn/simulation/stepper_async.cpp`, `src/edyn/simulation/simulation_worker.cpp`,
`include/edyn/replication/registry_operation.hpp`, `registry_operation_observer.hpp`.

Two registries exchange streams of operations through two first-in first-out queues. The two
sides run the same code up to one flag (`eraseOnImport`), so one `Side` describes either.

Simplifications. Entity identifiers are numbers which are never reused (`entt` recycles slots with
a new version number; the version wrapping around is not modelled). Operations on components do
not touch the maps and are left out, except that the operation which emplaces a constraint
carries the bodies of the graph edge and is joined to the `create` operation which precedes it in
the same message. The operations waiting in the builder and the messages in flight are one list,
oldest first, delivered one operation at a time: every schedule of whole messages is one of the
schedules considered here.
-/

namespace Edyn.Repl.Mapping

open Edyn.EntityMap (Entity EMap)

/-- `registry_operation.hpp:56-137` the operations which concern the entity maps, as sent. -/
inductive Op where
  /-- `operation_create`, with the bodies of the constraint which follows it (none for a body). -/
  | create (e : Entity) (bodies : List Entity)
  /-- `operation_destroy`. -/
  | destroy (e : Entity)
  /-- `operation_map_entity`: `e` is the sender's entity, `loc` the receiver's. -/
  | mapEnt (e loc : Entity)
  deriving Repr, DecidableEq

/-- A valid entity of one registry: the nodes joined by its `graph_edge` (empty if it has none)
and whether the observer watches it (`registry_operation_observer.hpp:44`). -/
structure Entry where
  ent : Entity
  bodies : List Entity
  shared : Bool
  deriving Repr, DecidableEq

/-- One side: `m_registry`, `m_entity_map`, `m_op_builder` and the queue to the other side. -/
structure Side where
  live : List Entry
  next : Nat
  map : EMap
  out : List Op
  /-- Whether a destruction during import erases the mapping: the worker does
  (`simulation_worker.cpp:162-168`), the main thread does not (`stepper_async.cpp:83-87,110-114`). -/
  eraseOnImport : Bool
  deriving Repr, DecidableEq

/-- `registry.valid(e)`. -/
def Side.valid (s : Side) (e : Entity) : Bool := s.live.any fun x => decide (x.ent = e)

/-- The entity has a `graph_node`: watched and not an edge. -/
def Side.isNode (s : Side) (e : Entity) : Bool :=
  s.live.any fun x => decide (x.ent = e) && x.shared && x.bodies.isEmpty

/-- The entity is watched by the observer. -/
def Side.watched (s : Side) (e : Entity) : Bool :=
  s.live.any fun x => decide (x.ent = e) && x.shared

/-- `entity_graph::visit_edges` of the node of `e`: the edge entities. -/
def Side.edgesOf (s : Side) (e : Entity) : List Entity :=
  (s.live.filter fun x => decide (e ∈ x.bodies)).map (·.ent)

/-- `registry.destroy(e)`. -/
def Side.drop (s : Side) (e : Entity) : Side :=
  { s with live := s.live.filter fun x => decide (x.ent ≠ e) }

/-- `if (m_entity_map.contains_local(e)) m_entity_map.erase_local(e)`,
`stepper_async.cpp:83-87,99-103,110-114`, `simulation_worker.cpp:165-167`. -/
def Side.unmap (s : Side) (e : Entity) : Option Side :=
  if s.map.mapLocal.contains e then (EntityMap.eraseLocal s.map e).map fun m => { s with map := m }
  else some s

/-- An entity destroyed by this side: removed from the registry, `unobserve` records the
destruction since the observer is active (`registry_operation_observer.hpp:30-36`), the mapping is
erased. -/
def Side.retire (s : Side) (e : Entity) : Option Side :=
  (s.unmap e).map fun t => { t.drop e with out := t.out ++ [.destroy e] }

/-- Several entities in order. -/
def Side.retireAll (s : Side) : List Entity → Option Side
  | [] => some s
  | e :: es => (s.retire e).bind fun t => t.retireAll es

/-- An edge destroyed while importing: the observer is inactive, so nothing is recorded; the
mapping is erased by the worker only. -/
def Side.dropImporting (s : Side) (e : Entity) : Option Side :=
  (if s.eraseOnImport then s.unmap e else some s).map fun t => t.drop e

/-- Several edges in order. -/
def Side.dropAllImporting (s : Side) : List Entity → Option Side
  | [] => some s
  | e :: es => (s.dropImporting e).bind fun t => t.dropAllImporting es

/-- `make_rigidbody` / `make_constraint` on a fresh entity: `on_construct_shared` →
`observe` (`registry_operation_observer.hpp:21-28`) records the creation.
`constraint_util.cpp:36-40`: the bodies must have a `graph_node`. -/
def Side.new (s : Side) (bodies : List Entity) : Option Side :=
  if bodies.all s.isNode then
    some { s with live := s.live ++ [⟨s.next, bodies, true⟩], next := s.next + 1,
                  out := s.out ++ [.create s.next bodies] }
  else none

/-- `registry.destroy(e)` by the user (main thread) or by the simulation (worker):
`stepper_async.cpp:71-116` / `island_manager.cpp:47-66` with `simulation_worker.cpp:162-168`:
the edges of the node go first, then the entity itself. -/
def Side.del (s : Side) (e : Entity) : Option Side :=
  if s.watched e then (s.retireAll (s.edgesOf e)).bind fun t => t.retire e
  else if s.valid e then some (s.drop e)
  else none

/-- `clear_rigidbody` / `clear_constraint` (`rigidbody.cpp:193-226`, `constraint_util.cpp:53-58`):
the components go, the entity stays valid. Destroying the `graph_node` / `graph_edge` has the same
effects as above. -/
def Side.clear (s : Side) (e : Entity) : Option Side :=
  if s.watched e then
    (s.retireAll (s.edgesOf e)).bind fun t => (t.retire e).map fun u =>
      { u with live := u.live ++ [⟨e, [], false⟩] }
  else none

/-- `make_rigidbody` / `make_constraint` on an entity cleared before. -/
def Side.remake (s : Side) (e : Entity) (bodies : List Entity) : Option Side :=
  if s.valid e && !s.watched e && bodies.all s.isNode then
    some { s.drop e with live := (s.drop e).live ++ [⟨e, bodies, true⟩],
                         out := s.out ++ [.create e bodies] }
  else none

/-- The bodies of an imported constraint: `map_child_entity` followed by the guard of
`create_graph_edge_for_constraint`, `constraint_util.hpp:119`: no edge is inserted unless all
bodies are known and valid. -/
def Side.localBodies (s : Side) (bodies : List Entity) : List Entity :=
  match bodies.mapM (fun b => s.map.map.get? b) with
  | some ls => if ls.all s.valid then ls else []
  | none => []

/-- Import of one operation while the observer is inactive:
`registry_operation.hpp:57-62,80-89,113-121` and the callbacks
`stepper_async.cpp:139-142`, `simulation_worker.cpp:192-195`. `none`: an assertion fails or
`at` throws. -/
def Side.exec (s : Side) : Op → Option Side
  | .create e bodies =>
    (if s.map.map.contains e then some s
     else (EntityMap.insert s.map e s.next).map fun m =>
      { s with live := s.live ++ [⟨s.next, s.localBodies bodies, true⟩], next := s.next + 1,
               map := m }).bind fun t =>
    (t.map.map.get? e).map fun l => { t with out := t.out ++ [.mapEnt l e] }
  | .destroy e =>
    match s.map.map.get? e with
    | none => some s
    | some l =>
      (EntityMap.erase s.map e).bind fun m =>
        let t := { s with map := m }
        if t.valid l then (t.dropAllImporting (t.edgesOf l)).map fun u => u.drop l else some t
  | .mapEnt e loc =>
    if s.valid loc then
      match s.map.map.get? e with
      | some l => if l = loc then some s else none
      | none => (EntityMap.insert s.map e loc).map fun m => { s with map := m }
    else some s

/-- What one side does in one step. -/
inductive Act where
  | new (bodies : List Entity)
  | del (e : Entity)
  | clear (e : Entity)
  | remake (e : Entity) (bodies : List Entity)
  /-- Import the oldest operation sent by the other side; nothing if there is none. -/
  | recv
  deriving Repr, DecidableEq

/-- One step of side `s` facing side `r`. -/
def act (s r : Side) : Act → Option (Side × Side)
  | .new bs => (s.new bs).map fun t => (t, r)
  | .del e => (s.del e).map fun t => (t, r)
  | .clear e => (s.clear e).map fun t => (t, r)
  | .remake e bs => (s.remake e bs).map fun t => (t, r)
  | .recv =>
    match r.out with
    | [] => some (s, r)
    | o :: rest => (s.exec o).map fun t => (t, { r with out := rest })

/-- The two registries. -/
structure Sys where
  main : Side
  worker : Side
  deriving Repr, DecidableEq

/-- `stepper_async` just constructed: both registries without shared entities. The counters may
start anywhere. -/
def init (n k : Nat) : Sys :=
  ⟨⟨[], n, EntityMap.init, [], false⟩, ⟨[], k, EntityMap.init, [], true⟩⟩

/-- One step of the system; `true`: the main thread moves. -/
def step (s : Sys) (a : Bool × Act) : Option Sys :=
  if a.1 then (act s.main s.worker a.2).map fun p => ⟨p.1, p.2⟩
  else (act s.worker s.main a.2).map fun p => ⟨p.2, p.1⟩

/-- A schedule. -/
def run (s : Sys) : List (Bool × Act) → Option Sys
  | [] => some s
  | a :: as => (step s a).bind fun t => run t as

end Edyn.Repl.Mapping
