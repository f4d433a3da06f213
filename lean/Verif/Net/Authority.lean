import Verif.EntityMap.Model
import Verif.Net.TimedQueue

/-!
# What a client may change on the server

`include/edyn/networking/util/server_snapshot_importer.hpp`, `src/edyn/networking/sys/server_side.cpp` and
`replace_into_registry` of `include/edyn/networking/util/pool_snapshot_data.hpp`, for a server which steps the simulation
in the same thread (with the asynchronous stepper a snapshot is applied by the simulation worker instead,
`server_side.cpp` 47-48).

Simplifications: components hold a number and references to entities; all constraint types are one component; the graph is
a set of nodes and edges and what a traversal visits is a relation (C09 proves that the traversal of the code visits
exactly that); the values of the assertions on masses and moments of inertia are left out; packets sent back are left out;
entity identifiers are not reused, as they carry a version; the cache of the ownership test, `reach_cache`, is left out,
since the registry does not change while it is in use.
-/

namespace Edyn.Net.Auth

open Edyn.EntityMap (Entity EMap insert erase contains at?)
open Edyn.Net.TimedQueue (Timed insertPacket)

/-! ## Model -/

/-- The components which matter: `networked_comp.hpp` 39-85 and the ones derived in `server_side.cpp` 118-166.  Tags are
components without data: 0 is `rigidbody_tag`, 1 `external_tag`, 2 `procedural_tag`, 3 `networked_tag`.  `input` are the
components derived from `network_input`. -/
inductive Comp where
  | owner | history | child | constraint | shape | mass | inertia | position | orientation
  | input (n : ℕ) | plain (n : ℕ) | tag (n : ℕ)
  | aabb | massInv | inertiaInv
  deriving DecidableEq

/-- `std::is_empty_v<Component>`. -/
def Comp.empty : Comp → Bool
  | .tag _ => true
  | _ => false

/-- `std::is_base_of_v<network_input, Component> || std::is_same_v<action_history, Component>`,
`server_snapshot_importer.hpp` 203-204. -/
def Comp.isInput : Comp → Bool
  | .history | .input _ => true
  | _ => false

/-- The value of a component: its data and the entities it refers to. -/
structure Value where
  data : ℕ
  refs : List (Option Entity)
  deriving DecidableEq

/-- The registry and the entity graph.  `node`: `graph_node`, and whether it is non-connecting.  `edges`: the entity of the
edge and its two nodes. -/
structure Reg where
  valid : Entity → Bool
  comp : Entity → Comp → Option Value
  node : Entity → Option Bool
  edges : List (Entity × Entity × Entity)
  next : Entity

/-- Assigns or replaces a component. -/
def Reg.set (r : Reg) (e : Entity) (k : Comp) (v : Value) : Reg :=
  { r with comp := fun e' k' => if e' = e ∧ k' = k then some v else r.comp e' k' }

/-- `entity_owner::client_entity`, `entity_owner.hpp` 13-15: `none` if there is no owner component or it is null. -/
def Reg.owner (r : Reg) (e : Entity) : Option Entity := ((r.comp e .owner).bind (·.refs[0]?)).join

/-- The nodes visited by `entity_graph::traverse` from a node: non-connecting nodes are visited but not left. -/
inductive Reg.Visits (r : Reg) (s : Entity) : Entity → Prop
  | start : r.Visits s s
  | along {u v w} : r.Visits s u → r.node u = some false → (w, u, v) ∈ r.edges → r.Visits s v
  | against {u v w} : r.Visits s u → r.node u = some false → (w, v, u) ∈ r.edges → r.Visits s v

/-- The node to start from, `server_snapshot_importer.hpp` 80-91.  `none`: a component which does not exist is read. -/
def Reg.start (r : Reg) (e : Entity) : Option Entity :=
  match r.edges.find? (·.1 = e) with
  | some (_, a, _) => some a
  | none =>
    if (r.node e).isSome then some e
    else (r.comp e .child).bind fun v => (v.refs[0]?).join.bind fun p => if (r.node p).isSome then some p else none

open Classical in
/-- `is_only_reachable_client`, `server_snapshot_importer.hpp` 67-110. -/
noncomputable def Reg.only (r : Reg) (c e : Entity) : Option Bool :=
  (r.start e).map fun s =>
    let dest := decide (∃ v, r.Visits s v ∧ r.owner v = some c)
    let other := decide (∃ v d, r.Visits s v ∧ r.owner v = some d ∧ d ≠ c)
    dest && !other

/-- The values of one component type in a packet, `pool_snapshot_data.hpp` 43-46: the indices of the entities and the
values; for tags the values are not used. -/
structure Pool where
  comp : Comp
  items : List (ℕ × Value)

/-- `packet::registry_snapshot`, without its time stamp. -/
structure Snap where
  entities : List Entity
  pools : List Pool

/-- The packets which change the registry, `edyn_packet.hpp` 29-46; the others are `other`. -/
inductive Packet where
  | snapshot (s : Snap)
  | create (s : Snap)
  | destroy (es : List Entity)
  | updateMap (pairs : List (Entity × Entity))
  | other

/-- `remote_client`, `remote_client.hpp` 21-51. -/
structure Client where
  emap : EMap
  owned : List Entity
  queue : List (Timed ℚ Packet)

/-- What is not part of this model: `action_history::empty`, `action_history::merge` with the sorting and shifting before it
(see `Verif.Net.ActionHistory`). -/
structure Env where
  noActions : Value → Bool
  merge : Value → Value → Value

/-- `map_child_entity`, `map_child_entity.hpp` 16-63: references which are not known become null. -/
def mapRefs (m : EMap) (v : Value) : Value := { v with refs := v.refs.map fun o => o.bind (at? m) }

/-! ### Creation -/

/-- The first loop of `process_packet(create_entity)`, `server_side.cpp` 87-98. -/
def createLoop (c : Entity) : List Entity → Reg → Client → Option (Reg × Client)
  | [], r, cl => some (r, cl)
  | x :: xs, r, cl =>
    if contains cl.emap x then createLoop c xs r cl
    else
      let e := r.next
      let r' := { r with valid := fun e' => if e' = e then true else r.valid e', next := r.next + 1 }
      (insert cl.emap x e).bind fun m =>
        createLoop c xs (r'.set e .owner ⟨0, [some c]⟩) { cl with emap := m, owned := e :: cl.owned }

/-- `import_components`, `server_snapshot_importer.hpp` 112-175, one element, with `check_ownership` false, which is how it
is called (`server_side.cpp` 110-111). -/
def importItem (entities : List Entity) (k : Comp) (it : ℕ × Value) (s : Reg × EMap) : Option (Reg × EMap) :=
  (entities[it.1]?).bind fun x =>
    match at? s.2 x with
    | none => some s
    | some e =>
      if !s.1.valid e then (erase s.2 x).map fun m => (s.1, m)
      else if k.empty then
        some (if (s.1.comp e k).isSome then s else (s.1.set e k ⟨0, []⟩, s.2))
      else some (s.1.set e k (mapRefs s.2 it.2), s.2)

/-- The loops of `import`, `server_snapshot_importer.hpp` 279-295. -/
def importItems (entities : List Entity) (k : Comp) : List (ℕ × Value) → Reg × EMap → Option (Reg × EMap)
  | [], s => some s
  | it :: its, s => (importItem entities k it s).bind (importItems entities k its)

/-- `import`, `server_snapshot_importer.hpp` 288-294. -/
def importPools (entities : List Entity) : List Pool → Reg × EMap → Option (Reg × EMap)
  | [], s => some s
  | p :: ps, s => (importItems entities p.comp p.items s).bind (importPools entities ps)

/-- `registry.emplace` of a derived component if another one is there; `none`: the derived one is there already. -/
def derive (r : Reg) (e : Entity) (base derived : Comp) : Option Reg :=
  if (r.comp e base).isSome then
    if (r.comp e derived).isSome then none else some (r.set e derived ⟨0, []⟩)
  else some r

/-- The second loop, `server_side.cpp` 115-166, for one entity.  `none`: the entity is not valid, or a component read or
assigned is missing or there already. -/
def finishEntity (r : Reg) (e : Entity) : Option Reg :=
  if !r.valid e then none
  else if (r.comp e .shape).isSome && !((r.comp e .position).isSome && (r.comp e .orientation).isSome) then none
  else
    (derive r e .shape .aabb).bind fun r =>
    (derive r e .mass .massInv).bind fun r =>
    (derive r e .inertia .inertiaInv).bind fun r =>
      let r := if (r.comp e (.tag 3)).isSome then r else r.set e (.tag 3) ⟨0, []⟩
      if ((r.comp e (.tag 0)).isSome || (r.comp e (.tag 1)).isSome) && (r.node e).isNone then
        let procedural := (r.comp e (.tag 2)).isSome
        some { r with node := fun e' => if e' = e then some !procedural else r.node e' }
      else some r

/-- `create_graph_edge`, `server_side.cpp` 55-65 and 170-174.  `none`: a body has no node. -/
def edgeEntity (r : Reg) (e : Entity) : Option Reg :=
  match r.comp e .constraint with
  | none => some r
  | some v =>
    if (r.edges.find? (·.1 = e)).isSome then some r
    else
      (v.refs[0]?).join.bind fun a => (v.refs[1]?).join.bind fun b =>
        if (r.node a).isSome && (r.node b).isSome then some { r with edges := r.edges ++ [(e, a, b)] } else none

/-- A loop over the entities of the packet which looks up each of them with `entity_map.at`. -/
def forEach (m : EMap) (f : Reg → Entity → Option Reg) : List Entity → Reg → Option Reg
  | [], r => some r
  | x :: xs, r => (at? m x).bind fun e => (f r e).bind (forEach m f xs)

/-- `process_packet(create_entity)`, `server_side.cpp` 77-175. -/
def processCreate (c : Entity) (p : Snap) (r : Reg) (cl : Client) : Option (Reg × Client) :=
  (createLoop c p.entities r cl).bind fun s =>
  (importPools p.entities p.pools (s.1, s.2.emap)).bind fun i =>
  (forEach i.2 finishEntity p.entities i.1).bind fun r =>
  (forEach i.2 edgeEntity p.entities r).map fun r => (r, { s.2 with emap := i.2 })

/-! ### Destruction -/

/-- `registry.destroy`: all components are removed; with its node go the edges attached to it, and their entities
(`island_manager::on_destroy_graph_node`). -/
def Reg.gone (r : Reg) (e : Entity) (e' : Entity) : Prop :=
  e' = e ∨ ∃ a b, (e', a, b) ∈ r.edges ∧ (a = e ∨ b = e)

open Classical in
/-- The registry after `registry.destroy(e)`. -/
noncomputable def Reg.destroy (r : Reg) (e : Entity) : Reg where
  valid e' := if r.gone e e' then false else r.valid e'
  comp e' k := if r.gone e e' then none else r.comp e' k
  node e' := if r.gone e e' then none else r.node e'
  edges := r.edges.filter fun x => x.1 ≠ e ∧ x.2.1 ≠ e ∧ x.2.2 ≠ e
  next := r.next

/-- `process_packet(destroy_entity)`, `server_side.cpp` 177-200.  `none`: `owned_entities.erase` of an entity which is not
in the set. -/
noncomputable def processDestroy (c : Entity) : List Entity → Reg → Client → Option (Reg × Client)
  | [], r, cl => some (r, cl)
  | x :: xs, r, cl =>
    match at? cl.emap x with
    | none => processDestroy c xs r cl
    | some e =>
      if r.valid e && r.owner e == some c then
        (erase cl.emap x).bind fun m =>
          if e ∈ cl.owned then
            processDestroy c xs (r.destroy e) { cl with emap := m, owned := cl.owned.filter (· ≠ e) }
          else none
      else processDestroy c xs r cl

/-- `process_update_entity_map_packet`, `process_update_entity_map_packet.cpp` 6-15: the first element of a pair is an
entity of the server. -/
def processMap (r : Reg) : List (Entity × Entity) → EMap → Option EMap
  | [], m => some m
  | p :: ps, m => if r.valid p.1 then (insert m p.2 p.1).bind (processMap r ps) else processMap r ps m

/-! ### Snapshots -/

/-- `for (auto &entity : packet.entities)`, `server_side.cpp` 654-660: `none` if an entity is not known, then the packet is
discarded. -/
def toLocal (m : EMap) : List Entity → Option (List Entity)
  | [] => some []
  | x :: xs => (at? m x).bind fun e => (toLocal m xs).map (e :: ·)

/-- The last element in place of the one removed, `server_snapshot_importer.hpp` 184-187. -/
def swapLast {α : Type} (t : List α) : List α :=
  match t.getLast? with
  | none => []
  | some l => l :: t.dropLast

theorem swapLast_length {α : Type} (t : List α) : (swapLast t).length = t.length := by
  unfold swapLast
  rcases t.eq_nil_or_concat with rfl | ⟨L, b, rfl⟩ <;> simp

/-- Whether the element stays, `server_snapshot_importer.hpp` 192-224. -/
noncomputable def keepItem (r : Reg) (c : Entity) (entities : List Entity) (k : Comp) (it : ℕ × Value) : Option Bool :=
  (entities[it.1]?).bind fun e =>
    if !r.valid e then some false
    else if k.isInput then some (r.owner e == some c)
    else r.only c e

/-- `transform_components_to_local`, `server_snapshot_importer.hpp` 177-231. -/
noncomputable def transformItems (r : Reg) (c : Entity) (m : EMap) (entities : List Entity) (k : Comp) :
    List (ℕ × Value) → Option (List (ℕ × Value))
  | [] => some []
  | it :: its =>
    (keepItem r c entities k it).bind fun keep =>
      if keep then (transformItems r c m entities k its).map ((it.1, mapRefs m it.2) :: ·)
      else transformItems r c m entities k (swapLast its)
  termination_by l => l.length
  decreasing_by all_goals simp [swapLast_length]

/-- `transform_to_local`, `server_snapshot_importer.hpp` 297-316: pools of tags are left as they are. -/
noncomputable def transformPools (r : Reg) (c : Entity) (m : EMap) (entities : List Entity) : List Pool → Option (List Pool)
  | [] => some []
  | p :: ps =>
    (if p.comp.empty then some p else (transformItems r c m entities p.comp p.items).map fun l => { p with items := l }).bind
      fun q => (transformPools r c m entities ps).map (q :: ·)

/-- The loop of `merge_action_history`, `server_snapshot_importer.hpp` 330-348.  `none`: a bad index, or the entity has no
`action_history` to patch. -/
def mergeItems (env : Env) (entities : List Entity) : List (ℕ × Value) → Reg → Option Reg
  | [], r => some r
  | it :: its, r =>
    (entities[it.1]?).bind fun e =>
      if env.noActions it.2 then mergeItems env entities its r
      else (r.comp e .history).bind fun cur => mergeItems env entities its (r.set e .history (env.merge cur it.2))

/-- `merge_action_history`, `server_snapshot_importer.hpp` 318-352: the first pool of that type is merged and replaced by
the last pool of the packet. -/
def mergeHistory (env : Env) (s : Snap) (r : Reg) : Option (Reg × Snap) :=
  match s.pools.findIdx? (·.comp = .history) with
  | none => some (r, s)
  | some i =>
    ((s.pools[i]?).bind fun p => mergeItems env s.entities p.items r).map fun r' =>
      (r', { s with pools := s.pools.take i ++ swapLast (s.pools.drop (i + 1)) })

/-- `enqueue_packet<registry_snapshot>`, `server_side.cpp` 640-682; the time stamp is the one computed there. -/
noncomputable def receiveSnapshot (env : Env) (c : Entity) (s : Snap) (t : ℚ) (r : Reg) (cl : Client) :
    Option (Reg × Client) :=
  match toLocal cl.emap s.entities with
  | none => some (r, cl)
  | some es =>
    (transformPools r c cl.emap es s.pools).bind fun ps =>
    (mergeHistory env ⟨es, ps⟩ r).map fun q =>
      if q.2.pools.isEmpty then (q.1, cl)
      else (q.1, { cl with queue := insertPacket cl.queue t (.snapshot q.2) })

/-- `replace_into_registry`, `pool_snapshot_data.hpp` 115-132. -/
def replaceItems (entities : List Entity) (k : Comp) : List (ℕ × Value) → Reg → Option Reg
  | [], r => some r
  | it :: its, r =>
    (entities[it.1]?).bind fun e =>
      if r.valid e && (r.comp e k).isSome then replaceItems entities k its (r.set e k it.2)
      else replaceItems entities k its r

/-- `process_packet(registry_snapshot)`, `server_side.cpp` 46-53 with `snap_to_pool_snapshot.cpp` 51-65: nothing is done
for tags. -/
def replacePools (entities : List Entity) : List Pool → Reg → Option Reg
  | [], r => some r
  | p :: ps, r =>
    (if p.comp.empty then some r else replaceItems entities p.comp p.items r).bind (replacePools entities ps)

/-! ### The server -/

/-- The overloads of `process_packet`. -/
noncomputable def processPacket (c : Entity) (p : Packet) (r : Reg) (cl : Client) : Option (Reg × Client) :=
  match p with
  | .snapshot s => (replacePools s.entities s.pools r).map fun r => (r, cl)
  | .create s => processCreate c s r cl
  | .destroy es => processDestroy c es r cl
  | .updateMap ps => (processMap r ps cl.emap).map fun m => (r, { cl with emap := m })
  | .other => some (r, cl)

/-- The server: its registry and its clients. -/
structure State where
  reg : Reg
  clients : Entity → Option Client

/-- What happens: a client joins (`server_make_client`, `server_side.cpp` 717-734); a packet of a client arrives, with the
time stamp given to it; the first packet in the queue of a client is processed if it is due
(`server_process_timed_packets` does this until none is due); anything else changes the registry. -/
inductive Op where
  | join (c : Entity)
  | receive (c : Entity) (p : Packet) (t : ℚ)
  | process (c : Entity) (limit : ℚ)
  | world (r : Reg)

/-- Replaces the data of a client. -/
def State.put (s : State) (c : Entity) (x : Reg × Client) : State :=
  ⟨x.1, fun c' => if c' = c then some x.2 else s.clients c'⟩

/-- `server_receive_packet`, `server_side.cpp` 684-701, `server_process_timed_packets`, 309-325. -/
noncomputable def step (env : Env) (s : State) : Op → Option State
  | .join c => some (s.put c (s.reg, ⟨EntityMap.init, [], []⟩))
  | .receive c p t =>
    (s.clients c).bind fun cl =>
      (match p with
       | .snapshot q => receiveSnapshot env c q t s.reg cl
       | .other => processPacket c .other s.reg cl
       | p => some (s.reg, { cl with queue := insertPacket cl.queue t p })).map (s.put c)
  | .process c limit =>
    (s.clients c).bind fun cl =>
      match cl.queue with
      | [] => some s
      | q :: qs =>
        if q.timestamp > limit then some s
        else (processPacket c q.packet s.reg { cl with queue := qs }).map (s.put c)
  | .world r => some ⟨r, s.clients⟩

/-! ## Specification -/

/-- New entities are not in use. -/
def Fresh (r : Reg) : Prop := ∀ e, r.valid e = true → e < r.next

/-- The simulation and the program which runs the server do not lose track of the identifiers. -/
def Op.Ok : Op → Prop
  | .world r => Fresh r
  | _ => True

/-- The server has been running: `past` are the registries there have been, the latest first, including the present. -/
inductive Runs (env : Env) : List Reg → State → Prop
  | init (r : Reg) : Fresh r → Runs env [r] ⟨r, fun _ => none⟩
  | step {past s op s'} : Runs env past s → op.Ok → step env s op = some s' → Runs env (s'.reg :: past) s'

/-- Where an entity is in the graph: a body, a constraint at one of its bodies, or a part of a body. -/
def At (r : Reg) (e n : Entity) : Prop :=
  (r.node e ≠ none ∧ n = e) ∨ (∃ a b, (e, a, b) ∈ r.edges ∧ (n = a ∨ n = b)) ∨
    ∃ v, r.comp e .child = some v ∧ v.refs[0]? = some (some n)

/-- What a client may change: inputs and actions of entities it owns; everything else of entities which are connected to
one of its own entities and to none of another client. -/
def May (r : Reg) (c e : Entity) (k : Comp) : Prop :=
  if k.isInput then r.owner e = some c
  else ∃ n, At r e n ∧ (∃ v, r.Visits n v ∧ r.owner v = some c) ∧ ∀ v d, r.Visits n v → r.owner v = some d → d = c

/-- What a client may destroy: its own entities, and with a body the constraints attached to it. -/
def MayDestroy (r : Reg) (c e : Entity) : Prop :=
  r.owner e = some c ∨ ∃ b, r.owner b = some c ∧ ∃ x y, (e, x, y) ∈ r.edges ∧ (x = b ∨ y = b)

/-- The steps a client causes. -/
def Op.By (c : Entity) : Op → Prop
  | .receive c' _ _ | .process c' _ => c' = c
  | _ => False

end Edyn.Net.Auth
