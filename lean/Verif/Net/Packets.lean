/-
Model of the request/response packets and of their handling:
  /repo/include/edyn/networking/packet/*.hpp, edyn_packet.hpp
  /repo/src/edyn/networking/sys/server_side.cpp:207-276, client_side.cpp:809-820

The wire type of every alternative of `edyn_packet` is given by `bodyTy`. `pool_snapshot` appears
as its component index and byte vector (pool_snapshot.hpp:20-35); the content of that vector is
modelled in SnapshotModel. `sz` is `sizeof(scalar)`.

Property C50: a response carries the id of the request. True of time requests and asset
synchronisation (`time_response_id`, `asset_sync_response_id`), false of entity queries, whose id
is not serialized (`query_entity_id_lost`).
-/
import Verif.Serial.Props
import Verif.Serial.PagedModel

namespace Edyn.Net.Packets
open Edyn.Serial

/-- An aggregate from the list of its members. -/
def record (l : List Ty) : Ty := .struct l.length fun i => l[i]

/-- entt::entity. -/
def entTy : Ty := .enum 4
/-- pool_snapshot.hpp:20-35. -/
def poolTy : Ty := record [.scalar 2, .vec (.scalar 1)]
/-- registry_snapshot.hpp:35-40. -/
def snapshotTy : Ty := record [.scalar 8, .vec entTy, .vec poolTy]
/-- asset_ref.hpp:23-27. -/
def assetRefTy : Ty := record [.vec (.scalar 1), .map 4 entTy]

/-- The serialized members of each alternative, in the order of edyn_packet.hpp:29-47. -/
def bodies (sz : Nat) : List Ty :=
  [ snapshotTy,                                             -- registry_snapshot
    snapshotTy,                                             -- create_entity.hpp:14-19
    record [.scalar 8, .vec entTy],                         -- destroy_entity.hpp:17-21
    record [.scalar 8, .vec (record [entTy, entTy])],       -- update_entity_map.hpp:18-22
    record [entTy],                                         -- client_created.hpp:16-19
    record [.scalar 8],                                     -- set_playout_delay.hpp:13-16
    record [.scalar 4],                                     -- time_request.hpp:14-17
    record [.scalar 4, .scalar 8],                          -- time_response.hpp:15-19
    record [.scalar sz, vec3Ty sz, .scalar 1, .scalar 1, .scalar 1, .scalar 1, .bool],
                                                            -- server_settings.hpp:32-41
    record [vec3Ty sz, vec3Ty sz],                          -- set_aabb_of_interest.hpp:12-15
    record [.vec (record [entTy, .vec (.scalar 2)])],       -- query_entity.hpp:17-20 (no id!)
    record [.scalar 4, .vec entTy, .vec poolTy],            -- entity_response.hpp:17-23
    record [.vec (record [entTy, assetRefTy, entTy, .vec entTy, .vec poolTy])],
                                                            -- entity_entered.hpp:21-33
    record [.vec entTy],                                    -- entity_exited.hpp:13-16
    record [.scalar 4, entTy],                              -- asset_sync.hpp:15-19
    record [.scalar 4, entTy, .vec entTy, .vec poolTy] ]    -- asset_sync.hpp:26-33

/-- edyn_packet.hpp:28-47, 62-65. -/
def packetTy (sz : Nat) : Ty := .variant 15 fun i => (bodies sz)[i.val]'(by
  have := i.isLt; simp only [bodies, List.length_cons, List.length_nil]; omega)

/-- Sending a packet and receiving it on the other side: write to a buffer, read into a fresh
packet. -/
def deliver (junk : List UInt8) (sz : Nat) (p : Val (packetTy sz)) : Option (Val (packetTy sz)) := do
  let cs ← write (packetTy sz) p
  let r ← read junk (packetTy sz) (dflt _) ⟨memOut [] cs, 0, false⟩
  if r.2.failed then none else some r.1

/-- **C13** for the network: every packet within the container limits is received as it was
sent. -/
theorem packet_round_trip (junk : List UInt8) (sz : Nat) (p : Val (packetTy sz))
    (h : Ok (packetTy sz) p) : deliver junk sz p = some p := by
  obtain ⟨cs, h1, h2⟩ := round_trip_archive junk (packetTy sz) p h
  simp [deliver, h1, h2]

/-! ### The C++ packets and their handlers -/

/-- struct query_entity, query_entity.hpp:11-15; `id` is a member but not serialized. -/
structure QueryEntity where
  id : List UInt8
  entities : List (Val (record [entTy, .vec (.scalar 2)]))

/-- struct entity_response, entity_response.hpp:13-15. -/
structure EntityResponse where
  id : List UInt8
  entities : Val (.vec entTy)
  pools : Val (.vec poolTy)

/-- struct asset_sync, asset_sync.hpp:10-13. -/
structure AssetSync where
  id : List UInt8
  entity : List UInt8

/-- struct asset_sync_response, asset_sync.hpp:21-24. -/
structure AssetSyncResponse where
  id : List UInt8
  entity : List UInt8
  entities : Val (.vec entTy)
  pools : Val (.vec poolTy)

/-- serialize, query_entity.hpp:17-20. -/
def QueryEntity.write (q : QueryEntity) : Option (List (List UInt8)) :=
  Serial.write (.vec (record [entTy, .vec (.scalar 2)])) q.entities

/-- serialize into the value-initialised packet `T{}` created by the variant reader
(std_s11n.hpp:103-130). -/
def QueryEntity.read (junk : List UInt8) (a : Ar) : Option (QueryEntity × Ar) := do
  let r ← Serial.read junk (.vec (record [entTy, .vec (.scalar 2)])) (dflt _) a
  some (⟨[0, 0, 0, 0], r.1⟩, r.2)

/-- serialize, entity_response.hpp:17-23. -/
def EntityResponse.write (q : EntityResponse) : Option (List (List UInt8)) := do
  let e ← Serial.write (.vec entTy) q.entities
  let p ← Serial.write (.vec poolTy) q.pools
  some ([q.id] ++ e ++ p)

/-- serialize, entity_response.hpp:17-23. -/
def EntityResponse.read (junk : List UInt8) (a : Ar) : Option (EntityResponse × Ar) := do
  let i ← readBytes 4 [0, 0, 0, 0] a
  let e ← Serial.read junk (.vec entTy) (dflt _) i.2
  let p ← Serial.read junk (.vec poolTy) (dflt _) e.2
  some (⟨i.1, e.1, p.1⟩, p.2)

/-- serialize, asset_sync.hpp:15-19. -/
def AssetSync.write (q : AssetSync) : Option (List (List UInt8)) := some [q.id, q.entity]

/-- serialize, asset_sync.hpp:15-19. -/
def AssetSync.read (a : Ar) : Option (AssetSync × Ar) := do
  let i ← readBytes 4 [0, 0, 0, 0] a
  let e ← readBytes 4 (List.replicate 4 0) i.2
  some (⟨i.1, e.1⟩, e.2)

/-- serialize, asset_sync.hpp:26-33. -/
def AssetSyncResponse.write (q : AssetSyncResponse) : Option (List (List UInt8)) := do
  let e ← Serial.write (.vec entTy) q.entities
  let p ← Serial.write (.vec poolTy) q.pools
  some ([q.id, q.entity] ++ e ++ p)

/-- serialize, asset_sync.hpp:26-33. -/
def AssetSyncResponse.read (junk : List UInt8) (a : Ar) : Option (AssetSyncResponse × Ar) := do
  let i ← readBytes 4 [0, 0, 0, 0] a
  let n ← readBytes 4 (List.replicate 4 0) i.2
  let e ← Serial.read junk (.vec entTy) (dflt _) n.2
  let p ← Serial.read junk (.vec poolTy) (dflt _) e.2
  some (⟨i.1, n.1, e.1, p.1⟩, p.2)

/-- An archive over the bytes of a packet. -/
def arrive (cs : List (List UInt8)) : Ar := ⟨memOut [] cs, 0, false⟩

/-- process_packet(query_entity), server_side.cpp:231-248; `export` produces the entities and
pools of the response. -/
def answerQuery («export» : QueryEntity → Val (.vec entTy) × Val (.vec poolTy)) (q : QueryEntity) :
    EntityResponse :=
  ⟨q.id, («export» q).1, («export» q).2⟩

/-- process_packet(asset_sync), server_side.cpp:250-276; `export` is `none` if the entity is not a
valid asset, in which case there is no response. -/
def answerSync («export» : List UInt8 → Option (Val (.vec entTy) × Val (.vec poolTy)))
    (q : AssetSync) : Option AssetSyncResponse :=
  («export» q.entity).map fun x => ⟨q.id, q.entity, x.1, x.2⟩

/-- Request over the wire, answer, response over the wire. -/
def exchangeQuery (junk : List UInt8)
    («export» : QueryEntity → Val (.vec entTy) × Val (.vec poolTy)) (q : QueryEntity) :
    Option EntityResponse := do
  let cs ← q.write
  let r ← QueryEntity.read junk (arrive cs)
  let ds ← (answerQuery «export» r.1).write
  let s ← EntityResponse.read junk (arrive ds)
  some s.1

/-- Request over the wire, answer, response over the wire. -/
def exchangeSync (junk : List UInt8)
    («export» : List UInt8 → Option (Val (.vec entTy) × Val (.vec poolTy))) (q : AssetSync) :
    Option AssetSyncResponse := do
  let cs ← q.write
  let r ← AssetSync.read (arrive cs)
  let a ← answerSync «export» r.1
  let ds ← a.write
  let s ← AssetSyncResponse.read junk (arrive ds)
  some s.1

/-- Time request and response: time_request.hpp:14-17, time_response.hpp:15-19,
server_side.cpp:207-212, client_side.cpp:809-814. The result is the id and timestamp received. -/
def exchangeTime (clock : List UInt8) (id : List UInt8) : Option (List UInt8 × List UInt8) := do
  let r ← readBytes 4 [0, 0, 0, 0] (arrive [id])
  let i ← readBytes 4 [0, 0, 0, 0] (arrive [r.1, clock])
  let t ← readBytes 8 (List.replicate 8 0) i.2
  some (i.1, t.1)

/-! ### Theorems -/

theorem at_arrive (cs : List (List UInt8)) : At (arrive cs) cs.flatten :=
  ⟨rfl, Nat.zero_le _, [], by simp [arrive, memOut_eq, bytes]⟩

/-- **C50** for time requests. -/
theorem time_response_id (clock id : List UInt8) (hi : id.length = 4) (hc : clock.length = 8) :
    exchangeTime clock id = some (id, clock) := by
  have a1 := at_arrive [id]
  have a2 := at_arrive [id, clock]
  simp only [List.flatten_cons, List.flatten_nil, List.append_nil] at a1 a2
  have e1 := readBytes_at [0, 0, 0, 0] a1 hi
  have e2 := readBytes_at [0, 0, 0, 0] a2.left hi
  have e3 := readBytes_at (List.replicate 8 0) a2.right hc
  simp only [exchangeTime, e1, Option.bind_eq_bind, Option.bind_some, e2, e3]

/-- **C50** for asset synchronisation: whatever the server exports, the response has the id and
the entity of the request. -/
theorem asset_sync_response_id (junk : List UInt8)
    («export» : List UInt8 → Option (Val (.vec entTy) × Val (.vec poolTy))) (q : AssetSync)
    (hi : q.id.length = 4) (he : q.entity.length = 4) (es : Val (.vec entTy))
    (ps : Val (.vec poolTy)) (hx : «export» q.entity = some (es, ps)) (h1 : Ok (.vec entTy) es)
    (h2 : Ok (.vec poolTy) ps) :
    exchangeSync junk «export» q = some ⟨q.id, q.entity, es, ps⟩ := by
  have a1 := at_arrive [q.id, q.entity]
  simp only [List.flatten_cons, List.flatten_nil, List.append_nil] at a1
  have e1 := readBytes_at [0, 0, 0, 0] a1.left hi
  have e2 := readBytes_at (List.replicate 4 0) a1.right he
  obtain ⟨c1, hc1⟩ := write_defined (.vec entTy) es
  obtain ⟨c2, hc2⟩ := write_defined (.vec poolTy) ps
  have a2 := at_arrive ([q.id, q.entity] ++ c1 ++ c2)
  simp only [List.flatten_append, List.flatten_cons, List.flatten_nil, List.append_nil,
    List.append_assoc] at a2
  have f1 := readBytes_at [0, 0, 0, 0] a2.left hi
  have f2 := readBytes_at (List.replicate 4 0) a2.right.left he
  have f3 := read_at junk _ es h1 c1 hc1 (dflt _) (clean_dflt _) _ a2.right.right.left
  have f4 := read_at junk _ ps h2 c2 hc2 (dflt _) (clean_dflt _) _ a2.right.right.right
  simp only [exchangeSync, AssetSync.write, AssetSync.read, e1, e2, Option.bind_eq_bind,
    Option.bind_some, answerSync, hx, Option.map_some, AssetSyncResponse.write, hc1, hc2,
    AssetSyncResponse.read, List.append_assoc, f1, f2, f3, f4]

/-- The property as written in C50, for entity queries. -/
def QueryResponseHasId : Prop :=
  ∀ (junk : List UInt8) («export» : QueryEntity → Val (.vec entTy) × Val (.vec poolTy))
    (q : QueryEntity), q.id.length = 4 → Ok (.vec (record [entTy, .vec (.scalar 2)])) q.entities →
    (∀ q, Ok (.vec entTy) («export» q).1 ∧ Ok (.vec poolTy) («export» q).2) →
    ∃ r, exchangeQuery junk «export» q = some r ∧ r.id = q.id

/-- Finding: the response to any entity query has id 0; the exported data are those for the
requested entities. -/
theorem query_entity_id_lost (junk : List UInt8)
    («export» : QueryEntity → Val (.vec entTy) × Val (.vec poolTy)) (q : QueryEntity)
    (hq : Ok (.vec (record [entTy, .vec (.scalar 2)])) q.entities)
    (hx : ∀ q, Ok (.vec entTy) («export» q).1 ∧ Ok (.vec poolTy) («export» q).2) :
    exchangeQuery junk «export» q = some ⟨[0, 0, 0, 0],
      («export» ⟨[0, 0, 0, 0], q.entities⟩).1, («export» ⟨[0, 0, 0, 0], q.entities⟩).2⟩ := by
  obtain ⟨c0, hc0⟩ := write_defined (.vec (record [entTy, .vec (.scalar 2)])) q.entities
  have e0 := read_at junk _ _ hq c0 hc0 (dflt _) (clean_dflt _) _ (at_arrive c0)
  obtain ⟨h1, h2⟩ := hx ⟨[0, 0, 0, 0], q.entities⟩
  obtain ⟨c1, hc1⟩ := write_defined (.vec entTy) («export» ⟨[0, 0, 0, 0], q.entities⟩).1
  obtain ⟨c2, hc2⟩ := write_defined (.vec poolTy) («export» ⟨[0, 0, 0, 0], q.entities⟩).2
  have a2 := at_arrive ([[0, 0, 0, 0]] ++ c1 ++ c2)
  simp only [List.flatten_append, List.flatten_cons, List.flatten_nil, List.append_nil,
    List.append_assoc] at a2
  have f1 := readBytes_at [0, 0, 0, 0] a2.left (rfl : _ = 4)
  have f3 := read_at junk _ _ h1 c1 hc1 (dflt _) (clean_dflt _) _ a2.right.left
  have f4 := read_at junk _ _ h2 c2 hc2 (dflt _) (clean_dflt _) _ a2.right.right
  simp only [exchangeQuery, QueryEntity.write, hc0, QueryEntity.read, e0, Option.bind_eq_bind,
    Option.bind_some, answerQuery, EntityResponse.write, hc1, hc2, EntityResponse.read,
    List.append_assoc, f1, f3, f4]

/-- **C50** is false of entity queries. -/
theorem query_response_id_false : ¬ QueryResponseHasId := by
  intro h
  have hv : ∀ t, Ok (.vec t) (dflt (.vec t)) := fun t =>
    ⟨(by decide : 0 ≤ 65535), fun _ h => by cases h⟩
  let ex : QueryEntity → Val (.vec entTy) × Val (.vec poolTy) := fun _ => (dflt _, dflt _)
  have hx : ∀ q, Ok (.vec entTy) (ex q).1 ∧ Ok (.vec poolTy) (ex q).2 := fun _ => ⟨hv _, hv _⟩
  obtain ⟨r, h1, h2⟩ := h [] ex ⟨[1, 0, 0, 0], dflt (.vec _)⟩ rfl (hv _) hx
  rw [query_entity_id_lost [] ex ⟨[1, 0, 0, 0], dflt (.vec _)⟩ (hv _) hx] at h1
  rw [← Option.some.inj h1] at h2
  exact absurd h2 (by decide)

/-- **C50**, partial: an entity query is answered with the right id if that id is 0. -/
theorem query_response_id_partial (junk : List UInt8)
    («export» : QueryEntity → Val (.vec entTy) × Val (.vec poolTy)) (q : QueryEntity)
    (h0 : q.id = [0, 0, 0, 0])
    (hq : Ok (.vec (record [entTy, .vec (.scalar 2)])) q.entities)
    (hx : ∀ q, Ok (.vec entTy) («export» q).1 ∧ Ok (.vec poolTy) («export» q).2) :
    ∃ r, exchangeQuery junk «export» q = some r ∧ r.id = q.id :=
  ⟨_, query_entity_id_lost junk «export» q hq hx, h0.symm⟩

/-- The hypotheses of `asset_sync_response_id` are satisfiable. -/
example : exchangeSync [] (fun _ => some (([[1, 0, 0, 0]] : List (List UInt8)), ([] : List _)))
    ⟨[9, 8, 7, 6], [2, 0, 0, 0]⟩ =
    some ⟨[9, 8, 7, 6], [2, 0, 0, 0], ([[1, 0, 0, 0]] : List (List UInt8)), ([] : List _)⟩ :=
  asset_sync_response_id [] _ ⟨[9, 8, 7, 6], [2, 0, 0, 0]⟩ rfl rfl _ _ rfl
    ⟨by decide, fun x hx => by rcases List.mem_singleton.mp hx with rfl; rfl⟩
    ⟨by decide, fun _ h => by cases h⟩

end Edyn.Net.Packets
