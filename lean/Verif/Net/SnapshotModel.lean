/-
Model of registry snapshots, the payload of all component replication over the network:
  /repo/include/edyn/networking/util/pool_snapshot_data.hpp
  /repo/include/edyn/networking/util/pool_snapshot.hpp
  /repo/include/edyn/networking/packet/registry_snapshot.hpp
  /repo/include/edyn/networking/util/server_snapshot_exporter.hpp (export_all, export_comp_index)
  /repo/include/edyn/networking/util/client_snapshot_importer.hpp (import)
  /repo/src/edyn/networking/util/snap_to_pool_snapshot.cpp (the pool loops)

`ct c` is the serialized type of the component with index `c` (`c < nc`), entities are numbers.
Simplifications: a component of an empty type is a value of `Ty.struct 0`, which occupies no byte,
instead of being left out of `components`; assigning such a value changes nothing.
`none` stands for a failed assertion or an out-of-bounds access.
-/
import Verif.Serial.Model

namespace Edyn.Net.Snapshot
open Edyn.Serial

/-- A pool_snapshot with its pool_snapshot_data_impl, pool_snapshot.hpp:13-16,
pool_snapshot_data.hpp:19-46. -/
structure Pool (ct : Nat → Ty) where
  comp : Nat
  idx : List Nat
  vals : List (Val (ct comp))

/-- packet::registry_snapshot, registry_snapshot.hpp:19-22. -/
structure Snap (ct : Nat → Ty) where
  stamp : List UInt8
  entities : List Nat
  pools : List (Pool ct)

/-- The components of a registry: entity, component index, value. -/
abbrev Reg (ct : Nat → Ty) := Nat → (c : Nat) → Option (Val (ct c))

variable {ct : Nat → Ty}

/-! ### Export -/

/-- The `std::find` / `push_back` of pool_snapshot_data.hpp:138-146: the index (a `uint8_t`) of the
entity and the updated list of entities. -/
def entityIndex (e : Nat) (ents : List Nat) : Nat × List Nat :=
  match ents.findIdx? (· = e) with
  | some i => (i % 256, ents)
  | none => (ents.length % 256, ents ++ [e])

/-- get_pool (registry_snapshot.hpp:46-64) followed by the `push_back`s of
pool_snapshot_data.hpp:148-153. -/
def insertPool (c i : Nat) (v : Val (ct c)) : List (Pool ct) → List (Pool ct)
  | [] => [⟨c, [i], [v]⟩]
  | p :: ps =>
    if h : p.comp = c then ⟨p.comp, p.idx ++ [i], p.vals ++ [h ▸ v]⟩ :: ps
    else p :: insertPool c i v ps

/-- snapshot_insert_entity, registry_snapshot.hpp:66-70 with pool_snapshot_data.hpp:134-154; the
assertion is that the entity is networked and has the component. -/
def insertEntity (networked : Nat → Bool) (reg : Reg ct) (s : Snap ct) (q : Nat × Nat) :
    Option (Snap ct) :=
  if networked q.1 then
    (reg q.1 q.2).map fun v =>
      let r := entityIndex q.1 s.entities
      { s with entities := r.2, pools := insertPool q.2 r.1 v s.pools }
  else none

/-- A sequence of insertions; every export function amounts to one. -/
def insertAll (networked : Nat → Bool) (reg : Reg ct) : Snap ct → List (Nat × Nat) →
    Option (Snap ct)
  | s, [] => some s
  | s, q :: qs => (insertEntity networked reg s q).bind fun s' => insertAll networked reg s' qs

/-- export_comp_index, server_snapshot_exporter.hpp:261-275. -/
def exportCompIndex (nc : Nat) (networked : Nat → Bool) (reg : Reg ct) (s : Snap ct) (e : Nat)
    (indices : List Nat) : Option (Snap ct) :=
  insertAll networked reg s
    ((indices.filter fun c => c < nc ∧ (reg e c).isSome).map fun c => (e, c))

/-- export_all, server_snapshot_exporter.hpp:111-156: all components but the action history. -/
def exportAll (nc : Nat) (isAction : Nat → Bool) (networked : Nat → Bool) (reg : Reg ct)
    (s : Snap ct) (ents : List Nat) : Option (Snap ct) :=
  insertAll networked reg s
    (((List.range nc).filter fun c => !isAction c).flatMap fun c =>
      (ents.filter fun e => (reg e c).isSome).map fun e => (e, c))

/-! ### Wire format -/

/-- pool_snapshot_data_impl::write, pool_snapshot_data.hpp:57-70; the count and the indices are
single bytes. -/
def writeData (p : Pool ct) : Option (List UInt8) :=
  (catM (write (ct p.comp)) p.vals).map fun cs =>
    (([enc 1 p.idx.length] ++ p.idx.map (enc 1)) ++ cs).flatten

/-- The type of the byte vector of a pool. -/
def dataTy : Ty := .vec (.scalar 1)

/-- A byte buffer as a `std::vector<uint8_t>`. -/
def toData (d : List UInt8) : Val dataTy := (d.map fun b => [b] : List (List UInt8))

/-- `data.data()` of a `std::vector<uint8_t>`. -/
def ofData (v : Val dataTy) : List UInt8 := List.flatten (show List (List UInt8) from v)

/-- serialize(output, pool_snapshot), pool_snapshot.hpp:20-35. -/
def writePool (p : Pool ct) : Option (List (List UInt8)) :=
  (writeData p).bind fun d =>
    (write dataTy (toData d)).map fun cs => [enc 2 p.comp] ++ cs

/-- The type of `entities`. -/
def entsTy : Ty := .vec (.enum 4)

/-- Entities as a `std::vector<entt::entity>`. -/
def toEnts (l : List Nat) : Val entsTy := (l.map (enc 4) : List (List UInt8))

/-- The entities of a `std::vector<entt::entity>`. -/
def ofEnts (v : Val entsTy) : List Nat := List.map dec (show List (List UInt8) from v)

/-- serialize(output, registry_snapshot), registry_snapshot.hpp:35-40. -/
def writeSnap (s : Snap ct) : Option (List (List UInt8)) :=
  (write entsTy (toEnts s.entities)).bind fun es =>
    (catM writePool (s.pools.take (min s.pools.length maxSize))).map fun ps =>
      [s.stamp] ++ es ++ [enc 2 (min s.pools.length maxSize)] ++ ps

/-- pool_snapshot_data_impl::read on an archive over `data`, pool_snapshot_data.hpp:72-88 with
pool_snapshot.hpp:27-29. `visit_tuple` with an index outside of the tuple is undefined
(tuple_util.hpp:176-179). The state of the inner archive is discarded. -/
def readData (nc : Nat) (junk : List UInt8) (c : Nat) (data : List UInt8) : Option (Pool ct) :=
  if c < nc then do
    let n ← readBytes 1 [0] ⟨data, 0, false⟩
    let is ← readEach (readBytes 1) (List.replicate (dec n.1) [0]) n.2
    let vs ← readEach (read junk (ct c)) (List.replicate (dec n.1) (dflt (ct c))) is.2
    some ⟨c, is.1.map dec, vs.1⟩
  else none

/-- serialize(input, pool_snapshot), pool_snapshot.hpp:20-35. -/
def readPool (nc : Nat) (junk : List UInt8) (_ : Pool ct) (a : Ar) : Option (Pool ct × Ar) := do
  let c ← readBytes 2 [0, 0] a
  let d ← read junk dataTy (dflt dataTy) c.2
  let p ← readData nc junk (dec c.1) (ofData d.1)
  some (p, d.2)

/-- serialize(input, registry_snapshot) into a fresh snapshot. -/
def readSnap (nc : Nat) (junk : List UInt8) (a : Ar) : Option (Snap ct × Ar) := do
  let t ← readBytes 8 (List.replicate 8 0) a
  let es ← read junk entsTy (dflt entsTy) t.2
  let n ← readBytes 2 (enc 2 0) es.2
  let ps ← readEach (readPool nc junk) (List.replicate (dec n.1) ⟨0, [], []⟩) n.2
  some (⟨t.1, ofEnts es.1, ps.1⟩, ps.2)

/-! ### Import -/

/-- Assign component `c` of entity `l`. -/
def setComp (reg : Reg ct) (l c : Nat) (v : Val (ct c)) : Reg ct := fun l' c' =>
  if h : l' = l ∧ c' = c then some (h.2 ▸ v) else reg l' c'

/-- How the receiving side treats values: the entity map, which local entities are valid,
`map_child_entity`, `merge_component`, and whether missing components are created (import,
client_snapshot_importer.hpp:31-62) or skipped (replace_into_registry,
pool_snapshot_data.hpp:90-114). -/
structure Importer (ct : Nat → Ty) where
  emap : Nat → Option Nat
  valid : Nat → Bool
  mapChild : (c : Nat) → Val (ct c) → Val (ct c)
  merge : (c : Nat) → Val (ct c) → Val (ct c) → Val (ct c)
  create : Bool

/-- One round of the loop of replace_into_registry (pool_snapshot_data.hpp:97-112) or of
import_components (client_snapshot_importer.hpp:31-61). -/
def importOne (im : Importer ct) (ents : List Nat) (c : Nat) (reg : Reg ct)
    (x : Nat × Val (ct c)) : Option (Reg ct) :=
  (ents[x.1]?).map fun e =>
    match im.emap e with
    | none => reg
    | some l =>
      if im.valid l then
        match reg l c with
        | some cur => setComp reg l c (im.merge c cur (im.mapChild c x.2))
        | none => if im.create then setComp reg l c (im.mapChild c x.2) else reg
      else reg

/-- The loop over one pool; `components[i]` is accessed for each index (asserted equal sizes,
pool_snapshot_data.hpp:94). -/
def importPool (im : Importer ct) (ents : List Nat) (p : Pool ct) (reg : Reg ct) :
    Option (Reg ct) :=
  if p.idx.length = p.vals.length then
    (p.idx.zip p.vals).foldlM (importOne im ents p.comp) reg
  else none

/-- snap_to_pool_snapshot.cpp:31-33 / client_snapshot_importer_impl::import,
client_snapshot_importer.hpp:97-108. -/
def importSnap (im : Importer ct) (s : Snap ct) (reg : Reg ct) : Option (Reg ct) :=
  s.pools.foldlM (fun r p => importPool im s.entities p r) reg

end Edyn.Net.Snapshot
