import Verif.Common.AMap

/-!
# Model of `edyn::entity_map`

`include/edyn/replication/entity_map.hpp` lines 13-128.
-/

namespace Edyn.EntityMap

/-- An `entt::entity` identifier (any type of identifiers would do). -/
abbrev Entity := Nat

/-- `entity_map.hpp:125-127`: the two `unordered_map` members. -/
structure EMap where
  map : AMap Entity Entity
  mapLocal : AMap Entity Entity
  deriving Repr, DecidableEq

/-- Default construction. -/
def init : EMap := ⟨AMap.empty, AMap.empty⟩

/-- `entity_map.hpp:20-25` `insert`. `none`: one of the two `EDYN_ASSERT`s fails. -/
def insert (m : EMap) (entity loc : Entity) : Option EMap :=
  if m.map.contains entity then none
  else if m.mapLocal.contains loc then none
  else some ⟨m.map.set entity loc, m.mapLocal.set loc entity⟩

/-- `entity_map.hpp:31-35` `erase`. `none`: `map.at` throws. -/
def erase (m : EMap) (entity : Entity) : Option EMap :=
  match m.map.get? entity with
  | none => none
  | some loc => some ⟨m.map.erase entity, m.mapLocal.erase loc⟩

/-- `entity_map.hpp:41-45` `erase_local`. `none`: `map_local.at` throws. -/
def eraseLocal (m : EMap) (loc : Entity) : Option EMap :=
  match m.mapLocal.get? loc with
  | none => none
  | some entity => some ⟨m.map.erase entity, m.mapLocal.erase loc⟩

/-- `entity_map.hpp:52-54`. -/
def contains (m : EMap) (entity : Entity) : Bool := m.map.contains entity

/-- `entity_map.hpp:61-63`. -/
def containsLocal (m : EMap) (loc : Entity) : Bool := m.mapLocal.contains loc

/-- `entity_map.hpp:70-72`. `none`: `map.at` throws. -/
def at? (m : EMap) (entity : Entity) : Option Entity := m.map.get? entity

/-- `entity_map.hpp:79-81`. `none`: `map_local.at` throws. -/
def atLocal? (m : EMap) (loc : Entity) : Option Entity := m.mapLocal.get? loc

/-- `entity_map.hpp:89-99` `erase_if`: loop over the entries of `map`. -/
def eraseIf (m : EMap) (p : Entity → Entity → Bool) : EMap :=
  m.map.entries.foldl
    (fun acc e => if p e.1 e.2 then ⟨acc.map.erase e.1, acc.mapLocal.erase e.2⟩ else acc) m

/-- `entity_map.hpp:106-111` `each`: the pairs handed to the callback. -/
def each (m : EMap) : List (Entity × Entity) := m.map.entries

/-- `entity_map.hpp:116-118` `swap`. -/
def swap (m : EMap) : EMap := ⟨m.mapLocal, m.map⟩

/-- `entity_map.hpp:120-123` `clear`. -/
def clear (_ : EMap) : EMap := init

/-- The public mutators. -/
inductive Op where
  | insert (entity loc : Entity)
  | erase (entity : Entity)
  | eraseLocal (loc : Entity)
  | eraseIf (p : Entity → Entity → Bool)
  | swap
  | clear

/-- One call; `none` if an assertion fails or an exception is thrown. -/
def step (m : EMap) : Op → Option EMap
  | .insert r l => insert m r l
  | .erase r => erase m r
  | .eraseLocal l => eraseLocal m l
  | .eraseIf p => some (eraseIf m p)
  | .swap => some (swap m)
  | .clear => some (clear m)

/-- A sequence of calls. -/
def run (m : EMap) : List Op → Option EMap
  | [] => some m
  | o :: os => (step m o).bind (fun m' => run m' os)

end Edyn.EntityMap
