import Verif.Common.AMap

/-!
# Model of collision filtering and collision exclusion

* `src/edyn/collision/should_collide.cpp` lines 11-57
* `include/edyn/comp/collision_filter.hpp` lines 8-12
* `include/edyn/comp/collision_exclusion.hpp` lines 17-32
* `src/edyn/util/exclude_collision.cpp` lines 9-69
-/

namespace Edyn.Collision

abbrev Entity := Nat

/-- `collision_filter.hpp:8-12`, `uint64_t` bit masks. -/
structure Filter where
  group : BitVec 64
  mask : BitVec 64
  deriving Repr, DecidableEq

/-- `collision_filter.hpp:9` `all_groups = ~0ull`. -/
def allGroups : BitVec 64 := BitVec.allOnes 64

/-- `collision_exclusion.hpp:19` (`max_exclusions`). -/
def maxExclusions : Nat := 16

/-- `collision_exclusion.hpp:20-21`: the fixed-size array, `none` is `entt::null`. -/
abbrev ExclArray := List (Option Entity)

/-- The default member initializer: sixteen nulls. -/
def ExclArray.init : ExclArray := List.replicate maxExclusions none

/-- `collision_exclusion.hpp:23-31` `num_entities`: index of the first null. -/
def numEntities (a : ExclArray) : Nat := (a.takeWhile Option.isSome).length

/-- The part of the registry these functions touch. -/
structure Reg where
  /-- has a `rigidbody_tag` -/
  isBody : Entity → Bool
  filter : AMap Entity Filter
  excl : AMap Entity ExclArray

/-- `should_collide.cpp:11-21` `should_exclude`. -/
def shouldExclude (r : Reg) (first second : Entity) : Bool :=
  match r.excl.get? first with
  | some a => (a.take (numEntities a)).any (· == some second)
  | none => false

/-- `should_collide.cpp:23-57` `should_collide_default`. -/
def shouldCollide (r : Reg) (first second : Entity) : Bool :=
  if first = second then false
  else
    let rejectedByFilter : Bool :=
      match r.filter.get? first, r.filter.get? second with
      | some f0, some f1 => (f0.group &&& f1.mask) == 0 || (f1.group &&& f0.mask) == 0
      | some f, none => (f.group &&& allGroups) == 0 || (f.mask &&& allGroups) == 0
      | none, some f => (f.group &&& allGroups) == 0 || (f.mask &&& allGroups) == 0
      | none, none => false
    if rejectedByFilter then false
    else if shouldExclude r first second || shouldExclude r second first then false
    else true

/-- `exclude_collision.cpp:9-28` `exclude_collision_one_way`. `none`: an assertion fails. -/
def excludeOneWay (r : Reg) (first second : Entity) : Option Reg :=
  if r.isBody first = false then none
  else
    let a := (r.excl.get? first).getD ExclArray.init
    let size := numEntities a
    if (a.take size).any (· == some second) then some { r with excl := r.excl.set first a }
    else if size < maxExclusions then
      some { r with excl := r.excl.set first (a.set size (some second)) }
    else none

/-- `exclude_collision.cpp:30-33` `exclude_collision`. -/
def exclude (r : Reg) (first second : Entity) : Option Reg :=
  (excludeOneWay r first second).bind fun r' => excludeOneWay r' second first

/-- `exclude_collision.cpp:43-50`: the loop from `size` down; `i` is the loop variable. -/
def removeLoop (a : ExclArray) (size : Nat) (second : Entity) : Nat → ExclArray
  | 0 => a
  | i + 1 =>
    if a[i]? = some (some second) then
      (a.set i ((a[size - 1]?).getD none)).set (size - 1) none
    else removeLoop a size second i

/-- `exclude_collision.cpp:39-52` `remove_collision_exclusion_one_way`. `none`: `patch` of a
component the entity does not have (undefined behaviour). -/
def removeOneWay (r : Reg) (first second : Entity) : Option Reg :=
  match r.excl.get? first with
  | none => none
  | some a =>
    some { r with excl := r.excl.set first (removeLoop a (numEntities a) second (numEntities a)) }

/-- `exclude_collision.cpp:54-57` `remove_collision_exclusion`. -/
def remove (r : Reg) (first second : Entity) : Option Reg :=
  (removeOneWay r first second).bind fun r' => removeOneWay r' second first

/-- `exclude_collision.cpp:63-66`: the loop over `i < size`, reading the live array of `entity`.
`none`: `patch` is called on `entt::null` or on an entity without the component. -/
def clearLoop (entity : Entity) (i : Nat) : Nat → Reg → Option Reg
  | 0, r => some r
  | n + 1, r =>
    match r.excl.get? entity with
    | none => none
    | some a =>
      match a[i]? with
      | some (some other) => (removeOneWay r other entity).bind (clearLoop entity (i + 1) n)
      | _ => none

/-- `exclude_collision.cpp:59-69` `clear_collision_exclusion`. `none`: no component. -/
def clear (r : Reg) (entity : Entity) : Option Reg :=
  match r.excl.get? entity with
  | none => none
  | some a =>
    (clearLoop entity 0 (numEntities a) r).map fun r' => { r' with excl := r'.excl.erase entity }

inductive Op where
  | exclude (a b : Entity)
  | remove (a b : Entity)
  | clear (a : Entity)
  deriving Repr, DecidableEq

def step (r : Reg) : Op → Option Reg
  | .exclude a b => exclude r a b
  | .remove a b => remove r a b
  | .clear a => clear r a

def run (r : Reg) : List Op → Option Reg
  | [] => some r
  | o :: os => (step r o).bind fun r' => run r' os

end Edyn.Collision
