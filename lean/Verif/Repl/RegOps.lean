import Verif.Repl.MappingSafe

/-!
# Recording and replaying registry operations

`include/edyn/replication/registry_operation.hpp`, `registry_operation_builder.hpp`,
`registry_operation_observer.hpp`, `map_child_entity.hpp`, `src/edyn/replication/map_child_entity.cpp`.
-/

namespace Edyn.Repl.RegOps

open Edyn.EntityMap (Entity EMap)

/-- A component value, as `entt::meta` sees it: plain data, members of type `entt::entity`, arrays
of a fixed size, containers which can grow, and maps whose values are entities. `none` is
`entt::null`. Simplification: members nested in other registered types are listed with the rest
(the code visits them recursively, `map_child_entity.hpp:56-61`, with the same rules). -/
structure Val where
  data : Nat
  refs : List (Option Entity) := []
  arrays : List (List (Option Entity)) := []
  seqs : List (List (Option Entity)) := []
  assoc : List (List (Nat × Option Entity)) := []
  deriving Repr, DecidableEq

/-- A registry: valid entities, the next identifier (never reused), components by entity and
type. -/
structure Reg where
  live : List Entity
  next : Nat
  comps : AMap (Entity × Nat) Val
  deriving Repr, DecidableEq

/-- `registry_operation.hpp:56-274`. Empty component types carry an arbitrary fixed value; a
replacement of such a component does nothing, which agrees with assigning that value again. -/
inductive Op where
  | create (e : Entity)
  | destroy (e : Entity)
  | mapEnt (e loc : Entity)
  | emplace (e : Entity) (ty : Nat) (v : Val)
  | replace (e : Entity) (ty : Nat) (v : Val)
  | remove (e : Entity) (ty : Nat)
  deriving Repr, DecidableEq

/-! ## Mapping the entities inside a component -/

/-- `map_child_entity.hpp:24-31`: the local entity, or null. -/
def mapRef (m : EMap) (r : Option Entity) : Option Entity := r.bind m.map.get?

/-- `map_child_entity.hpp:71-75`, `map_child_entity.cpp:49-51`: null if not valid. -/
def validRef (live : List Entity) (r : Option Entity) : Option Entity :=
  r.bind fun e => if e ∈ live then some e else none

/-- `map_child_entity.cpp:6-20` on an array of fixed size: `std::remove_if` moves the non-null
elements to the front and leaves what follows as it was; `erase` fails. `through`: whether
assigning through the iterator of `entt::meta_sequence_container` reaches the element. That is a
property of `entt`, which is not available here, so both answers are modelled. -/
def compactFixed (through : Bool) (l : List (Option Entity)) : List (Option Entity) :=
  let kept := l.filter Option.isSome
  if through then kept ++ l.drop kept.length else l

/-- `map_child_entity.cpp:6-20` on a container which can shrink: everything from the end returned
by `std::remove_if` is erased. -/
def compactDyn (through : Bool) (l : List (Option Entity)) : List (Option Entity) :=
  let kept := l.filter Option.isSome
  if through then kept else l.take kept.length

/-- `map_child_entity.cpp:57-74`: entries whose entity is unknown are erased. -/
def mapAssoc (m : EMap) (l : List (Nat × Option Entity)) : List (Nat × Option Entity) :=
  (l.map fun p => (p.1, mapRef m p.2)).filter fun p => p.2.isSome

/-- `map_child_entity.hpp:98-104` `map_child_entity`: map, then clear what is not valid (entries
of maps are not checked). -/
def mapChild (through : Bool) (live : List Entity) (m : EMap) (v : Val) : Val where
  data := v.data
  refs := (v.refs.map (mapRef m)).map (validRef live)
  arrays := (v.arrays.map fun a => compactFixed through (a.map (mapRef m))).map
    fun a => compactFixed through (a.map (validRef live))
  seqs := (v.seqs.map fun a => compactDyn through (a.map (mapRef m))).map
    fun a => compactDyn through (a.map (validRef live))
  assoc := v.assoc.map (mapAssoc m)

/-! ## Executing operations -/

/-- What the destination does with one operation. `merge` is `merge_component`. `none`: an
assertion fails. -/
structure Cfg where
  through : Bool
  merge : Nat → Val → Val → Val

/-- `registry_operation.hpp:57-62,80-89,113-121,144-162,195-213,243-255`. -/
def exec (c : Cfg) (g : Reg) (m : EMap) : Op → Option (Reg × EMap)
  | .create e =>
    if m.map.contains e then some (g, m)
    else (EntityMap.insert m e g.next).map fun m' =>
      (⟨g.live ++ [g.next], g.next + 1, g.comps⟩, m')
  | .destroy e =>
    match m.map.get? e with
    | none => some (g, m)
    | some l => (EntityMap.erase m e).map fun m' =>
      if l ∈ g.live then
        (⟨g.live.filter (fun x => decide (x ≠ l)), g.next,
          ⟨g.comps.entries.filter fun p => decide (p.1.1 ≠ l)⟩⟩, m')
      else (g, m')
  | .mapEnt e loc =>
    if loc ∈ g.live then
      match m.map.get? e with
      | some l => if l = loc then some (g, m) else none
      | none => (EntityMap.insert m e loc).map fun m' => (g, m')
    else some (g, m)
  | .emplace e ty v =>
    match m.map.get? e with
    | none => some (g, m)
    | some l =>
      if l ∈ g.live ∧ g.comps.get? (l, ty) = none then
        some (⟨g.live, g.next, g.comps.set (l, ty) (mapChild c.through g.live m v)⟩, m)
      else some (g, m)
  | .replace e ty v =>
    match m.map.get? e with
    | none => some (g, m)
    | some l =>
      match g.comps.get? (l, ty) with
      | none => some (g, m)
      | some old =>
        if l ∈ g.live then
          some (⟨g.live, g.next,
            g.comps.set (l, ty) (c.merge ty old (mapChild c.through g.live m v))⟩, m)
        else some (g, m)
  | .remove e ty =>
    match m.map.get? e with
    | none => some (g, m)
    | some l =>
      if l ∈ g.live then some (⟨g.live, g.next, g.comps.erase (l, ty)⟩, m) else some (g, m)

/-- `registry_operation.hpp:323-329` `execute`. -/
def execAll (c : Cfg) (g : Reg) (m : EMap) : List Op → Option (Reg × EMap)
  | [] => some (g, m)
  | o :: os => (exec c g m o).bind fun p => execAll c p.1 p.2 os

/-! ## Recording operations -/

/-- The source: a registry and the entities watched by the observer
(`registry_operation_observer.hpp:44`). -/
structure Src where
  reg : Reg
  watched : List Entity
  deriving Repr, DecidableEq

/-- What happens in the source registry. -/
inductive Ev where
  /-- `registry.create()`. -/
  | spawn
  /-- `registry.emplace<T>(e, v)`. -/
  | emplace (e : Entity) (ty : Nat) (v : Val)
  /-- `registry.patch<T>(e)` / `replace`, after which the component is `v`. -/
  | patch (e : Entity) (ty : Nat) (v : Val)
  /-- `registry.erase<T>(e)`. -/
  | erase (e : Entity) (ty : Nat)
  /-- `observe(e)`. -/
  | observe (e : Entity)
  /-- `unobserve(e)`. -/
  | unobserve (e : Entity)
  /-- The `on_construct` listener called for a component which `observe` has recorded already
  (when constructing the component is what made the entity observed). -/
  | again (e : Entity) (ty : Nat)
  /-- `registry.destroy(e)`, after its components were destroyed one by one (`erase`,
  `unobserve`). -/
  | kill (e : Entity)
  deriving Repr, DecidableEq

/-- `registry_operation_builder.hpp:285-287` `emplace_all(entity)`: the shared component types in
order, those which the entity has. -/
def emplaceAll (types : List Nat) (g : Reg) (e : Entity) : List Op :=
  types.filterMap fun ty => (g.comps.get? (e, ty)).map fun v => Op.emplace e ty v

/-- One event and the operations the active observer records,
`registry_operation_observer.hpp:21-36,51-70`. `none`: not a legal use of the registry. -/
def record (types : List Nat) (s : Src) : Ev → Option (Src × List Op)
  | .spawn => some (⟨⟨s.reg.live ++ [s.reg.next], s.reg.next + 1, s.reg.comps⟩, s.watched⟩, [])
  | .emplace e ty v =>
    if e ∈ s.reg.live ∧ s.reg.comps.get? (e, ty) = none then
      some (⟨⟨s.reg.live, s.reg.next, s.reg.comps.set (e, ty) v⟩, s.watched⟩,
        if e ∈ s.watched ∧ ty ∈ types then [.emplace e ty v] else [])
    else none
  | .patch e ty v =>
    if (s.reg.comps.get? (e, ty)).isSome then
      some (⟨⟨s.reg.live, s.reg.next, s.reg.comps.set (e, ty) v⟩, s.watched⟩,
        if e ∈ s.watched ∧ ty ∈ types then [.replace e ty v] else [])
    else none
  | .erase e ty =>
    if (s.reg.comps.get? (e, ty)).isSome then
      some (⟨⟨s.reg.live, s.reg.next, s.reg.comps.erase (e, ty)⟩, s.watched⟩,
        if e ∈ s.watched ∧ ty ∈ types then [.remove e ty] else [])
    else none
  | .observe e =>
    if e ∈ s.reg.live ∧ e ∉ s.watched then
      some (⟨s.reg, e :: s.watched⟩, .create e :: emplaceAll types s.reg e)
    else none
  | .unobserve e =>
    if e ∈ s.watched then
      some (⟨s.reg, s.watched.filter fun x => decide (x ≠ e)⟩, [.destroy e])
    else none
  | .again e ty =>
    match s.reg.comps.get? (e, ty) with
    | some v => some (s, if e ∈ s.watched ∧ ty ∈ types then [.emplace e ty v] else [])
    | none => none
  | .kill e =>
    if e ∈ s.reg.live ∧ e ∉ s.watched ∧ ∀ p ∈ s.reg.comps.entries, p.1.1 ≠ e then
      some (⟨⟨s.reg.live.filter (fun x => decide (x ≠ e)), s.reg.next, s.reg.comps⟩, s.watched⟩, [])
    else none

/-- A history of the source and everything recorded. -/
def recordAll (types : List Nat) (s : Src) : List Ev → Option (Src × List Op)
  | [] => some (s, [])
  | v :: vs => (record types s v).bind fun p =>
      (recordAll types p.1 vs).map fun q => (q.1, p.2 ++ q.2)

/-- An empty registry. -/
def emptyReg (n : Nat) : Reg := ⟨[], n, AMap.empty⟩

end Edyn.Repl.RegOps
