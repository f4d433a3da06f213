import Mathlib.Algebra.Order.Group.Defs
import Mathlib.Logic.Function.Basic
import Verif.DynTree.Model
import Verif.Collision.ManifoldMapModel

/-!
# Model of `edyn::broadphase`

`src/edyn/collision/broadphase.cpp` lines 43-62, 75-111, 119-232 and 242-265,
`include/edyn/collision/broadphase.hpp` lines 13-18, 71-93, and
`src/edyn/util/rigidbody.cpp` lines 547-565 and 579-606 (how the kind of a body changes).

* The trees are those of `Verif/DynTree/Model.lean`, the manifold map is that of
  `Verif/Collision/ManifoldMapModel.lean`.
* The components of an entity are one function per component type. Entity identifiers carry a
  version and are never reused, so an entity that was destroyed is one without components; then
  `entity_vector_erase_invalid` (line 76) drops entries that line 87 would skip, and is left out.
* Bodies and manifolds have separate supplies of identifiers; `registry.create()` hands out the
  next one.
* The order in which a view visits entities is a parameter of `update`, one list per loop.
* Scalars are a linearly ordered additive group: the broadphase adds and compares.
* Not modelled: the tree of islands (lines 64-73, 113-116) and `clear` (lines 234-240), which
  nothing in the library calls.
-/

namespace Edyn.Broad

open Edyn.DynTree (upd Params)

/-- `rigidbody.hpp` `rigidbody_kind`. The tags follow the kind (`rigidbody.cpp:550-565`): a dynamic
body has `procedural_tag`, a kinematic one has `kinematic_tag`, a static one has neither. -/
inductive Kind where
  | dynamic
  | kinematic
  | static
  deriving Repr, DecidableEq

/-- `procedural_tag` is present (`rigidbody.cpp:555-563`). -/
def Kind.procedural : Kind → Bool
  | .dynamic => true
  | _ => false

variable {S : Type} [LinearOrder S] [AddCommGroup S]

/-- What the broadphase is parametric in: the tree's constants, the two distances of
`broadphase.hpp:15-18` and `settings::should_collide_func`. -/
structure Config (S : Type) [LinearOrder S] where
  tree : Params S
  /-- `contact_breaking_threshold`: `m_aabb_offset` is its negation in each coordinate. -/
  near : S
  /-- `m_separation_threshold`. -/
  apart : S
  collides : Nat → Nat → Bool

/-- `aabb.hpp:17-19` `inset` by `-k` in each coordinate. -/
def grow (k : S) (b : Box S) : Box S :=
  ⟨⟨b.min.x + -k, b.min.y + -k, b.min.z + -k⟩, ⟨b.max.x - -k, b.max.y - -k, b.max.z - -k⟩⟩

/-- The registry and the broadphase. -/
structure World (S : Type) where
  /-- `AABB` components. -/
  aabb : Nat → Option (Box S)
  kind : Nat → Kind
  /-- `sleeping_tag` of bodies. -/
  asleep : Nat → Bool
  /-- `disabled_tag` of bodies. -/
  off : Nat → Bool
  /-- `tree_resident` components: node id and `procedural`. -/
  resident : Nat → Option (Nat × Bool)
  /-- `true`: `m_tree`; `false`: `m_np_tree`. -/
  tree : Bool → DynTree.State S
  /-- `m_new_aabb_entities`. -/
  fresh : List Nat
  /-- `contact_manifold` components and the `contact_manifold_map`. -/
  map : ManifoldMap.State
  /-- The manifold has `sleeping_tag` or `disabled_tag`. -/
  idle : Nat → Bool
  /-- The next manifold entity. -/
  next : Nat

/-- A registry to which nothing was added. -/
def init (b : Box S) : World S where
  aabb _ := none
  kind _ := .static
  asleep _ := false
  off _ := false
  resident _ := none
  tree _ := DynTree.init b
  fresh := []
  map := ManifoldMap.init
  idle _ := false
  next := 0

/-- `registry.emplace<AABB>` with `broadphase.cpp:43-46` `on_construct_aabb`. `none`: the entity has
the component. -/
def addAabb (w : World S) (e : Nat) (b : Box S) : Option (World S) :=
  match w.aabb e with
  | some _ => none
  | none => some { w with aabb := upd w.aabb e (some b), fresh := w.fresh ++ [e] }

/-- `broadphase.cpp:48-62` `on_destroy_aabb` and `on_destroy_tree_resident`: the AABB component is
removed. -/
def removeAabb (w : World S) (e : Nat) : Option (World S) :=
  match w.aabb e with
  | none => none
  | some _ =>
    match w.resident e with
    | none => some { w with aabb := upd w.aabb e none }
    | some (id, p) =>
      (DynTree.destroy (w.tree p) id).map fun t =>
        { w with
          aabb := upd w.aabb e none
          resident := upd w.resident e none
          tree := Function.update w.tree p t }

/-- Something assigns the AABB of a body (`update_aabbs.cpp`). `none`: there is no AABB. -/
def setAabb (w : World S) (e : Nat) (b : Box S) : Option (World S) :=
  match w.aabb e with
  | none => none
  | some _ => some { w with aabb := upd w.aabb e (some b) }

/-- `broadphase.cpp:242-265` `set_procedural`. -/
def setProcedural (P : Params S) (w : World S) (e : Nat) (p : Bool) : Option (World S) :=
  match w.aabb e, w.resident e with
  | some b, some (id, q) =>
    if q = p then some w
    else
      (DynTree.destroy (w.tree q) id).bind fun t =>
      let w1 := { w with tree := Function.update w.tree q t }
      (DynTree.create P (w1.tree p) b (some e)).map fun (id', t') =>
        { w1 with
          tree := Function.update w1.tree p t'
          resident := upd w1.resident e (some (id', p)) }
  | _, _ => some w

/-- `rigidbody.cpp:591-605`: the manifolds of `e` with other bodies that are not procedural. -/
def dropInert (w : World S) (e : Nat) : Option (World S) :=
  (w.map.manifolds.entries.foldlM (fun m (i, (b0, b1)) =>
    if b0 = e ∨ b1 = e then
      if (w.kind (if b0 = e then b1 else b0)).procedural then some m
      else ManifoldMap.destroy m i
    else some m) w.map).map fun m => { w with map := m }

/-- `rigidbody.cpp:579-606` `rigidbody_apply_kind`, without the graph and the islands. -/
def setKind (P : Params S) (w : World S) (e : Nat) (k : Kind) : Option (World S) :=
  (setProcedural P { w with kind := upd w.kind e k } e k.procedural).bind fun w1 =>
  if k.procedural then some w1 else dropInert w1 e

/-- `broadphase.cpp:85-94`: one entity of `m_new_aabb_entities`. `none`: the entity already has a
`tree_resident` (line 93). -/
def enroll (P : Params S) (w : World S) (e : Nat) : Option (World S) :=
  match w.aabb e with
  | none => some w
  | some b =>
    let p := (w.kind e).procedural
    (DynTree.create P (w.tree p) b (some e)).bind fun (id, t) =>
    match w.resident e with
    | some _ => none
    | none =>
      some { w with
        tree := Function.update w.tree p t
        resident := upd w.resident e (some (id, p)) }

/-- `broadphase.cpp:75-97` `init_new_aabb_entities`. -/
def enrollNew (P : Params S) (w : World S) : Option (World S) :=
  (w.fresh.foldlM (enroll P) w).map fun w => { w with fresh := [] }

/-- Not excluded by `exclude_sleeping_disabled`. -/
def awake (w : World S) (e : Nat) : Bool := !w.asleep e && !w.off e

/-- `broadphase.cpp:102-104` (`p` is `true`) and 109-111 (`p` is `false`): one entity of the view.
The view holds entities with a `tree_resident`, an `AABB` and the tag. -/
def moveOne (P : Params S) (p : Bool) (k : Kind) (w : World S) (e : Nat) : Option (World S) :=
  match w.aabb e, w.resident e with
  | some b, some (id, _) =>
    if w.kind e = k ∧ awake w e then
      (DynTree.move P (w.tree p) id b).map fun (_, t) =>
        { w with tree := Function.update w.tree p t }
    else some w
  | _, _ => some w

/-- `broadphase.cpp:99-111` `move_aabbs`. -/
def moveAabbs (P : Params S) (w : World S) (o1 o2 : List Nat) : Option (World S) :=
  (o1.foldlM (moveOne P true .dynamic) w).bind fun w => o2.foldlM (moveOne P false .kinematic) w

/-- `broadphase.cpp:124-133`: one manifold. `none`: a body has no AABB (lines 125, 126). -/
def dropOne (C : Config S) (w : World S) (m : ManifoldMap.State) :
    Nat × (Nat × Nat) → Option ManifoldMap.State
  | (i, (b0, b1)) =>
    if w.idle i then some m
    else
      match w.aabb b0, w.aabb b1 with
      | some a0, some a1 =>
        if (grow C.apart a0).intersect a1 then some m else ManifoldMap.destroy m i
      | _, _ => none

/-- `broadphase.cpp:119-134` `destroy_separated_manifolds`. -/
def dropSeparated (C : Config S) (w : World S) : Option (World S) :=
  (w.map.manifolds.entries.foldlM (dropOne C w) w.map).map fun m => { w with map := m }

/-- The manifolds and the next entity: what `collide_tree` changes. -/
abbrev Made := ManifoldMap.State × Nat

/-- `constraint_util.cpp:60-74` `make_contact_manifold`. `none`: an assertion fails. -/
def make (w : World S) (m : Made) (a b : Nat) : Option Made :=
  if w.kind a = .dynamic ∨ w.kind b = .dynamic then
    (ManifoldMap.construct m.1 m.2 a b).map fun s => (s, m.2 + 1)
  else none

/-- `broadphase.cpp:143-154`: one node reported by the query. -/
def hit (C : Config S) (w : World S) (t : DynTree.State S) (e : Nat) (box : Box S) (m : Made)
    (id : Nat) : Option Made :=
  match t.c2 id with
  | none => none
  | some o =>
    if C.collides e o && !ManifoldMap.contains m.1 e o && !w.off o then
      match w.aabb o with
      | none => none
      | some b => if box.intersect b then make w m e o else some m
    else some m

/-- `broadphase.cpp:136-155` `collide_tree`. -/
def collideTree (C : Config S) (w : World S) (t : DynTree.State S) (e : Nat) (box : Box S)
    (m : Made) : Option Made :=
  (DynTree.query t box).bind fun ids => ids.foldlM (hit C w t e box) m

/-- `broadphase.cpp:163-174`: one node reported by the query. -/
def hitAsync (C : Config S) (w : World S) (t : DynTree.State S) (e : Nat) (box : Box S)
    (acc : List (Nat × Nat)) (id : Nat) : Option (List (Nat × Nat)) :=
  match t.c2 id with
  | none => none
  | some o =>
    if C.collides e o && !w.off o then
      match w.aabb o with
      | none => none
      | some b => if box.intersect b then some (acc ++ [(e, o)]) else some acc
    else some acc

/-- `broadphase.cpp:157-175` `collide_tree_async`. -/
def collideTreeAsync (C : Config S) (w : World S) (t : DynTree.State S) (e : Nat) (box : Box S)
    (acc : List (Nat × Nat)) : Option (List (Nat × Nat)) :=
  (DynTree.query t box).bind fun ids => ids.foldlM (hitAsync C w t e box) acc

/-- The view of `broadphase.cpp:183`, 198 and 213: awake procedural bodies with their AABB, in the
order given. -/
def seekers (w : World S) (o : List Nat) : List (Nat × Box S) :=
  o.filterMap fun e =>
    if (w.kind e).procedural ∧ awake w e then (w.aabb e).map fun b => (e, b) else none

/-- `broadphase.cpp:189-193`: one body of the sequential loop. -/
def seek (C : Config S) (w : World S) (m : Made) : Nat × Box S → Option Made
  | (e, b) =>
    (collideTree C w (w.tree true) e (grow C.near b) m).bind fun m =>
    collideTree C w (w.tree false) e (grow C.near b) m

/-- `broadphase.cpp:203-209`: one index of the parallel loop. The ranges handed to the workers cover
every index once (C19 in `Verif/Parallel/Task.lean`) and each index has its own list of results, so
the results do not depend on the schedule. -/
def seekAsync (C : Config S) (w : World S) : Nat × Box S → Option (List (Nat × Nat))
  | (e, b) =>
    (collideTreeAsync C w (w.tree true) e (grow C.near b) []).bind fun acc =>
    collideTreeAsync C w (w.tree false) e (grow C.near b) acc

/-- `broadphase.cpp:225-229`: one pair. -/
def finishOne (w : World S) (m : Made) (x : Nat × Nat) : Option Made :=
  if ManifoldMap.contains m.1 x.1 x.2 then some m else make w m x.1 x.2

/-- `broadphase.cpp:212-232` `collide_parallel` and `finish_collide`. -/
def collideParallel (C : Config S) (w : World S) (l : List (Nat × Box S)) (m : Made) :
    Option Made :=
  (l.mapM (seekAsync C w)).bind fun rs =>
  rs.foldlM (fun m r => r.foldlM (finishOne w) m) m

/-- `broadphase.cpp:177-195` `update`. `m_max_sequential_size` is 8 (`broadphase.hpp:67`). -/
def update (C : Config S) (mt : Bool) (o1 o2 o3 : List Nat) (w : World S) : Option (World S) :=
  (enrollNew C.tree w).bind fun w =>
  (dropSeparated C w).bind fun w =>
  (moveAabbs C.tree w o1 o2).bind fun w =>
  (if mt ∧ 8 < (seekers w o3).length then
    collideParallel C w (seekers w o3) (w.map, w.next)
  else (seekers w o3).foldlM (seek C w) (w.map, w.next)).map fun m =>
  { w with map := m.1, next := m.2 }

/-- `broadphase.hpp:81-93` `query_procedural` and `query_non_procedural`: the entities handed to
`func`. -/
def queryBodies (w : World S) (p : Bool) (box : Box S) : Option (List (Option Nat)) :=
  (DynTree.query (w.tree p) box).map fun ids => ids.map (w.tree p).c2

/-- What a program does to the world. -/
inductive Op (S : Type) where
  | addAabb (e : Nat) (b : Box S)
  | removeAabb (e : Nat)
  | setAabb (e : Nat) (b : Box S)
  | setKind (e : Nat) (k : Kind)
  | setAsleep (e : Nat) (v : Bool)
  | setOff (e : Nat) (v : Bool)
  | setIdle (i : Nat) (v : Bool)
  | dropManifold (i : Nat)
  | swapManifold (i : Nat)
  | enrollNew
  | update (mt : Bool) (o1 o2 o3 : List Nat)

/-- One operation. -/
def step (C : Config S) (w : World S) : Op S → Option (World S)
  | .addAabb e b => addAabb w e b
  | .removeAabb e => removeAabb w e
  | .setAabb e b => setAabb w e b
  | .setKind e k => setKind C.tree w e k
  | .setAsleep e v => some { w with asleep := upd w.asleep e v }
  | .setOff e v => some { w with off := upd w.off e v }
  | .setIdle i v => some { w with idle := upd w.idle i v }
  | .dropManifold i => (ManifoldMap.destroy w.map i).map fun m => { w with map := m }
  | .swapManifold i => (ManifoldMap.swap w.map i).map fun m => { w with map := m }
  | .enrollNew => enrollNew C.tree w
  | .update mt o1 o2 o3 => update C mt o1 o2 o3 w

/-- A list of operations. -/
def run (C : Config S) (w : World S) : List (Op S) → Option (World S)
  | [] => some w
  | o :: os => (step C w o).bind fun w' => run C w' os

end Edyn.Broad
