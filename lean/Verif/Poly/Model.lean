import Verif.Math.Vec

/-!
# Rotated meshes of polyhedra: the model (C91)

A polyhedron keeps the vertices, edges and normals of its mesh in body space and a second copy of
them, rotated into the orientation of the body, which is what the collision functions read and what
the bounding box is made from.  This module models how that copy is made when a shape is set, how it
follows the orientation, who owns it and when it is released.  Entities and cells of memory are
numbered in the order in which they are created and numbers are not reused.
-/

namespace Edyn.Poly

open Edyn.Math

variable {T : Type} [Field T]

/-- The arrays of a `convex_mesh` of which there is a rotated copy
(include/edyn/shapes/convex_mesh.hpp 18-50).  `relevant_faces` has as many entries as
`relevant_normals`, because `calculate_relevant_faces` appends to both together
(src/edyn/shapes/convex_mesh.cpp 204-207), so its size is not kept apart. -/
structure Mesh (T : Type) where
  vertices : List (V3 T)
  edgeVertices : List (V3 T)
  normals : List (V3 T)
  relevantNormals : List (V3 T)
  edgeNormals : List (V3 T)
deriving DecidableEq

/-- `rotated_mesh` (include/edyn/shapes/convex_mesh.hpp 180-185): the same arrays. -/
abbrev RMesh := Mesh

/-- One loop of `update_rotated_mesh_vertices` and `update_rotated_mesh_normals`
(src/edyn/sys/update_rotated_meshes.cpp 15-18, 20-23, 30-33, 35-38, 40-43): each element of the target
whose index is in range of the source is overwritten by the rotated element of the source.  Writing past
the end of the target is undefined behaviour: `none`. -/
def turnInto (q : Quat T) : List (V3 T) → List (V3 T) → Option (List (V3 T))
  | [], dst => some dst
  | _ :: _, [] => none
  | v :: src, _ :: dst => (turnInto q src dst).map (Quat.rotate q v :: ·)

/-- `update_rotated_mesh` of one mesh (src/edyn/sys/update_rotated_meshes.cpp 12-50), with its two
assertions on sizes. -/
def RMesh.update (r : RMesh T) (m : Mesh T) (q : Quat T) : Option (RMesh T) := do
  if m.vertices.length ≠ r.vertices.length then none
  let vs ← turnInto q m.vertices r.vertices
  let evs ← turnInto q m.edgeVertices r.edgeVertices
  if m.normals.length ≠ r.normals.length then none
  let ns ← turnInto q m.normals r.normals
  let rns ← turnInto q m.relevantNormals r.relevantNormals
  let ens ← turnInto q m.edgeNormals r.edgeNormals
  return ⟨vs, evs, ns, rns, ens⟩

/-- `make_rotated_mesh` (src/edyn/shapes/convex_mesh.cpp 267-278): arrays of the right sizes, whose
contents do not matter, then the update. -/
def makeRotated (m : Mesh T) (q : Quat T) : Option (RMesh T) :=
  RMesh.update ⟨.replicate m.vertices.length 0, .replicate m.edgeVertices.length 0,
    .replicate m.normals.length 0, .replicate m.relevantNormals.length 0,
    .replicate m.edgeNormals.length 0⟩ m q

/-- A child of a compound (`shape_node`, include/edyn/shapes/compound_shape.hpp 30-35): a polyhedron with
its pointer `rotated`, or another shape, with the orientation of the child.  Positions of the children
play no part here. -/
inductive Node (T : Type)
  | poly (m : Mesh T) (rotated : Option ℕ) (orn : Quat T)
  | other (orn : Quat T)
deriving DecidableEq

/-- A shape component: `polyhedron_shape` (include/edyn/shapes/polyhedron_shape.hpp 11-34),
`compound_shape`, or one of the others, told apart by a number. -/
inductive Shape (T : Type)
  | poly (m : Mesh T) (rotated : Option ℕ)
  | compound (nodes : List (Node T))
  | other (k : ℕ)
deriving DecidableEq

/-- A child without its pointer (auxiliary). -/
def Node.bare : Node T → Node T
  | .poly m _ o => .poly m none o
  | .other o => .other o

/-- A shape without its pointers (auxiliary): what `shape_aabb` reads of a shape. -/
def Shape.bare : Shape T → Shape T
  | .poly m _ => .poly m none
  | .compound ns => .compound (ns.map Node.bare)
  | .other k => .other k

/-- `rotated_mesh_list` (include/edyn/comp/rotated_mesh_list.hpp 20-32).  `rotated` is the number of
the cell that the component owns. -/
structure RList (T : Type) where
  mesh : Mesh T
  rotated : ℕ
  orn : Quat T
  next : Option ℕ
deriving DecidableEq

/-- The kind of a body: which of the tags it has. -/
inductive Kind
  | dynamic | kinematic | static
deriving DecidableEq

/-- The registry and the two lists of the initializer
(include/edyn/util/polyhedron_shape_initializer.hpp).  `idle` stands for the tags `sleeping_tag` and
`disabled_tag`.  `β` is the type of bounding boxes.  A body has its origin at its position: centres of
mass other than the origin are left out. -/
structure World (T β : Type) where
  /-- The next entity. -/
  n : ℕ := 0
  /-- The next cell. -/
  h : ℕ := 0
  body : ℕ → Bool := fun _ => false
  kind : ℕ → Kind := fun _ => .static
  idle : ℕ → Bool := fun _ => false
  pos : ℕ → V3 T
  orn : ℕ → Quat T
  shape : ℕ → Option (Shape T) := fun _ => none
  box : ℕ → Option β := fun _ => none
  list : ℕ → Option (RList T) := fun _ => none
  heap : ℕ → Option (RMesh T) := fun _ => none
  newPoly : List ℕ := []
  newComp : List ℕ := []

/-- How boxes are computed and how the simulation runs.
`shapeBox` is `shape_aabb` (src/edyn/util/aabb_util.cpp 167-224), which does not read the rotated
copies.
`cloudBox` is `point_cloud_aabb` shifted by the position (src/edyn/sys/update_aabbs.cpp 27-30).
`worker` says whether changes are brought in by the simulation worker
(src/edyn/simulation/simulation_worker.cpp 228-271) or made by the user directly in the registry that is
simulated (the sequential modes). -/
structure Cfg (T β : Type) where
  shapeBox : Shape T → V3 T → Quat T → β
  cloudBox : List (V3 T) → V3 T → β
  worker : Bool

variable {β : Type}

/-- Changing the value of a function at one argument: assignment to one component. -/
def put {α : Type} (f : ℕ → α) (i : ℕ) (a : α) : ℕ → α := fun j => if j = i then a else f j

/-- `make_unique<rotated_mesh>`: a new cell. -/
def World.alloc (w : World T β) (r : RMesh T) : World T β :=
  { w with h := w.h + 1, heap := put w.heap w.h (some r) }

/-- Releasing the cell owned by the list of an entity, if it has a list. -/
def World.free (w : World T β) (c : ℕ) : World T β :=
  match w.list c with
  | none => w
  | some r => { w with heap := put w.heap r.rotated none }

/-- `emplace_or_replace<rotated_mesh_list>`: a component that is replaced releases its cell.  No one
listens to the replacement. -/
def World.putList (w : World T β) (c : ℕ) (r : RList T) : World T β :=
  { w.free c with list := put w.list c (some r) }

/-- Line 105 of src/edyn/util/polyhedron_shape_initializer.cpp: the next entity of a list. -/
def World.link (w : World T β) (c d : ℕ) : Option (World T β) :=
  match w.list c with
  | none => none
  | some r => some { w with list := put w.list c (some { r with next := some d }) }

/-- Signals `on_construct` and `on_update` of the shapes
(src/edyn/util/polyhedron_shape_initializer.cpp 12-20, 43-49). -/
def World.announce (w : World T β) (e : ℕ) : Shape T → World T β
  | .poly _ _ => { w with newPoly := w.newPoly ++ [e] }
  | .compound _ => { w with newComp := w.newComp ++ [e] }
  | .other _ => w

/-- `make_rigidbody` (src/edyn/util/rigidbody.cpp 47-191), as far as shape, box and kind go: a shape is
emplaced together with its bounding box (lines 104-117). -/
def World.create (cfg : Cfg T β) (w : World T β) (s : Option (Shape T)) (p : V3 T) (q : Quat T)
    (k : Kind) : World T β :=
  let e := w.n
  let w := { w with n := e + 1, body := put w.body e true, kind := put w.kind e k,
                    idle := put w.idle e false, pos := put w.pos e p, orn := put w.orn e q }
  match s with
  | none => w
  | some s => { w with shape := put w.shape e (some s),
                       box := put w.box e (some (cfg.shapeBox s.bare p q)) }.announce e s

/-- `rigidbody_set_shape` and `rigidbody_assign_shape` (src/edyn/util/rigidbody.cpp 417-495).  The
bounding box is only made for a body that had no shape (439-448) and removed with the shape (482). -/
def World.setShape (cfg : Cfg T β) (w : World T β) (e : ℕ) : Option (Shape T) → World T β
  | none => { w with shape := put w.shape e none, box := put w.box e none }
  | some s =>
    let w' := { w with shape := put w.shape e (some s) }.announce e s
    if (w.shape e).isSome then w'
    else { w' with box := put w.box e (some (cfg.shapeBox s.bare (w.pos e) (w.orn e))) }

/-- Destruction of an entity that has a list, with the cascade of `on_destroy_rotated_mesh_list`
(src/edyn/util/polyhedron_shape_initializer.cpp 51-57).  `none` stands for the use of an entity without
list and for a cascade that does not end. -/
def World.dropList : ℕ → World T β → ℕ → Option (World T β)
  | 0, _, _ => none
  | fuel + 1, w, c =>
    match w.list c with
    | none => none
    | some r =>
      let w := { w.free c with list := put w.list c none }
      match r.next with
      | none => some w
      | some d => dropList fuel w d

/-- `registry.destroy` of a body. -/
def World.destroy (w : World T β) (e : ℕ) : Option (World T β) :=
  let w := { w with body := put w.body e false, shape := put w.shape e none,
                    box := put w.box e none }
  if (w.list e).isSome then w.dropList (w.n + 1) e else some w

/-- The loop of `update_rotated_mesh` for one entity (src/edyn/sys/update_rotated_meshes.cpp 56-62).
`none` stands for an entity without list, a released cell, a failed assertion or a loop that does not
end. -/
def World.refreshFrom (q : Quat T) : ℕ → World T β → ℕ → Option (World T β)
  | 0, _, _ => none
  | fuel + 1, w, c =>
    match w.list c with
    | none => none
    | some r =>
      match w.heap r.rotated with
      | none => none
      | some a =>
        match a.update r.mesh (q * r.orn) with
        | none => none
        | some b =>
          let w := { w with heap := put w.heap r.rotated (some b) }
          match r.next with
          | none => some w
          | some d => refreshFrom q fuel w d

/-- `update_rotated_mesh(registry, entity)` (src/edyn/sys/update_rotated_meshes.cpp 52-69). -/
def World.refresh (w : World T β) (e : ℕ) : Option (World T β) :=
  w.refreshFrom (w.orn e) (w.n + 1) e

/-- `updated_aabb` and `update_aabb` (src/edyn/sys/update_aabbs.cpp 16-50): from the rotated vertices for
a polyhedron, whose pointer must be valid, and from the shape otherwise. -/
def World.rebox (cfg : Cfg T β) (w : World T β) (e : ℕ) : Option (World T β) :=
  match w.shape e with
  | none => none
  | some (.poly _ p) =>
    match p with
    | none => none
    | some i =>
      match w.heap i with
      | none => none
      | some r => some { w with box := put w.box e (some (cfg.cloudBox r.vertices (w.pos e))) }
  | some s => some { w with box := put w.box e (some (cfg.shapeBox s.bare (w.pos e) (w.orn e))) }

/-- The user replaces the orientation of a body.  In the worker the dependent components are updated, in
the order of src/edyn/simulation/simulation_worker.cpp 242-252. -/
def World.turn (cfg : Cfg T β) (w : World T β) (e : ℕ) (q : Quat T) : Option (World T β) := do
  let w := { w with orn := put w.orn e q }
  if cfg.worker then
    let w ← if (w.box e).isSome then w.rebox cfg e else some w
    if (w.list e).isSome then w.refresh e else some w
  else some w

/-- The user replaces the position of a body (src/edyn/simulation/simulation_worker.cpp 255-271). -/
def World.move (cfg : Cfg T β) (w : World T β) (e : ℕ) (p : V3 T) : Option (World T β) :=
  let w := { w with pos := put w.pos e p }
  if cfg.worker && (w.box e).isSome then w.rebox cfg e else some w

/-- `init_new_shapes` for one polyhedron (src/edyn/util/polyhedron_shape_initializer.cpp 70-77).
Getting a component that is not there is an error: `none`. -/
def World.initPoly (w : World T β) (e : ℕ) : Option (World T β) :=
  match w.shape e with
  | some (.poly m _) => do
    let r ← makeRotated m (w.orn e)
    let i := w.h
    let w := w.alloc r
    return { w with shape := put w.shape e (some (.poly m (some i))) }.putList e ⟨m, i, 1, none⟩
  | _ => none

/-- `init_new_shapes` for the children of a compound
(src/edyn/util/polyhedron_shape_initializer.cpp 85-108).  `prev` is `prev_rotated_entity`.  Returns the
children with their new pointers. -/
def World.initNodes (e : ℕ) : World T β → Option ℕ → List (Node T) → Option (World T β × List (Node T))
  | w, _, [] => some (w, [])
  | w, prev, .other o :: ns =>
    (initNodes e w prev ns).map fun x => (x.1, .other o :: x.2)
  | w, prev, .poly m _ o :: ns => do
    let r ← makeRotated m (w.orn e * o)
    let i := w.h
    let w := w.alloc r
    match prev with
    | none =>
      let x ← initNodes e (w.putList e ⟨m, i, o, none⟩) (some e) ns
      return (x.1, .poly m (some i) o :: x.2)
    | some p =>
      let d := w.n
      let w ← ({ w with n := d + 1 }.putList d ⟨m, i, o, none⟩).link p d
      let x ← initNodes e w (some d) ns
      return (x.1, .poly m (some i) o :: x.2)

/-- `init_new_shapes` for one compound (src/edyn/util/polyhedron_shape_initializer.cpp 81-108). -/
def World.initComp (w : World T β) (e : ℕ) : Option (World T β) :=
  match w.shape e with
  | some (.compound ns) => do
    let x ← w.initNodes e none ns
    return { x.1 with shape := put x.1.shape e (some (.compound x.2)) }
  | _ => none

/-- Running a partial operation over a list. -/
def World.each (f : World T β → ℕ → Option (World T β)) : World T β → List ℕ → Option (World T β)
  | w, [] => some w
  | w, e :: l => (f w e).bind fun w' => each f w' l

/-- `init_new_shapes` (src/edyn/util/polyhedron_shape_initializer.cpp 59-113): entities that are no
longer valid are skipped (60-61, include/edyn/util/entt_util.hpp 38-45). -/
def World.init (w : World T β) : Option (World T β) := do
  let w ← w.each World.initPoly (w.newPoly.filter w.body)
  let w ← w.each World.initComp (w.newComp.filter w.body)
  return { w with newPoly := [], newComp := [] }

/-- The bodies that move: dynamic bodies that are neither asleep nor disabled and all kinematic bodies. -/
def World.moving (w : World T β) (e : ℕ) : Bool :=
  w.body e && ((w.kind e = .dynamic && !w.idle e) || w.kind e = .kinematic)

/-- `solver::update` (src/edyn/dynamics/solver.cpp 453-462): the bodies that move take the transforms
`f` that the solver computed for them, then `update_rotated_meshes`
(src/edyn/sys/update_rotated_meshes.cpp 71-83) and `update_aabbs` (src/edyn/sys/update_aabbs.cpp 52-78).
The order of the bodies in the views is replaced by the order of creation. -/
def World.step (cfg : Cfg T β) (w : World T β) (f : ℕ → V3 T × Quat T) : Option (World T β) := do
  let ms := (List.range w.n).filter w.moving
  let w := { w with pos := fun e => if w.moving e then (f e).1 else w.pos e,
                    orn := fun e => if w.moving e then (f e).2 else w.orn e }
  let w ← w.each World.refresh (ms.filter fun e => (w.list e).isSome)
  w.each (World.rebox cfg) (ms.filter fun e => (w.shape e).isSome && (w.box e).isSome)

/-- What happens to a world. -/
inductive Op (T : Type)
  | create (s : Option (Shape T)) (p : V3 T) (q : Quat T) (k : Kind)
  | setShape (e : ℕ) (s : Option (Shape T))
  | destroy (e : ℕ)
  | turn (e : ℕ) (q : Quat T)
  | move (e : ℕ) (p : V3 T)
  | setKind (e : ℕ) (k : Kind)
  | setIdle (e : ℕ) (b : Bool)
  | init
  | step (f : ℕ → V3 T × Quat T)

/-- One operation.  The user only has the identifiers of bodies: anything else is an error. -/
def World.apply (cfg : Cfg T β) (w : World T β) : Op T → Option (World T β)
  | .create s p q k => some (w.create cfg s p q k)
  | .setShape e s => if w.body e then some (w.setShape cfg e s) else none
  | .destroy e => if w.body e then w.destroy e else none
  | .turn e q => if w.body e then w.turn cfg e q else none
  | .move e p => if w.body e then w.move cfg e p else none
  | .setKind e k => if w.body e then some { w with kind := put w.kind e k } else none
  | .setIdle e b => if w.body e then some { w with idle := put w.idle e b } else none
  | .init => w.init
  | .step f => w.step cfg f

/-- A history. -/
def World.run (cfg : Cfg T β) : World T β → List (Op T) → Option (World T β)
  | w, [] => some w
  | w, o :: os => (w.apply cfg o).bind fun w' => run cfg w' os

/-- The registry before anything is in it. -/
def World.empty : World T β := { pos := fun _ => 0, orn := fun _ => 1 }

end Edyn.Poly
