import Verif.DynTree.Box

/-!
# Model of `edyn::static_tree`

`include/edyn/collision/static_tree.hpp`, `include/edyn/collision/query_tree.hpp`.

* Scalars are any linear order, with any function `mid` for `(min + max) * 0.5` (the theorems assume
  that it is monotone, which holds for floating point rounding as well as for exact arithmetic).
* The choice of the split axis (`max_index` of the size) is any function; the result holds for all.
* `std::sort` is any function `sort`; the theorems assume its contract (a sorted permutation).
* Node indices are unbounded (fewer than 2^32 nodes).
* `report_leaf` is a function of the number of leaves reported before and of the range of ids, which
  covers the callbacks used in the library (`compound_shape.cpp:22-24`, `triangle_mesh.cpp:140-142`,
  `create_paged_triangle_mesh.hpp:28-37`); its result is the `id` stored in the node.
* Dereferencing an empty range or an index out of range is the outcome `none`.
-/

namespace Edyn.StaticTree

variable {S : Type} [LinearOrder S]

/-- A coordinate axis. -/
inductive Axis where
  | x | y | z
  deriving DecidableEq, Repr

/-- `vector3::operator[]`. -/
def at' (a : Axis) (v : Vec3 S) : S :=
  match a with
  | .x => v.x
  | .y => v.y
  | .z => v.z

/-- The parts of the environment that the algorithm depends on, see the header. -/
structure Env (S : Type) where
  /-- `(min + max) * 0.5`. -/
  mid : S → S → S
  /-- `max_index(set_aabb.max - set_aabb.min)`. -/
  axis : Box S → Axis
  /-- `std::sort` with the comparison of the given keys. -/
  sort : (Nat → S) → List Nat → List Nat
  /-- `report_leaf`. -/
  report : Nat → List Nat → Nat

/-- `static_tree.hpp:47-58` `tree_node`; `second` is the union of `child2` and `id`. -/
structure TNode (S : Type) where
  aabb : Box S
  child1 : Option Nat
  second : Nat

/-- The node vector, and the calls of `report_leaf` so far (node index and range). -/
structure St (S : Type) where
  nodes : List (TNode S)
  log : List (Nat × List Nat)

/-- `aabb.center()[axis]` of the box with index `i` (a fixed value when out of range; all ids are in
range). -/
def centre (env : Env S) (boxes : List (Box S)) (d : S) (a : Axis) (i : Nat) : S :=
  match boxes[i]? with
  | some b => env.mid (at' a b.min) (at' a b.max)
  | none => d

/-- `static_tree.hpp:17-42` `aabb_set_partition`: the sorted range and the split position. -/
def partition (env : Env S) (boxes : List (Box S)) (ids : List Nat) (set : Box S) : List Nat × Nat :=
  let a := env.axis set
  let pos := env.mid (at' a set.min) (at' a set.max)
  let c := centre env boxes pos a
  let ids' := env.sort c ids
  match ids'.findIdx? fun i => decide (pos < c i) with
  | some k => (ids', k)
  | none => (ids', ids'.length / 2)

/-- `static_tree.hpp:103-105`: the enclosing box. -/
def encloseAll (boxes : List (Box S)) : Box S → List Nat → Option (Box S)
  | b, [] => some b
  | b, i :: is =>
    match boxes[i]? with
    | some c => encloseAll boxes (Box.enclosing b c) is
    | none => none

/-- `static_tree.hpp:94-132` `recurse_build`. -/
def recurse [Inhabited S] (env : Env S) (boxes : List (Box S)) (maxObj : Nat) :
    Nat → List Nat → Nat → St S → Option (St S)
  | 0, _, _, _ => none
  | _ + 1, [], _, _ => none
  | fuel + 1, i :: rest, idx, st => do
    let b0 ← boxes[i]?
    let set ← encloseAll boxes b0 rest
    if idx < st.nodes.length then
      if (i :: rest).length ≤ maxObj then
        some { nodes := st.nodes.set idx ⟨set, none, env.report st.log.length (i :: rest)⟩,
               log := st.log ++ [(idx, i :: rest)] }
      else do
        let p := partition env boxes (i :: rest) set
        let c1 := st.nodes.length
        let blank : TNode S := ⟨⟨⟨default, default, default⟩, ⟨default, default, default⟩⟩, some 0, 0⟩
        let st0 : St S :=
          { st with nodes := st.nodes.set idx ⟨set, some c1, c1 + 1⟩ ++ [blank, blank] }
        let st1 ← recurse env boxes maxObj fuel (p.1.take p.2) c1 st0
        recurse env boxes maxObj fuel (p.1.drop p.2) (c1 + 1) st1
    else none

/-- `static_tree.hpp:79-92` `build` on an empty tree. The recursion depth is bounded by the number of
boxes (fuel); it is shown not to run out. -/
def build [Inhabited S] (env : Env S) (boxes : List (Box S)) (maxObj : Nat) : Option (St S) :=
  if boxes = [] then none else
    let blank : TNode S := ⟨⟨⟨default, default, default⟩, ⟨default, default, default⟩⟩, some 0, 0⟩
    recurse env boxes maxObj boxes.length (List.range boxes.length) 0 ⟨[blank], []⟩

/-- `query_tree.hpp:10-34` `traverse_tree`; returns the nodes visited. -/
def traverseLoop (nodes : List (TNode S)) (test : Box S → Bool) :
    Nat → List Nat → List Nat → Option (List Nat)
  | _, [], acc => some acc
  | 0, _ :: _, _ => none
  | fuel + 1, id :: stack, acc => do
    let n ← nodes[id]?
    if test n.aabb then
      match n.child1 with
      | none => traverseLoop nodes test fuel stack (acc ++ [id])
      | some c1 => traverseLoop nodes test fuel (n.second :: c1 :: stack) acc
    else traverseLoop nodes test fuel stack acc

/-- `static_tree.hpp:146-156` `query` (and `raycast`) with the node test as parameter; the result is
the list of leaf nodes handed to the visitor. -/
def query (nodes : List (TNode S)) (test : Box S → Bool) : Option (List Nat) :=
  traverseLoop nodes test nodes.length [0] []

end Edyn.StaticTree
