import Verif.DynTree.Box

/-!
# Model of `edyn::dynamic_tree`

`include/edyn/collision/dynamic_tree.hpp`, `src/edyn/collision/dynamic_tree.cpp`,
`include/edyn/collision/tree_node.hpp`, `include/edyn/collision/query_tree.hpp`.

* The node vector is modelled as its size and one function per field; entries at or above the size
  are meaningless and every access goes through a bound check (`chk`), so an out-of-range or null
  access is the outcome `none`.
* `tree_node`'s unions are kept: `up` is `parent`/`next`, `c2` is `child2`/`entity`; a null node id
  and `entt::null` are both the all-ones word, modelled as `none`.
* Ids are unbounded naturals: the vector is assumed to have fewer than 2^32 - 1 nodes.
* The insertion heuristic is a parameter (`Choice`), so the results hold for whatever the
  floating-point cost computation decides.
* `while` loops take a fuel argument, initially larger than the number of nodes; running out of fuel
  is `none`.  The properties show that `none` never happens, so the fuel is never the limit.
-/

namespace Edyn.DynTree

/-- `dynamic_tree.hpp:24`: the box inflation `inset(vector3_one * -0.1)`. Only the fact that it
does not shrink the box is used: `lower x` is `x + (-0.1)`, `upper x` is `x - (-0.1)`. -/
structure Margin (S : Type) [LinearOrder S] where
  lower : S → S
  upper : S → S
  lower_le : ∀ x, lower x ≤ x
  le_upper : ∀ x, x ≤ upper x

/-- Where `best` goes next. -/
inductive Dir where
  | stop
  | left
  | right
  deriving Repr, DecidableEq

/-- `dynamic_tree.cpp:88-119`: the decision as a function of everything the cost computation reads:
the node's box, the new box, whether the children are leaves and the children's boxes. -/
abbrev Choice (S : Type) := Box S → Box S → Bool → Box S → Bool → Box S → Dir

/-- What the code is parametric in. -/
structure Params (S : Type) [LinearOrder S] where
  margin : Margin S
  choice : Choice S

variable {S : Type} [LinearOrder S]

/-- `aabb.hpp:17-19` `inset` with the constant of `dynamic_tree.hpp:24`. -/
def Margin.inflate (m : Margin S) (b : Box S) : Box S :=
  ⟨⟨m.lower b.min.x, m.lower b.min.y, m.lower b.min.z⟩,
   ⟨m.upper b.max.x, m.upper b.max.y, m.upper b.max.z⟩⟩

/-- Function update: assignment to one array element. -/
def upd {α : Type} (f : Nat → α) (i : Nat) (v : α) : Nat → α := fun j => if j = i then v else f j

@[simp] theorem upd_same {α : Type} (f : Nat → α) (i : Nat) (v : α) : upd f i v i = v := by
  simp [upd]

theorem upd_apply {α : Type} (f : Nat → α) (i j : Nat) (v : α) :
    upd f i v j = if j = i then v else f j := rfl

/-- `dynamic_tree.hpp:100-103` and `tree_node.hpp:14-34`. -/
structure State (S : Type) where
  size : Nat
  up : Nat → Option Nat
  c1 : Nat → Option Nat
  c2 : Nat → Option Nat
  box : Nat → Box S
  height : Nat → Int
  root : Option Nat
  freeList : Option Nat

/-- `dynamic_tree.cpp:6-9`; `b` stands for the contents of memory not yet written. -/
def init (b : Box S) : State S :=
  ⟨0, fun _ => none, fun _ => none, fun _ => none, fun _ => b, fun _ => 0, none, none⟩

/-- Indexing `m_nodes[id]`: the id must not be null and must be in range. -/
def chk (s : State S) (id : Option Nat) : Option Nat :=
  match id with
  | none => none
  | some i => if i < s.size then some i else none

/-- `tree_node.hpp:31-33` `leaf`. -/
def isLeaf (s : State S) (i : Nat) : Bool := s.c1 i == none

/-- `dynamic_tree.cpp:11-32` `allocate`. -/
def allocate (s : State S) : Option (Nat × State S) :=
  match s.freeList with
  | none =>
    let id := s.size
    some (id, { s with size := s.size + 1, up := upd s.up id none, c1 := upd s.c1 id none,
                       c2 := upd s.c2 id none, height := upd s.height id 0 })
  | some _ =>
    (chk s s.freeList).map fun id =>
      (id, { s with freeList := s.up id, up := upd s.up id none, c1 := upd s.c1 id none,
                    c2 := upd s.c2 id none, height := upd s.height id 0 })

/-- `dynamic_tree.cpp:34-39` `free`. -/
def free (s : State S) (id : Nat) : State S :=
  { s with up := upd s.up id s.freeList, height := upd s.height id (-1), c2 := upd s.c2 id none,
           freeList := some id }

/-- `dynamic_tree.cpp:80-123` `best`, the loop at node `id`. -/
def bestLoop (ch : Choice S) (s : State S) (aabb : Box S) : Nat → Option Nat → Option Nat
  | 0, _ => none
  | fuel + 1, id =>
    (chk s id).bind fun i =>
      if isLeaf s i then some i
      else
        (chk s (s.c1 i)).bind fun l =>
        (chk s (s.c2 i)).bind fun r =>
          match ch (s.box i) aabb (isLeaf s l) (s.box l) (isLeaf s r) (s.box r) with
          | .stop => some i
          | .left => bestLoop ch s aabb fuel (s.c1 i)
          | .right => bestLoop ch s aabb fuel (s.c2 i)

/-- `dynamic_tree.cpp:80-123` `best`. -/
def best (ch : Choice S) (s : State S) (aabb : Box S) : Option Nat :=
  bestLoop ch s aabb (s.size + 1) s.root

/-- `dynamic_tree.cpp:252-263` and `301-312`: the parent of the node that moved up, or the root,
is redirected from `idA` to `idX`. `none`: the assertion fails. -/
def redirect (s : State S) (parent : Option Nat) (idA idX : Nat) : Option (State S) :=
  match parent with
  | none => some { s with root := some idX }
  | some _ =>
    (chk s parent).bind fun p =>
      if s.c1 p = some idA then some { s with c1 := upd s.c1 p (some idX) }
      else if s.c2 p = some idA then some { s with c2 := upd s.c2 p (some idX) }
      else none

/-- `dynamic_tree.cpp:224-339` `balance`: the new root of the subtree and the new state. -/
def balance (s : State S) (idA : Nat) : Option (Nat × State S) :=
  (chk s (some idA)).bind fun a =>
  if isLeaf s a || decide (s.height a < 2) then some (a, s)
  else
    (chk s (s.c1 a)).bind fun b =>
    (chk s (s.c2 a)).bind fun c =>
    let bal := s.height c - s.height b
    if bal > 1 then
      (chk s (s.c1 c)).bind fun f =>
      (chk s (s.c2 c)).bind fun g =>
      -- swap A and C
      let s1 := { s with c1 := upd s.c1 c (some a), up := upd (upd s.up c (s.up a)) a (some c) }
      (redirect s1 (s1.up c) a c).map fun s2 =>
      if s2.height f > s2.height g then
        let boxA := Box.enclosing (s2.box b) (s2.box g)
        let hA := max (s2.height b) (s2.height g) + 1
        (c, { s2 with c2 := upd (upd s2.c2 c (some f)) a (some g), up := upd s2.up g (some a),
                      box := upd (upd s2.box a boxA) c (Box.enclosing boxA (s2.box f)),
                      height := upd (upd s2.height a hA) c (max hA (s2.height f) + 1) })
      else
        let boxA := Box.enclosing (s2.box b) (s2.box f)
        let hA := max (s2.height b) (s2.height f) + 1
        (c, { s2 with c2 := upd (upd s2.c2 c (some g)) a (some f), up := upd s2.up f (some a),
                      box := upd (upd s2.box a boxA) c (Box.enclosing boxA (s2.box g)),
                      height := upd (upd s2.height a hA) c (max hA (s2.height g) + 1) })
    else if bal < -1 then
      (chk s (s.c1 b)).bind fun d =>
      (chk s (s.c2 b)).bind fun e =>
      -- swap A and B
      let s1 := { s with c1 := upd s.c1 b (some a), up := upd (upd s.up b (s.up a)) a (some b) }
      (redirect s1 (s1.up b) a b).map fun s2 =>
      if s2.height d > s2.height e then
        let boxA := Box.enclosing (s2.box c) (s2.box e)
        let hA := max (s2.height c) (s2.height e) + 1
        (b, { s2 with c2 := upd s2.c2 b (some d), c1 := upd s2.c1 a (some e),
                      up := upd s2.up e (some a),
                      box := upd (upd s2.box a boxA) b (Box.enclosing boxA (s2.box d)),
                      height := upd (upd s2.height a hA) b (max hA (s2.height d) + 1) })
      else
        let boxA := Box.enclosing (s2.box c) (s2.box d)
        let hA := max (s2.height c) (s2.height d) + 1
        (b, { s2 with c2 := upd s2.c2 b (some e), c1 := upd s2.c1 a (some d),
                      up := upd s2.up d (some a),
                      box := upd (upd s2.box a boxA) b (Box.enclosing boxA (s2.box e)),
                      height := upd (upd s2.height a hA) b (max hA (s2.height e) + 1) })
    else some (a, s)

/-- `dynamic_tree.cpp:212-222` `refit`. -/
def refit : Nat → State S → Option Nat → Option (State S)
  | _, s, none => some s
  | 0, _, some _ => none
  | fuel + 1, s, some id0 =>
    (balance s id0).bind fun (id, s1) =>
    (chk s1 (s1.c1 id)).bind fun l =>
    (chk s1 (s1.c2 id)).bind fun r =>
    let s2 := { s1 with box := upd s1.box id (Box.enclosing (s1.box l) (s1.box r)),
                        height := upd s1.height id (max (s1.height l) (s1.height r) + 1) }
    refit fuel s2 (s2.up id)

/-- `dynamic_tree.cpp:125-174` `insert`. -/
def insert (ch : Choice S) (s : State S) (leaf : Nat) : Option (State S) :=
  (chk s (some leaf)).bind fun leaf =>
  match s.root with
  | none => some { s with root := some leaf, up := upd s.up leaf none }
  | some _ =>
    let leafAabb := s.box leaf
    (best ch s leafAabb).bind fun sibling =>
    let oldParent := s.up sibling
    (allocate s).bind fun (newParent, s1) =>
    let s2 := { s1 with up := upd s1.up newParent oldParent,
                        box := upd s1.box newParent (Box.enclosing (s1.box sibling) leafAabb),
                        height := upd s1.height newParent (s1.height sibling + 1) }
    match oldParent with
    | some _ =>
      (chk s2 oldParent).bind fun op =>
      let s3 := if s2.c1 op = some sibling
        then { s2 with c1 := upd s2.c1 op (some newParent) }
        else { s2 with c2 := upd s2.c2 op (some newParent) }
      let s4 := { s3 with c1 := upd s3.c1 newParent (some sibling),
                          c2 := upd s3.c2 newParent (some leaf),
                          up := upd (upd s3.up sibling (some newParent)) leaf (some newParent) }
      refit (s4.size + 1) s4 (s4.up leaf)
    | none =>
      let s4 := { s2 with c1 := upd s2.c1 newParent (some sibling),
                          c2 := upd s2.c2 newParent (some leaf),
                          up := upd (upd s2.up sibling (some newParent)) leaf (some newParent),
                          root := some newParent }
      refit (s4.size + 1) s4 (s4.up leaf)

/-- `dynamic_tree.cpp:176-210` `remove`. -/
def remove (s : State S) (leaf : Nat) : Option (State S) :=
  if s.root = some leaf then some { s with root := none }
  else
    (chk s (some leaf)).bind fun leaf =>
    (chk s (s.up leaf)).bind fun parent =>
    (chk s (if s.c1 parent = some leaf then s.c2 parent else s.c1 parent)).bind fun sibling =>
    if s.root = some parent then
      some (free { s with root := some sibling, up := upd s.up sibling none } parent)
    else
      (chk s (s.up parent)).bind fun grandpa =>
      let s1 := if s.c1 grandpa = some parent
        then { s with c1 := upd s.c1 grandpa (some sibling) }
        else { s with c2 := upd s.c2 grandpa (some sibling) }
      let s2 := free { s1 with up := upd s1.up sibling (s1.up parent) } parent
      refit (s2.size + 1) s2 (some grandpa)

/-- `dynamic_tree.cpp:41-50` `create`. `entity = none` is `entt::null`. -/
def create (P : Params S) (s : State S) (aabb : Box S) (entity : Option Nat) :
    Option (Nat × State S) :=
  (allocate s).bind fun (id, s1) =>
  let s2 := { s1 with c2 := upd s1.c2 id entity, box := upd s1.box id (P.margin.inflate aabb) }
  (insert P.choice s2 id).map fun s3 => (id, s3)

/-- `dynamic_tree.cpp:52-56` `destroy`. `none`: bad index or the assertion fails. -/
def destroy (s : State S) (id : Nat) : Option (State S) :=
  (chk s (some id)).bind fun id =>
  if isLeaf s id then (remove s id).map fun s1 => free s1 id else none

/-- `dynamic_tree.cpp:58-78` `move`. -/
def move (P : Params S) (s : State S) (id : Nat) (aabb : Box S) : Option (Bool × State S) :=
  (chk s (some id)).bind fun id =>
  if isLeaf s id then
    if (s.box id).contains aabb then some (false, s)
    else
      (remove s id).bind fun s1 =>
      (insert P.choice { s1 with box := upd s1.box id (P.margin.inflate aabb) } id).map fun s2 =>
        (true, s2)
  else none

/-- `dynamic_tree.cpp:345-361` `clear`. -/
def clear (s : State S) : State S :=
  if s.size = 0 then { s with root := none, freeList := none }
  else
    { s with
      root := none
      freeList := some 0
      c2 := fun i => if i < s.size then none else s.c2 i
      height := fun i => if i < s.size then -1 else s.height i
      up := upd (fun i => if i < s.size then some (i + 1) else s.up i) (s.size - 1) none }

/-- `query_tree.hpp:9-33` `traverse_tree`: the loop over the stack (top first); the ids visited. -/
def traverseLoop (s : State S) (test : Box S → Bool) :
    Nat → List (Option Nat) → List Nat → Option (List Nat)
  | _, [], acc => some acc
  | 0, _ :: _, _ => none
  | fuel + 1, none :: stack, acc => traverseLoop s test fuel stack acc
  | fuel + 1, some i :: stack, acc =>
    (chk s (some i)).bind fun i =>
    if test (s.box i) then
      if isLeaf s i then traverseLoop s test fuel stack (acc ++ [i])
      else traverseLoop s test fuel (s.c2 i :: s.c1 i :: stack) acc
    else traverseLoop s test fuel stack acc

/-- `query_tree.hpp:9-33`, started at the root. -/
def traverse (s : State S) (test : Box S → Bool) : Option (List Nat) :=
  traverseLoop s test (s.size + 1) [s.root] []

/-- `dynamic_tree.hpp:106-109` `query` (`query_tree.hpp:35-41`): the ids handed to `func`. -/
def query (s : State S) (aabb : Box S) : Option (List Nat) :=
  traverse s fun b => b.intersect aabb

end Edyn.DynTree
