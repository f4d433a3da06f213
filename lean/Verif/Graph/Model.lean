import Verif.Graph.FreeList

/-!
# Model of `edyn::entity_graph`

`include/edyn/core/entity_graph.hpp`, `src/edyn/core/entity_graph.cpp`.

* `null_index` and `entt::null` are `none`.  `insert_node` and `insert_edge` take an entity that is
  not null (the assertions at `entity_graph.cpp:7,25`).
* A failed assertion, an out-of-range index and a null index are the outcome `none`.
* `edge::adj_index0/1` are written but never read; they are left out.
* Loops take a fuel argument larger than the size of the array walked; running out is `none` and is
  shown not to happen.
* The read-only traversals first collect the adjacency list of a node with its edges (`expand`) and
  then fold over it; nothing is modified in between, so this is the same computation.
* Visitor callbacks are modelled by the list of values they are called with.
-/

namespace Edyn.Graph

/-- `entity_graph.hpp:37-42`. -/
structure Node where
  entity : Option Nat
  nonConnecting : Bool
  adj : Option Nat
  next : Option Nat
  deriving DecidableEq, Repr

/-- `entity_graph.hpp:44-49` without `adj_index0/1`. -/
structure Edge where
  entity : Option Nat
  n0 : Option Nat
  n1 : Option Nat
  next : Option Nat
  deriving DecidableEq, Repr

/-- `entity_graph.hpp:51-55`. -/
structure Adj where
  node : Option Nat
  edge : Option Nat
  next : Option Nat
  deriving DecidableEq, Repr

instance : Slot Node := ⟨⟨none, false, none, none⟩, Node.next, fun a n => { a with next := n },
  fun _ _ => rfl⟩
instance : Slot Edge := ⟨⟨none, none, none, none⟩, Edge.next, fun a n => { a with next := n },
  fun _ _ => rfl⟩
instance : Slot Adj := ⟨⟨none, none, none⟩, Adj.next, fun a n => { a with next := n },
  fun _ _ => rfl⟩

/-- `entity_graph.hpp:175-177`. -/
structure State where
  nodes : FL Node
  edges : FL Edge
  adjs : FL Adj

/-- A new graph. -/
def empty : State := ⟨FL.empty, FL.empty, FL.empty⟩

/-- `EDYN_ASSERT`. -/
def check (b : Bool) : Option Unit := if b then some () else none

@[simp] theorem check_true : check true = some () := rfl
@[simp] theorem check_false : check false = none := rfl

/-- Enough iterations for any walk. -/
def State.fuel (s : State) : Nat := s.nodes.size + s.edges.size + s.adjs.size + 1

/-- `entity_graph.cpp:6-9` `insert_node`. -/
def insertNode (s : State) (entity : Nat) (nonConnecting : Bool) : Option (Nat × State) :=
  (s.nodes.insert ⟨some entity, nonConnecting, none, none⟩).map fun (i, f) =>
    (i, { s with nodes := f })

/-- `entity_graph.cpp:11-17` `remove_node`. -/
def removeNode (s : State) (n : Nat) : Option State := do
  let x ← s.nodes.get n
  check x.entity.isSome
  check (x.adj == none)
  let f ← s.nodes.remove n
  some { s with nodes := f }

/-- The search loop of `entity_graph.cpp:33-40`, `53-60`, `82-85`, `93-96`, `141-150`, `164-171`:
the first adjacency from `h` on whose node is `m`; `some none` when there is none. -/
def findAdj (f : FL Adj) (m : Nat) : Nat → Option Nat → Option (Option Nat)
  | _, none => some none
  | 0, some _ => none
  | k + 1, some a => do
    let x ← f.get a
    if x.node = some m then some (some a) else findAdj f m k x.next

/-- `entity_graph.cpp:163-174` `has_adjacency`. -/
def hasAdjacency (s : State) (n m : Nat) : Option Bool := do
  let x ← s.nodes.get n
  let r ← findAdj s.adjs m s.fuel x.adj
  some r.isSome

/-- `entity_graph.cpp:204-216` `insert_adjacency_one_way` and `create_adjacency`. -/
def insertAdjOneWay (s : State) (n m e : Nat) : Option State := do
  let h ← hasAdjacency s n m
  check (!h)
  let (a, f) ← s.adjs.insert ⟨some m, some e, none⟩
  let x ← s.nodes.get n
  let f ← f.put a ⟨some m, some e, x.adj⟩
  let nf ← s.nodes.put n { x with adj := some a }
  some { s with adjs := f, nodes := nf }

/-- `entity_graph.cpp:196-202` `insert_adjacency`. -/
def insertAdj (s : State) (n0 n1 e : Nat) : Option State := do
  let s1 ← insertAdjOneWay s n0 n1 e
  if n0 ≠ n1 then insertAdjOneWay s1 n1 n0 e else some s1

/-- `entity_graph.cpp:24-73` `insert_edge`. -/
def insertEdge (s : State) (entity n0 n1 : Nat) : Option (Nat × State) := do
  let x0 ← s.nodes.get n0
  check x0.entity.isSome
  let x1 ← s.nodes.get n1
  check x1.entity.isSome
  let (e, ef) ← s.edges.insert ⟨some entity, some n0, some n1, none⟩
  let s := { s with edges := ef }
  let r ← findAdj s.adjs n1 s.fuel x0.adj
  match r with
  | some a =>
    let y ← s.adjs.get a
    check y.edge.isSome
    let ef ← s.edges.put e ⟨some entity, some n0, some n1, y.edge⟩
    let af ← s.adjs.put a { y with edge := some e }
    let s := { s with edges := ef, adjs := af }
    let r ← findAdj s.adjs n0 s.fuel x1.adj
    let b ← r
    let z ← s.adjs.get b
    check (z.edge == y.edge)
    let af ← s.adjs.put b { z with edge := some e }
    some (e, { s with adjs := af })
  | none => (insertAdj s n0 n1 e).map fun s => (e, s)

/-- The predecessor loop of `entity_graph.cpp:106-111` and `241-251`. -/
def findPrev {α : Type} [Slot α] (f : FL α) (target : Nat) : Nat → Option Nat → Option Nat
  | 0, _ => none
  | _ + 1, none => none
  | k + 1, some p => do
    let x ← f.get p
    if Slot.next x = some target then some p else findPrev f target k (Slot.next x)

/-- `entity_graph.cpp:233-257` `remove_adjacency`. -/
def removeAdjacency (s : State) (n a : Nat) : Option State := do
  let x ← s.adjs.get a
  check (x.edge == none)
  let nd ← s.nodes.get n
  if nd.adj = some a then
    let nf ← s.nodes.put n { nd with adj := x.next }
    let af ← s.adjs.remove a
    some { s with nodes := nf, adjs := af }
  else
    let p ← findPrev s.adjs a s.fuel nd.adj
    let y ← s.adjs.get p
    let af ← s.adjs.put p { y with next := x.next }
    let af ← af.remove a
    some { s with adjs := af }

/-- `entity_graph.cpp:218-231` `remove_adjacency_edge`. -/
def removeAdjacencyEdge (s : State) (n a e : Nat) : Option State := do
  let x ← s.adjs.get a
  let y ← s.edges.get e
  let x' := if x.edge = some e then { x with edge := y.next } else x
  let af ← s.adjs.put a x'
  let s := { s with adjs := af }
  if x'.edge = none then removeAdjacency s n a else some s

/-- `entity_graph.cpp:89-100`: the removal on the side of the second node, unless the edge is a
self-loop. `edge0` is the edge field of the adjacency of the first node. -/
def removeOtherSide (s : State) (e n0 n1 : Nat) (edge0 : Option Nat) : Option State :=
  if n1 ≠ n0 then do
    let x1 ← s.nodes.get n1
    let r ← findAdj s.adjs n0 s.fuel x1.adj
    let a1 ← r
    let z1 ← s.adjs.get a1
    check (edge0 == z1.edge)
    removeAdjacencyEdge s n1 a1 e
  else some s

/-- `entity_graph.cpp:104-114`: unlinking from the list of parallel edges. -/
def unlinkEdge (s : State) (e : Nat) (first : Option Nat) : Option (FL Edge) :=
  if first ≠ some e then do
    let p ← findPrev s.edges e s.fuel first
    let z ← s.edges.get p
    let y ← s.edges.get e
    s.edges.put p { z with next := y.next }
  else some s.edges

/-- `entity_graph.cpp:75-117` `remove_edge`. -/
def removeEdge (s : State) (e : Nat) : Option State := do
  let y ← s.edges.get e
  check y.entity.isSome
  let n0 ← y.n0
  let n1 ← y.n1
  let x0 ← s.nodes.get n0
  let r ← findAdj s.adjs n1 s.fuel x0.adj
  let a0 ← r
  let z0 ← s.adjs.get a0
  let first := z0.edge
  let s1 ← removeOtherSide s e n0 n1 first
  let s2 ← removeAdjacencyEdge s1 n0 a0 e
  let ef ← unlinkEdge s2 e first
  let ef ← ef.remove e
  some { s2 with edges := ef }

/-- The loop of `entity_graph.cpp:129-134`: removes a whole chain of edges. -/
def removeEdges (f : FL Edge) : Nat → Option Nat → Option (FL Edge)
  | _, none => some f
  | 0, some _ => none
  | k + 1, some e => do
    let y ← f.get e
    let f ← f.remove e
    removeEdges f k y.next

/-- `entity_graph.cpp:136-150`: removes the adjacency towards `n` from its neighbour `m`. -/
def removeFromNeighbor (s : State) (n m : Nat) : Option State := do
  let nb ← s.nodes.get m
  let r ← findAdj s.adjs n s.fuel nb.adj
  match r with
  | some b => do
    let z ← s.adjs.get b
    let af ← s.adjs.put b { z with edge := none }
    removeAdjacency { s with adjs := af } m b
  | none => some s

/-- The loop of `entity_graph.cpp:124-155` for the adjacencies from `h` on of node `n`. -/
def removeAllLoop (n : Nat) : Nat → State → Option Nat → Option State
  | _, s, none => some s
  | 0, _, some _ => none
  | k + 1, s, some a => do
    let x ← s.adjs.get a
    let ef ← removeEdges s.edges s.fuel x.edge
    let m ← x.node
    let s ← removeFromNeighbor { s with edges := ef } n m
    let x ← s.adjs.get a
    let af ← s.adjs.remove a
    removeAllLoop n k { s with adjs := af } x.next

/-- `entity_graph.cpp:119-156` `remove_all_edges`. -/
def removeAllEdges (s : State) (n : Nat) : Option State := do
  let x ← s.nodes.get n
  let nf ← s.nodes.put n { x with adj := none }
  removeAllLoop n s.fuel { s with nodes := nf } x.adj

/-- `entity_graph.cpp:192-194` `set_connecting_node`. -/
def setConnecting (s : State) (n : Nat) (connecting : Bool) : Option State := do
  let x ← s.nodes.get n
  let nf ← s.nodes.put n { x with nonConnecting := !connecting }
  some { s with nodes := nf }

/-- `entity_graph.cpp:431-435` `clear`. -/
def clear (s : State) : State := ⟨s.nodes.clear, s.edges.clear, s.adjs.clear⟩

/-! ### Observers -/

/-- `entity_graph.cpp:19-22` `node_entity`. -/
def nodeEntity (s : State) (n : Nat) : Option Nat := do
  let x ← s.nodes.get n
  x.entity

/-- `entity_graph.cpp:158-161` `edge_entity`. -/
def edgeEntity (s : State) (e : Nat) : Option Nat := do
  let x ← s.edges.get e
  x.entity

/-- `entity_graph.cpp:176-180` `edge_node_indices`. -/
def edgeNodes (s : State) (e : Nat) : Option (Option Nat × Option Nat) := do
  let x ← s.edges.get e
  check x.entity.isSome
  some (x.n0, x.n1)

/-- `entity_graph.cpp:182-186` `edge_node_entities`. -/
def edgeNodeEntities (s : State) (e : Nat) : Option (Option Nat × Option Nat) := do
  let x ← s.edges.get e
  check x.entity.isSome
  let n0 ← x.n0
  let n1 ← x.n1
  let y0 ← s.nodes.get n0
  let y1 ← s.nodes.get n1
  some (y0.entity, y1.entity)

/-- `entity_graph.cpp:188-190` `is_connecting_node`. -/
def isConnecting (s : State) (n : Nat) : Option Bool := do
  let x ← s.nodes.get n
  some (!x.nonConnecting)

/-- Walks a linked list of a free list, with the bound check of `operator[]` and the assertion that
an element is not linked to itself (`entity_graph.hpp:198,223,245`). -/
def walkF {α : Type} [Slot α] (f : FL α) (fuel : Nat) (h : Option Nat) : Option (List Nat) :=
  walk (fun i => Slot.next (f.elem i))
    (fun i => decide (i < f.size) && !(Slot.next (f.elem i) == some i)) fuel h

/-- `entity_graph.hpp:180-201` `visit_neighbors` with a visitor that never stops. -/
def visitNeighbors (s : State) (n : Nat) : Option (List Nat) := do
  let x ← s.nodes.get n
  check x.entity.isSome
  let as ← walkF s.adjs s.fuel x.adj
  as.mapM fun a => do
    let m ← (s.adjs.elem a).node
    let y ← s.nodes.get m
    y.entity

/-- `entity_graph.hpp:203-230` `visit_edges` between two nodes with a visitor that never stops. -/
def visitEdgesBetween (s : State) (n m : Nat) : Option (List Nat) := do
  let x ← s.nodes.get n
  let _ ← s.nodes.get m
  let r ← findAdj s.adjs m s.fuel x.adj
  match r with
  | some a => do
    let y ← s.adjs.get a
    walkF s.edges s.fuel y.edge
  | none => some []

/-- The adjacencies of `n` in list order, as neighbour and edges. -/
def expand (s : State) (n : Nat) : Option (List (Nat × List Nat)) := do
  let x ← s.nodes.get n
  let as ← walkF s.adjs s.fuel x.adj
  as.mapM fun a => do
    let m ← (s.adjs.elem a).node
    let es ← walkF s.edges s.fuel (s.adjs.elem a).edge
    some (m, es)

/-- `entity_graph.hpp:232-259` `visit_edges` of a node with a visitor that does not modify the
graph and never stops. -/
def visitEdges (s : State) (n : Nat) : Option (List Nat) :=
  (expand s n).map fun l => l.flatMap (·.2)

/-- `entity_graph.hpp:170` `num_nodes`. -/
def numNodes (s : State) : Nat := s.nodes.count
/-- `entity_graph.hpp:171` `num_edges`. -/
def numEdges (s : State) : Nat := s.edges.count

end Edyn.Graph
