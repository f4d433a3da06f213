import Verif.Graph.Model

/-!
# Traversals of the entity graph

`reach`, `traverse`, `connected_components` and `is_single_connected_component` share one inner loop,
with small differences that are parameters here: the predicate `should_func` (constantly true except
in `reach`) and where new nodes are put in `to_visit` (`push`; the next node is always taken from the
head of the list here, which is `back()` in the code).

Simplifications: visited nodes and edges are reported by index, `…Entities` maps them to the entities
that the code reports; the predicate is a pure function of the node; the assertions on non-null
entities in `reach` and `traverse` are made in all four functions; the edge assertion is made on
all edges of the adjacency, not only the ones not visited before; `is_single_connected_component`
does not walk edges in the code, here it does and ignores them.
-/

namespace Edyn.Graph

/-- Local variables of the loops. -/
structure TS where
  vis : Nat → Bool
  visE : Nat → Bool
  todo : List Nat
  nodes : List Nat
  edges : List Nat
  nonc : List Nat

/-- `entity_graph.hpp:314-324`: the edges of one adjacency. -/
def scanEdges : List Nat → TS → TS
  | [], t => t
  | e :: es, t =>
    scanEdges es (if t.visE e then t else { t with edges := t.edges ++ [e], visE := fset t.visE e true })

/-- `entity_graph.hpp:327-333`: the neighbour of one adjacency. -/
def scanNode (should : Nat → Bool) (push : Nat → List Nat → List Nat) (m : Nat) (t : TS) : TS :=
  if !t.vis m && should m then { t with todo := push m t.todo, vis := fset t.vis m true } else t

/-- `entity_graph.hpp:310-336`, `hpp:393-420`, `cpp:345-371`, `cpp:283-296`: all adjacencies of a
node. -/
def scanAdj (should : Nat → Bool) (push : Nat → List Nat → List Nat) : List (Nat × List Nat) → TS → TS
  | [], t => t
  | (m, es) :: rest, t => scanAdj should push rest (scanNode should push m (scanEdges es t))

/-- `entity_graph.hpp:293-337`, `hpp:376-421`, `cpp:334-372`, `cpp:276-297`: the inner loop. -/
def loop (s : State) (should : Nat → Bool) (push : Nat → List Nat → List Nat) :
    Nat → TS → Option TS
  | fuel, t =>
    match t.todo with
    | [] => some t
    | n :: rest =>
      match fuel with
      | 0 => none
      | fuel + 1 => do
        let x ← s.nodes.get n
        check x.entity.isSome
        if x.nonConnecting then
          loop s should push fuel
            { t with vis := fset t.vis n true, todo := rest, nodes := t.nodes ++ [n],
                     nonc := t.nonc ++ [n] }
        else do
          let l ← expand s n
          check (l.all fun p => p.2.all fun e => (s.edges.elem e).entity.isSome)
          loop s should push fuel (scanAdj should push l
            { t with vis := fset t.vis n true, todo := rest, nodes := t.nodes ++ [n] })

/-- Marks the given nodes as not visited: `entity_graph.hpp:345-347`, `cpp:376-378`. -/
def unmark (l : List Nat) (vis : Nat → Bool) : Nat → Bool := l.foldl (fun v n => fset v n false) vis

/-- Depth first: `entity_graph.hpp:330` `to_visit.emplace_back`. -/
def pushStack (m : Nat) (l : List Nat) : List Nat := m :: l
/-- Breadth first: `entity_graph.hpp:414` `to_visit.insert(to_visit.begin(), …)`. -/
def pushQueue (m : Nat) (l : List Nat) : List Nat := l ++ [m]

/-- One component: the inner loop from `todo` with fresh output lists. -/
def component (s : State) (should : Nat → Bool) (push : Nat → List Nat → List Nat)
    (vis visE : Nat → Bool) (todo : List Nat) : Option TS :=
  loop s should push s.nodes.size ⟨vis, visE, todo, [], [], []⟩

/-- `entity_graph.hpp:261-354` `reach`; the result is the list of components, each with the nodes and
edges visited before `component_func` is called. -/
def reachLoop (s : State) (should : Nat → Bool) (vis visE : Nat → Bool) :
    List Nat → Option (List (List Nat × List Nat))
  | [] => some []
  | r :: rs => do
    let x ← s.nodes.get r
    check (!x.nonConnecting)
    if vis r then reachLoop s should vis visE rs
    else if !should r then reachLoop s should vis visE rs
    else do
      let t ← component s should pushStack vis visE [r]
      let rest ← reachLoop s should (unmark t.nonc t.vis) t.visE rs
      some ((t.nodes, t.edges) :: rest)

/-- `entity_graph.hpp:261-354` `reach`. -/
def reach (s : State) (should : Nat → Bool) (starts : List Nat) :
    Option (List (List Nat × List Nat)) := do
  check (0 < starts.length)
  reachLoop s should (fun _ => false) (fun _ => false) starts

/-- `entity_graph.hpp:356-422` `traverse`. -/
def traverse (s : State) (start : Nat) : Option (List Nat × List Nat) := do
  let t ← component s (fun _ => true) pushQueue (fun _ => false) (fun _ => false) [start]
  some (t.nodes, t.edges)

/-- `entity_graph.cpp:321-327`, `381-388`: the first connecting node not visited. -/
def scan (s : State) (vis : Nat → Bool) : Option Nat :=
  (List.range s.nodes.size).find? fun i =>
    !vis i && (s.nodes.elem i).entity.isSome && !(s.nodes.elem i).nonConnecting

/-- `entity_graph.cpp:331-394`: the outer loop. -/
def ccLoop (s : State) : Nat → (Nat → Bool) → (Nat → Bool) → List Nat →
    Option (List (List Nat × List Nat))
  | 0, _, _, _ => none
  | fuel + 1, vis, visE, todo => do
    let t ← component s (fun _ => true) pushStack vis visE todo
    match scan s (unmark t.nonc t.vis) with
    | none => some [(t.nodes, t.edges)]
    | some r => do
      let rest ← ccLoop s fuel (unmark t.nonc t.vis) t.visE [r]
      some ((t.nodes, t.edges) :: rest)

/-- `entity_graph.cpp:311-397` `connected_components`. -/
def connectedComponents (s : State) : Option (List (List Nat × List Nat)) :=
  ccLoop s (s.nodes.size + 1) (fun _ => false) (fun _ => false) (scan s fun _ => false).toList

/-- The components as reported: entities of nodes and edges. -/
def componentsEntities (s : State) (l : List (List Nat × List Nat)) :
    List (List (Option Nat) × List (Option Nat)) :=
  l.map fun p => (p.1.map fun i => (s.nodes.elem i).entity, p.2.map fun e => (s.edges.elem e).entity)

/-- `entity_graph.cpp:259-309` `is_single_connected_component`. -/
def isSingle (s : State) : Option Bool := do
  check (0 < s.nodes.count)
  let t ← component s (fun _ => true) pushStack (fun _ => false) (fun _ => false)
    (scan s fun _ => false).toList
  some (scan s t.vis).isNone

end Edyn.Graph
