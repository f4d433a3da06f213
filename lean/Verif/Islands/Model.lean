import Mathlib.Algebra.Order.Group.Defs
import Mathlib.Logic.Function.Basic

/-!
# Islands: the model

`island_manager` of `src/edyn/simulation/island_manager.cpp` together with the operations on the
registry and the entity graph that feed it.

Simplifications.
* Rigid body entities (`nodes`), constraint and contact entities (`edges`) and island entities are
  numbered separately; entity versions make ids unique, so a destroyed island id is never reused.
* The entity graph is the list of its edges together with an adjacency function (`Env.adj`) that is
  only assumed to list, for every node, the neighbours with the edges that join them (proved of
  `entity_graph` in `Verif.Graph`), in any order.
* An `entt::sparse_set` is a list without repetitions; its order is not specified by the properties
  and differs from the code's.  Pushing an element it has, or erasing one it does not have, is
  undefined (`none`).
* A body has `island_resident` if and only if it has `procedural_tag` and its graph node is
  connecting, `multi_island_resident` otherwise (`make_rigidbody`, `rigidbody.cpp` 165-172;
  `rigidbody_apply_kind`, 578-604).
* Island AABBs, `disabled_tag` and the observers of other systems are not modelled.
-/

namespace Edyn.Islands

/-- An edge of the entity graph: its entity and the bodies it connects. -/
structure Edge where
  id : Nat
  a : Nat
  b : Nat
deriving DecidableEq

/-- `island`, `include/edyn/comp/island.hpp` 17-21; `sleep_timestamp` is in `W.stamp`. -/
structure Island where
  nodes : List Nat := []
  edges : List Nat := []
deriving DecidableEq

/-- Edge `e` joins `n` and `m`. -/
def Joins (E : List Edge) (e n m : Nat) : Prop :=
  ∃ x ∈ E, x.id = e ∧ ((x.a = n ∧ x.b = m) ∨ (x.a = m ∧ x.b = n))

/-- What is assumed of the adjacency lists of the entity graph. -/
structure AdjOk (E : List Edge) (adj : Nat → List (Nat × List Nat)) : Prop where
  sound : ∀ n m es, (m, es) ∈ adj n → es ≠ [] ∧ ∀ e ∈ es, Joins E e n m
  complete : ∀ e n m, Joins E e n m → ∃ es, (m, es) ∈ adj n ∧ e ∈ es

/-- The parts of the environment that are not fixed: the order of the adjacency lists and the order
of a `std::set` of node indices; the constant `island_time_to_sleep`. -/
structure Env (T : Type) where
  adj : List Edge → Nat → List (Nat × List Nat)
  adjOk : ∀ E, AdjOk E (adj E)
  ord : List Nat → List Nat
  ordOk : ∀ l, (ord l).Perm l
  timeToSleep : T

/-- The registry as far as islands are concerned, and the members of `island_manager`
(`island_manager.hpp` 56-65).  `nres`/`eres`: `island_resident` of a procedural body or an edge;
`mres`: `multi_island_resident` of the other bodies; `isl`: the island entities; `next`: the next
island entity created; `slN`, `slE`, `slI`: `sleeping_tag`; `nosleep`: `sleeping_disabled_tag`. -/
structure W (T : Type) where
  nodes : List Nat := []
  proc : Nat → Bool := fun _ => false
  edges : List Edge := []
  nres : Nat → Option Nat := fun _ => none
  eres : Nat → Option Nat := fun _ => none
  mres : Nat → List Nat := fun _ => []
  isl : Nat → Option Island := fun _ => none
  stamp : Nat → Option T := fun _ => none
  next : Nat := 0
  newNodes : List Nat := []
  newEdges : List Nat := []
  toSplit : List Nat := []
  toWake : List Nat := []
  slN : Nat → Bool := fun _ => false
  slE : Nat → Bool := fun _ => false
  slI : Nat → Bool := fun _ => false
  nosleep : Nat → Bool := fun _ => false
  lastTime : T

variable {T : Type}

/-- `push` guarded by `contains`. -/
def pushNew (l : List Nat) (x : Nat) : List Nat := if x ∈ l then l else l ++ [x]

/-- Assign a value to all members of a list. -/
def setAll {β : Type} (f : Nat → β) (l : List Nat) (v : β) : Nat → β :=
  fun x => if x ∈ l then v else f x

/-! ### Traversals

`entity_graph::reach` and `entity_graph::traverse` (`entity_graph.hpp` 261-422) call functions of
their caller while they run.  These functions do not change anything the traversal of one component
depends on, so the traversal produces the sequence of calls, and the callers process it. -/

/-- A call made by a traversal: `visit_node_func`, `visit_edge_func`, `should_func`. -/
inductive Ev where
  | node (n : Nat)
  | edge (e : Nat)
  | ask (n : Nat)
deriving DecidableEq

/-- Local variables of a traversal. -/
structure TS where
  vis : Nat → Bool
  visE : Nat → Bool
  todo : List Nat
  log : List Ev

/-- `entity_graph.hpp` 314-324, 398-409. -/
def scanEdges : List Nat → TS → TS
  | [], t => t
  | e :: es, t =>
    scanEdges es
      (if t.visE e then t
       else { t with log := t.log ++ [.edge e], visE := Function.update t.visE e true })

/-- `entity_graph.hpp` 327-333, 411-418. -/
def scanNode (should : Nat → Bool) (push : Nat → List Nat → List Nat) (m : Nat) (t : TS) : TS :=
  if t.vis m then t
  else if should m then
    { t with log := t.log ++ [.ask m], todo := push m t.todo, vis := Function.update t.vis m true }
  else { t with log := t.log ++ [.ask m] }

/-- `entity_graph.hpp` 310-336, 393-420. -/
def scanAdj (should : Nat → Bool) (push : Nat → List Nat → List Nat) :
    List (Nat × List Nat) → TS → TS
  | [], t => t
  | (m, es) :: rest, t => scanAdj should push rest (scanNode should push m (scanEdges es t))

/-- `entity_graph.hpp` 292-337, 376-421: the inner loop; the head of `todo` is the `back()` of
`to_visit`.  `none`: out of fuel (shown not to happen). -/
def loop (adj : Nat → List (Nat × List Nat)) (conn should : Nat → Bool)
    (push : Nat → List Nat → List Nat) : Nat → TS → Option TS
  | fuel, t =>
    match t.todo with
    | [] => some t
    | n :: rest =>
      match fuel with
      | 0 => none
      | fuel + 1 =>
        let t := { t with
          vis := Function.update t.vis n true, todo := rest, log := t.log ++ [.node n] }
        if conn n then loop adj conn should push fuel (scanAdj should push (adj n) t)
        else loop adj conn should push fuel t

/-- `emplace_back`, `entity_graph.hpp` 330. -/
def pushStack (m : Nat) (l : List Nat) : List Nat := m :: l
/-- `insert(begin)`, `entity_graph.hpp` 414. -/
def pushQueue (m : Nat) (l : List Nat) : List Nat := l ++ [m]

/-- All edges of a node: `graph.visit_edges`. -/
def edgesOf (env : Env T) (w : W T) (n : Nat) : List Nat := (env.adj w.edges n).flatMap (·.2)

/-! ### New nodes and edges -/

/-- `wake_up_island`, `src/edyn/util/island_util.cpp` 66-71 with
`remove_sleeping_tag_from_island`, 7-13. -/
def wakeUp (w : W T) (i : Nat) : Option (W T) :=
  if w.slI i then
    match w.isl i with
    | none => none
    | some I => some { w with
        slI := Function.update w.slI i false
        slN := setAll w.slN I.nodes false
        slE := setAll w.slE I.edges false }
  else some w

/-- The loop over the nodes in `insert_to_island`, lines 264-282. -/
def insertNodes (i : Nat) : List Nat → W T → Option (W T)
  | [], w => some w
  | n :: ns, w =>
    match w.isl i with
    | none => none
    | some I =>
      if w.proc n then
        if n ∈ I.nodes then none
        else insertNodes i ns { w with
          isl := Function.update w.isl i (some { I with nodes := I.nodes ++ [n] })
          nres := Function.update w.nres n (some i)
          slN := Function.update w.slN n false }
      else insertNodes i ns { w with
        isl := Function.update w.isl i (some { I with nodes := pushNew I.nodes n })
        mres := Function.update w.mres n (pushNew (w.mres n) i)
        slN := Function.update w.slN n false }

/-- The loop over the edges in `insert_to_island` and the push of all edges, lines 284-291. -/
def insertEdges (i : Nat) : List Nat → W T → Option (W T)
  | [], w => some w
  | e :: es, w =>
    match w.isl i with
    | none => none
    | some I =>
      if e ∈ I.edges then none
      else insertEdges i es { w with
        isl := Function.update w.isl i (some { I with edges := I.edges ++ [e] })
        eres := Function.update w.eres e (some i)
        slE := Function.update w.slE e false }

/-- `insert_to_island`, lines 257-294. -/
def insertTo (w : W T) (i : Nat) (ns es : List Nat) : Option (W T) :=
  (insertNodes i ns w).bind fun w => (insertEdges i es w).bind fun w => wakeUp w i

/-- `create_island`, lines 249-255. -/
def createIsland (w : W T) : W T :=
  { w with
    isl := Function.update w.isl w.next (some {})
    stamp := Function.update w.stamp w.next none
    slI := Function.update w.slI w.next false
    next := w.next + 1 }

/-- Number of members of an island (zero if there is no such island). -/
def islandSize (w : W T) (i : Nat) : Nat :=
  match w.isl i with
  | none => 0
  | some I => I.nodes.length + I.edges.length

/-- The choice of the biggest island in `merge_islands`, lines 302-313. -/
def biggest (size : Nat → Nat) : List Nat → Option Nat → Nat → Option Nat
  | [], best, _ => best
  | i :: is, best, n => if size i > n then biggest size is (some i) (size i) else biggest size is best n

/-- `merge_islands`, lines 297-349. -/
def mergeIslands (w : W T) (is ns es : List Nat) : Option (W T) :=
  match biggest (islandSize w) is none 0 with
  | none => none
  | some i =>
    let others := is.filter fun j => decide (j ≠ i)
    let allEdges := others.foldl (fun l j => l ++ ((w.isl j).getD {}).edges) es
    let allNodes := others.foldl (fun l j => ((w.isl j).getD {}).nodes.foldl pushNew l) ns
    (insertTo w i allNodes allEdges).map fun w => { w with
      isl := setAll w.isl others none
      slI := setAll w.slI others false
      stamp := setAll w.stamp others none
      mres := fun n => (w.mres n).filter fun j => decide (j ∉ others) }

/-- What `reach` has collected for the current component: `connected_nodes`, `connected_edges`,
`island_entities`, lines 157-159. -/
structure Coll where
  nodes : List Nat := []
  edges : List Nat := []
  islands : List Nat := []

/-- The result of `should_visit_func`, lines 185-222. -/
def should (env : Env T) (w : W T) (n : Nat) : Bool :=
  w.proc n && ((w.nres n).isNone || (edgesOf env w n).any fun e => (w.eres e).isNone)

/-- The effects of `visit_node_func`, `visit_edge_func` and `should_visit_func`, lines 163-222.
`none`: the assertion on line 168. -/
def collect (w : W T) (c : Coll) : Ev → Option Coll
  | .node n =>
    if w.proc n then
      match w.nres n with
      | none => some { c with nodes := c.nodes ++ [n] }
      | some _ => some c
    else none
  | .edge e =>
    match w.eres e with
    | none => some { c with edges := c.edges ++ [e] }
    | some i => some { c with islands := pushNew c.islands i }
  | .ask n =>
    if w.proc n then
      match w.nres n with
      | none => some c
      | some i => some { c with islands := pushNew c.islands i }
    else some { c with nodes := pushNew c.nodes n }

/-- `connected_component_func`, lines 223-245. -/
def assign (w : W T) (c : Coll) : Option (W T) :=
  match c.islands with
  | [] => insertTo (createIsland w) w.next c.nodes c.edges
  | [i] => insertTo w i c.nodes c.edges
  | _ => mergeIslands w c.islands c.nodes c.edges

/-- `entity_graph::reach`, `entity_graph.hpp` 273-353, with the functions of
`init_new_nodes_and_edges`. -/
def reachLoop (env : Env T) : List Nat → (Nat → Bool) → (Nat → Bool) → Coll → W T → Option (W T)
  | [], _, _, _, w => some w
  | r :: rs, vis, visE, c, w =>
    if vis r then reachLoop env rs vis visE c w
    else
      match collect w c (.ask r) with
      | none => none
      | some c =>
        if should env w r then
          match loop (env.adj w.edges) w.proc (should env w) pushStack (w.nodes.length + 1)
              ⟨vis, visE, [r], []⟩ with
          | none => none
          | some t =>
            match t.log.foldlM (collect w) c with
            | none => none
            | some c =>
              match assign w c with
              | none => none
              | some w => reachLoop env rs t.vis t.visE {} w
        else reachLoop env rs vis visE c w

/-- The bodies of an edge. -/
def endsOf (w : W T) (e : Nat) : Option (Nat × Nat) :=
  (w.edges.find? fun x => decide (x.id = e)).map fun x => (x.a, x.b)

/-- `procedural_node_indices`, lines 128-151, before they are put in a `std::set`; `none`: an edge
that is no longer in the graph (`edge_view.get` is undefined). -/
def startNodes (w : W T) : Option (List Nat) :=
  (w.newEdges.mapM (endsOf w)).map fun ends =>
    (w.newNodes.filter fun n => decide (n ∈ w.nodes)).filter (fun n => w.proc n) ++
      (ends.flatMap fun p => [p.1, p.2]).filter (fun n => w.proc n)

/-- `init_new_nodes_and_edges`, lines 117-247. -/
def initNew (env : Env T) (w : W T) : Option (W T) :=
  match startNodes w with
  | none => none
  | some l =>
    reachLoop env (env.ord (l.foldl pushNew [])) (fun _ => false) (fun _ => false) {}
      { w with newNodes := [], newEdges := [] }

/-! ### Splitting -/

/-- The nodes and edges visited by `entity_graph::traverse`. -/
def traverse (env : Env T) (w : W T) (n : Nat) : Option Island :=
  (loop (env.adj w.edges) w.proc (fun _ => true) pushQueue (w.nodes.length + 1)
    ⟨fun _ => false, fun _ => false, [n], []⟩).map fun t =>
    { nodes := t.log.filterMap fun ev => match ev with | .node n => some n | _ => none
      edges := t.log.filterMap fun ev => match ev with | .edge e => some e | _ => none }

/-- The loop over `all_nodes` in `split_islands`, lines 390-419. -/
def components (env : Env T) (w : W T) : Nat → List Nat → Option (List Island)
  | _, [] => some []
  | 0, _ :: _ => none
  | fuel + 1, n :: ns =>
    if w.proc n then
      match traverse env w n with
      | none => none
      | some I =>
        match components env w fuel (ns.filter fun x => decide (x ∉ I.nodes)) with
        | none => none
        | some is => some (I :: is)
    else components env w fuel ns

/-- The index of the component with the most nodes, lines 430-440. -/
def biggestIdx : List Island → Nat → Nat → Nat → Nat
  | [], _, _, best => best
  | I :: is, k, n, best =>
    if I.nodes.length > n then biggestIdx is (k + 1) I.nodes.length k else biggestIdx is (k + 1) n best

/-- The loop over the nodes of a new island, lines 475-501. -/
def moveNodes (source k : Nat) (S : Island) : List Nat → W T → Option (W T)
  | [], w => some w
  | n :: ns, w =>
    if w.proc n then
      moveNodes source k S ns { w with nres := Function.update w.nres n (some k) }
    else if k ∈ w.mres n then none
    else
      let m := w.mres n ++ [k]
      moveNodes source k S ns { w with
        mres := Function.update w.mres n
          (if n ∈ S.nodes then m else m.filter fun j => decide (j ≠ source)) }

/-- The loop over the other components, lines 468-516; the new component is put in a new island. -/
def makeIslands (source : Nat) (S : Island) : List Island → W T → Option (W T)
  | [], w => some w
  | I :: is, w =>
    let k := w.next
    let w := { w with
      isl := Function.update w.isl k (some I)
      stamp := Function.update w.stamp k none
      slI := Function.update w.slI k false
      next := k + 1 }
    match moveNodes source k S I.nodes w with
    | none => none
    | some w =>
      makeIslands source S is { w with
        eres := setAll w.eres I.edges (some k)
        slN := setAll w.slN I.nodes false
        slE := setAll w.slE I.edges false }

/-- `resident.island_entities.erase(source)` for each node of an island without procedural nodes,
lines 377-382. -/
def forget (i : Nat) : List Nat → W T → Option (W T)
  | [], w => some w
  | n :: ns, w =>
    if i ∈ w.mres n then
      forget i ns { w with
        mres := Function.update w.mres n ((w.mres n).filter fun j => decide (j ≠ i)) }
    else none

/-- One island of `split_islands`, lines 368-518. -/
def splitOne (env : Env T) (w : W T) (i : Nat) : Option (W T) :=
  match w.isl i with
  | none => none
  | some I =>
    if I.nodes.all fun n => !w.proc n then
      if I.edges = [] then
        (forget i I.nodes w).map fun w => { w with
          isl := Function.update w.isl i none
          slI := Function.update w.slI i false
          stamp := Function.update w.stamp i none }
      else none
    else
      match components env w I.nodes.length I.nodes with
      | none => none
      | some is =>
        match is with
        | [] => none
        | [_] => some w
        | _ =>
          let b := biggestIdx is 0 0 0
          match is[b]?, is.getLast? with
          | some S, some l =>
            makeIslands i S ((is.set b l).dropLast) { w with
              isl := Function.update w.isl i (some S)
              stamp := Function.update w.stamp i none
              slI := Function.update w.slI i false
              slN := setAll w.slN S.nodes false
              slE := setAll w.slE S.edges false }
          | _, _ => none

/-- `split_islands`, lines 352-522. -/
def split (env : Env T) (w : W T) : Option (W T) :=
  ((w.toSplit.filter fun i => (w.isl i).isSome).foldlM (splitOne env) w).map fun w =>
    { w with toSplit := [] }

/-! ### Sleeping -/

/-- `wake_up_islands`, lines 524-531. -/
def wakeAll (w : W T) : Option (W T) :=
  (w.toWake.foldlM (fun (w : W T) i => if (w.isl i).isSome then wakeUp w i else some w) w).map fun w =>
    { w with toWake := [] }

/-- `put_to_sleep`, lines 541-565: `emplace` of a tag that is present is undefined. -/
def putToSleep (w : W T) (i : Nat) : Option (W T) :=
  match w.isl i with
  | none => none
  | some I =>
    let ns := I.nodes.filter fun n => w.proc n
    if w.slI i || ns.any (fun n => w.slN n) || I.edges.any fun e => w.slE e then none
    else some { w with
      slI := Function.update w.slI i true
      slN := setAll w.slN ns true
      slE := setAll w.slE I.edges true }

variable [AddCommGroup T] [LinearOrder T]

/-- `could_go_to_sleep`, lines 573-603; `fast n` tells whether body `n` has velocities above the
thresholds. -/
def couldSleep (w : W T) (fast : Nat → Bool) (I : Island) : Bool :=
  I.nodes.all fun n => !w.nosleep n && !fast n

/-- The body of the loop in `put_islands_to_sleep`, lines 608-622. -/
def maybeSleep (env : Env T) (fast : Nat → Bool) (w : W T) (i : Nat) : Option (W T) :=
  match w.isl i with
  | none => some w
  | some I =>
    if w.slI i then some w
    else if couldSleep w fast I then
      match w.stamp i with
      | none => some { w with stamp := Function.update w.stamp i (some w.lastTime) }
      | some t =>
        if w.lastTime - t > env.timeToSleep then
          (putToSleep w i).map fun w => { w with stamp := Function.update w.stamp i none }
        else some w
    else some { w with stamp := Function.update w.stamp i none }

/-- `put_islands_to_sleep`, lines 605-623. -/
def sleepAll (env : Env T) (fast : Nat → Bool) (w : W T) : Option (W T) :=
  (List.range w.next).foldlM (maybeSleep env fast) w

/-- `put_all_to_sleep`, lines 567-571. -/
def sleepNow (w : W T) : Option (W T) :=
  (List.range w.next).foldlM
    (fun (w : W T) i => if (w.isl i).isSome && !w.slI i then putToSleep w i else some w) w

/-- `island_manager::update`, lines 533-539. -/
def update (env : Env T) (time : T) (fast : Nat → Bool) (w : W T) : Option (W T) :=
  (wakeAll w).bind fun w => (initNew env w).bind fun w => (split env w).bind fun w =>
    (sleepAll env fast w).map fun w => { w with lastTime := time }

omit [AddCommGroup T] [LinearOrder T]

/-! ### Changes of the registry -/

/-- Construction of a body: `make_rigidbody`, `rigidbody.cpp` 165-172, and
`on_construct_graph_node`, lines 38-40. -/
def addNode (w : W T) (n : Nat) (proc nosleep : Bool) : Option (W T) :=
  if n ∈ w.nodes then none
  else some { w with
    nodes := w.nodes ++ [n]
    proc := Function.update w.proc n proc
    nres := Function.update w.nres n none
    mres := Function.update w.mres n []
    slN := Function.update w.slN n false
    nosleep := Function.update w.nosleep n nosleep
    newNodes := w.newNodes ++ [n] }

/-- Construction of a constraint or contact: `pre_make_constraint`, `constraint_util.cpp` 36-42, and
`on_construct_graph_edge`, lines 42-44. -/
def addEdge (w : W T) (e a b : Nat) : Option (W T) :=
  if a ∈ w.nodes ∧ b ∈ w.nodes ∧ ∀ x ∈ w.edges, x.id ≠ e then
    some { w with
      edges := w.edges ++ [⟨e, a, b⟩]
      eres := Function.update w.eres e none
      slE := Function.update w.slE e false
      newEdges := w.newEdges ++ [e] }
  else none

/-- `on_destroy_island_resident` for an edge, lines 74-96. -/
def edgeResidentGone (w : W T) (e : Nat) : Option (W T) :=
  match w.eres e with
  | none => some w
  | some i =>
    match w.isl i with
    | none => none
    | some I => some { w with
        isl := Function.update w.isl i (some { I with edges := I.edges.filter fun x => decide (x ≠ e) })
        eres := Function.update w.eres e none
        toSplit := pushNew w.toSplit i
        toWake := pushNew w.toWake i }

/-- `on_destroy_island_resident` for a body, lines 74-96. -/
def nodeResidentGone (w : W T) (n : Nat) : Option (W T) :=
  match w.nres n with
  | none => some w
  | some i =>
    match w.isl i with
    | none => none
    | some I => some { w with
        isl := Function.update w.isl i (some { I with nodes := I.nodes.filter fun x => decide (x ≠ n) })
        nres := Function.update w.nres n none
        toSplit := pushNew w.toSplit i
        toWake := pushNew w.toWake i }

/-- `on_destroy_multi_island_resident`, lines 98-115. -/
def multiResidentGone (n : Nat) : List Nat → W T → Option (W T)
  | [], w => some w
  | i :: is, w =>
    match w.isl i with
    | none => none
    | some I =>
      if n ∈ I.nodes then
        multiResidentGone n is { w with
          isl := Function.update w.isl i
            (some { I with nodes := I.nodes.filter fun x => decide (x ≠ n) })
          toWake := pushNew w.toWake i }
      else none

/-- Removal of an edge from graph and registry.  `destroyed`: the entity is destroyed
(`registry.destroy`) and disappears from `m_new_graph_edges` at the next update; otherwise the
entity stays (`clear_constraint`, `constraint_util.cpp` 53-58) and stays there, too. -/
def removeEdge (w : W T) (e : Nat) (destroyed : Bool) : Option (W T) :=
  if w.edges.any fun x => decide (x.id = e) then
    (edgeResidentGone w e).map fun w => { w with
      edges := w.edges.filter fun x => decide (x.id ≠ e)
      slE := Function.update w.slE e false
      newEdges := if destroyed then w.newEdges.filter fun x => decide (x ≠ e) else w.newEdges }
  else none

/-- Removal of a body with all its edges: `on_destroy_graph_node`, lines 46-66, and the destruction
of its resident component. -/
def removeNode (w : W T) (n : Nat) : Option (W T) :=
  if n ∈ w.nodes then
    let es := (w.edges.filter fun x => decide (x.a = n ∨ x.b = n)).map (·.id)
    (es.foldlM (fun w e => removeEdge w e true) w).bind fun w =>
      (if w.proc n then nodeResidentGone w n else multiResidentGone n (w.mres n) w).map fun w =>
        { w with
          nodes := w.nodes.filter fun x => decide (x ≠ n)
          mres := Function.update w.mres n []
          slN := Function.update w.slN n false }
  else none

/-- `set_procedural`, lines 625-662, with the change of the tag and of the graph node
(`rigidbody_apply_kind`, `rigidbody.cpp` 579-589).  The removal of contacts that follows (593-605)
is a sequence of `removeEdge`. -/
def setProcedural (w : W T) (n : Nat) (p : Bool) : Option (W T) :=
  if n ∈ w.nodes then
    if w.proc n = p then some w
    else if p then
      let w' := { w with
        proc := Function.update w.proc n true, mres := Function.update w.mres n [] }
      match w.mres n with
      | [] => insertTo (createIsland { w' with nres := Function.update w'.nres n none }) w'.next [n] []
      | [i] => some { w' with nres := Function.update w'.nres n (some i) }
      | is =>
        match biggest (islandSize w) is none 0 with
        | none => none
        | some i =>
          -- during the merge the body still has its `multi_island_resident`
          (mergeIslands w is [] []).map fun w1 => { w1 with
            proc := Function.update w.proc n true
            mres := Function.update w1.mres n []
            nres := Function.update w1.nres n (some i) }
    else
      match w.nres n with
      | none => none -- the null island is put in `island_entities`; not modelled
      | some i => some { w with
          proc := Function.update w.proc n false
          nres := Function.update w.nres n none
          mres := Function.update w.mres n [i] }
  else none

/-- The calls. -/
inductive Op (T : Type) where
  | addNode (n : Nat) (proc nosleep : Bool)
  | addEdge (e a b : Nat)
  | removeEdge (e : Nat) (destroyed : Bool)
  | removeNode (n : Nat)
  | setProcedural (n : Nat) (p : Bool)
  | wakeUp (i : Nat)
  | sleepNow
  | update (time : T) (fast : Nat → Bool)

variable [AddCommGroup T] [LinearOrder T]

/-- One call; `none` if it is not allowed or undefined. -/
def step (env : Env T) (w : W T) : Op T → Option (W T)
  | .addNode n p s => addNode w n p s
  | .addEdge e a b => addEdge w e a b
  | .removeEdge e d => removeEdge w e d
  | .removeNode n => removeNode w n
  | .setProcedural n p => setProcedural w n p
  | .wakeUp i => if (w.isl i).isSome then wakeUp w i else none
  | .sleepNow => sleepNow w
  | .update time fast => update env time fast w

/-- A history of calls. -/
def run (env : Env T) : W T → List (Op T) → Option (W T)
  | w, [] => some w
  | w, op :: ops =>
    match step env w op with
    | none => none
    | some w => run env w ops

end Edyn.Islands
