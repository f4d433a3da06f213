import Mathlib.Data.List.Perm.Basic
import Mathlib.Data.List.Nodup
import Mathlib.Order.Basic
import Mathlib.Logic.Function.Basic

/-!
# Asynchronous queries: the raycast service of the worker, AABB queries, and the stepper that sends them

`simulation/stepper_async.cpp`, `simulation/simulation_worker.cpp`, `collision/raycast_service.cpp`.
-/

namespace Edyn.Query

/-! ## Rays -/

/-- `shape_raycast_result`, `raycast.hpp` 103-121: the fraction and everything else. -/
structure Hit (T D : Type) where
  fraction : T
  detail : D

/-- `raycast_result`, `raycast.hpp` 128-136. -/
structure Res (T D : Type) where
  hit : Hit T D
  entity : Option Nat

/-- What the worker sees when it casts rays: the entities whose boxes are visited by the broadphase for a ray
(`broadphase::raycast`, C73), the result of `shape_raycast` for each, the entity map, and the order in which an
`unordered_map` with the results is walked. -/
structure World (R T D : Type) where
  visits : R → List Nat
  cast : Nat → R → Hit T D
  local_ : Nat → Option Nat
  order : List (Nat × Res T D) → List (Nat × Res T D)
  perm : ∀ l, (order l).Perm l

variable {R T D : Type} [LinearOrder T]

/-- `raycast_service::broadphase_context`, `raycast_service.hpp` 12-17. -/
structure Broad (R : Type) where
  id : Nat
  ray : R
  ignore : List Nat
  candidates : List Nat

/-- `raycast_service::narrowphase_context`, `raycast_service.hpp` 19-24. -/
structure Narrow (R T D : Type) where
  id : Nat
  ray : R
  entity : Nat
  result : Hit T D

/-- `simulation_worker::on_raycast_request`, `simulation_worker.cpp` 600-610, and `add_ray`,
`raycast_service.hpp` 34-36: entities to be ignored which are not known are left out. -/
def addRay (w : World R T D) (q : Nat × R × List Nat) : Broad R := ⟨q.1, q.2.1, q.2.2.filterMap w.local_, []⟩

/-- `run_broadphase`, `raycast_service.cpp` 14-42, for one context.  In parallel each index is processed exactly once
(C19), so that both branches do the same. -/
def runBroad (w : World R T D) (c : Broad R) : Broad R :=
  { c with candidates := c.candidates ++ (w.visits c.ray).filter fun e => decide (e ∉ c.ignore) }

/-- `finish_broadphase`, `raycast_service.cpp` 44-56; `none'` is the default result. -/
def finishBroad (none' : Hit T D) (cs : List (Broad R)) : List (Narrow R T D) :=
  cs.flatMap fun c => c.candidates.map fun e => ⟨c.id, c.ray, e, none'⟩

/-- `run_narrowphase`, `raycast_service.cpp` 58-103, for one context. -/
def runNarrow (w : World R T D) (c : Narrow R T D) : Narrow R T D := { c with result := w.cast c.entity c.ray }

/-- `m_results[id]`, created with the default result if it is not there, is changed. -/
def upsert (d : Res T D) (id : Nat) (g : Res T D → Res T D) : List (Nat × Res T D) → List (Nat × Res T D)
  | [] => [(id, g d)]
  | (k, v) :: l => if k = id then (k, g v) :: l else (k, v) :: upsert d id g l

/-- `raycast_service.cpp` 109-112, and `raycast.cpp` 41-44: the nearer one is kept. -/
def nearer (e : Nat) (h : Hit T D) (r : Res T D) : Res T D := if h.fraction < r.hit.fraction then ⟨h, some e⟩ else r

/-- `finish_narrowphase`, `raycast_service.cpp` 105-116. -/
def finishNarrow (none' : Hit T D) (results : List (Nat × Res T D)) (cs : List (Narrow R T D)) : List (Nat × Res T D) :=
  cs.foldl (fun r c => upsert ⟨none', none⟩ c.id (nearer c.entity c.result) r) results

/-- The messages of an update of the worker, then `raycast_service::update` (`raycast_service.cpp` 118-123) and
`consume_raycast_results` (`simulation_worker.cpp` 499-505): the responses sent.  All containers of the service are
empty in between. -/
def serveRays (none' : Hit T D) (w : World R T D) (reqs : List (Nat × R × List Nat)) : List (Nat × Res T D) :=
  let broad := (reqs.map (addRay w)).map (runBroad w)
  let narrow := (finishBroad none' broad).map (runNarrow w)
  w.order (finishNarrow none' [] narrow)

/-- `edyn::raycast`, `raycast.cpp` 19-55, with the entities to be ignored as known to the worker. -/
def raycast (none' : Hit T D) (w : World R T D) (q : R × List Nat) : Res T D :=
  ((w.visits q.1).filter fun e => decide (e ∉ q.2.filterMap w.local_)).foldl (fun r e => nearer e (w.cast e q.1) r) ⟨none', none⟩

/-- The ray has some candidate: the broadphase visits an entity which is not ignored. -/
def HasCandidate (w : World R T D) (q : R × List Nat) : Bool :=
  !((w.visits q.1).filter fun e => decide (e ∉ q.2.filterMap w.local_)).isEmpty

/-- `stepper_async::on_raycast_response`, `stepper_async.cpp` 182-192: the entity as known to the main thread. -/
def toMain (m : Nat → Option Nat) (r : Res T D) : Res T D := { r with entity := r.entity.bind m }

/-! ## AABB queries -/

/-- A request: `query_aabb` with its three flags or `query_aabb_of_interest`. -/
inductive BoxQuery (B : Type) where
  | plain (aabb : B) (procedural nonProcedural islands : Bool)
  | interest (aabb : B)

/-- `query_aabb_response`, `message.hpp` 101-106. -/
structure BoxRes where
  procedural : List Nat
  nonProcedural : List Nat
  islands : List Nat
deriving DecidableEq

/-- What the worker sees: the entities visited by the queries of the three trees (exactly the overlapping ones, C01), the
nodes and edges of islands, and which entities are procedural or contact manifolds. -/
structure BoxWorld (B : Type) where
  procedural : B → List Nat
  nonProcedural : B → List Nat
  islands : B → List Nat
  nodes : Nat → List Nat
  edges : Nat → List Nat
  isProcedural : Nat → Bool
  isManifold : Nat → Bool

variable {B : Type}

/-- `push` unless contained, on an `entt::sparse_set`. -/
def push (l : List Nat) (e : Nat) : List Nat := if e ∈ l then l else l ++ [e]

/-- `simulation_worker.cpp` 652-675, for one island: the entities collected so far, and with those of the island.  A
`sparse_set` is walked from the last to the first; the order is left out. -/
def collect {B : Type} (w : BoxWorld B) (acc : List Nat × List Nat) (island : Nat) : List Nat × List Nat :=
  let a := (w.nodes island).foldl (fun l e => if w.isProcedural e then push l e else l) acc.1
  let a := (w.edges island).foldl (fun l e => if w.isManifold e then l else push l e) a
  (a, push acc.2 island)

/-- `on_query_aabb_request`, `simulation_worker.cpp` 612-638, and `on_query_aabb_of_interest_request`, 640-691. -/
def answerBox (w : BoxWorld B) : BoxQuery B → BoxRes
  | .plain b p np i => ⟨if p then w.procedural b else [], if np then w.nonProcedural b else [], if i then w.islands b else []⟩
  | .interest b =>
    let c := (w.islands b).foldl (collect w) ([], [])
    ⟨c.1, (w.nonProcedural b).foldl push [], c.2⟩

/-- The responses to the requests of one update. -/
def serveBoxes (w : BoxWorld B) (reqs : List (Nat × BoxQuery B)) : List (Nat × BoxRes) :=
  reqs.map fun r => (r.1, answerBox w r.2)

/-- `stepper_async::on_query_aabb_response`, `stepper_async.cpp` 199-221: entities as known to the main thread. -/
def boxToMain (m : Nat → Option Nat) (r : BoxRes) : BoxRes :=
  ⟨r.procedural.filterMap m, r.nonProcedural.filterMap m, r.islands.filterMap m⟩

/-! ## The stepper -/

/-- How queries of one kind are served and how results are translated by the main thread. -/
structure Kind (Q A E E' : Type) where
  serve : E → List (Nat × Q) → List (Nat × A)
  translate : E' → A → A

/-- A call of a delegate: which one, with which identifier, result and query (`stepper_async.cpp` 195 and 224; the box of an
AABB query is not passed on). -/
structure Call (Q A F : Type) where
  delegate : F
  id : Nat
  result : A
  query : Q

/-- The next identifier and the waiting contexts of `stepper_async` (`stepper_async.hpp` 125-129), the messages on their way
to the worker and back (in order, exactly once: C20), and the calls of delegates so far.  Identifiers are
not wrapped around at 2³². -/
structure St (Q A F : Type) where
  next : Nat
  waiting : Nat → Option (Q × F)
  toWorker : List (Nat × Q)
  back : List (Nat × A)
  log : List (Call Q A F)

/-- What happens: the application asks, the worker runs an update, the main thread processes its messages. -/
inductive Op (Q E E' F : Type) where
  | ask (q : Q) (f : F)
  | work (e : E)
  | receive (e : E')

variable {Q A E E' F : Type}

/-- `stepper_async::raycast`, `query_aabb` and `query_aabb_of_interest`, `stepper_async.cpp` 352-388. -/
def ask (q : Q) (f : F) (s : St Q A F) : St Q A F :=
  { s with next := s.next + 1, waiting := Function.update s.waiting s.next (some (q, f)), toWorker := s.toWorker ++ [(s.next, q)] }

/-- An update of the worker. -/
def work (k : Kind Q A E E') (e : E) (s : St Q A F) : St Q A F :=
  { s with toWorker := [], back := s.back ++ k.serve e s.toWorker }

/-- `on_raycast_response`, `on_query_aabb_response`, `stepper_async.cpp` 194-196 and 223-225; `none`: `std::map::at`
throws. -/
def onResponse (k : Kind Q A E E') (e : E') (s : St Q A F) (r : Nat × A) : Option (St Q A F) :=
  (s.waiting r.1).map fun c =>
    { s with log := s.log ++ [⟨c.2, r.1, k.translate e r.2, c.1⟩], waiting := Function.update s.waiting r.1 none }

/-- The main thread processes its messages. -/
def receive (k : Kind Q A E E') (e : E') (s : St Q A F) : Option (St Q A F) :=
  s.back.foldlM (onResponse k e) { s with back := [] }

def step (k : Kind Q A E E') (s : St Q A F) : Op Q E E' F → Option (St Q A F)
  | .ask q f => some (ask q f s)
  | .work e => some (work k e s)
  | .receive e => receive k e s

def run (k : Kind Q A E E') (ops : List (Op Q E E' F)) (s : St Q A F) : Option (St Q A F) := ops.foldlM (step k) s

/-- The stepper before the first query. -/
def St.start : St Q A F := ⟨0, fun _ => none, [], [], []⟩

/-- Rays. -/
def rays (none' : Hit T D) : Kind (R × List Nat) (Res T D) (World R T D) (Nat → Option Nat) := ⟨serveRays none', toMain⟩

/-- AABB queries. -/
def boxes : Kind (BoxQuery B) BoxRes (BoxWorld B) (Nat → Option Nat) := ⟨serveBoxes, boxToMain⟩

end Edyn.Query
