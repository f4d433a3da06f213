import Mathlib.Data.List.Nodup
import Mathlib.Data.List.Perm.Subperm
import Mathlib.Data.List.Range

/-!
# The page cache of a paged triangle mesh

`paged_triangle_mesh` keeps some of its submeshes ("pages") in memory.  Worker threads look at pages
while colliding; a page that is missing is requested from the page loader and arrives later.  The
model is a state machine whose steps are the critical sections of the code, so that a list of steps
is one interleaving of any number of threads.

`none` stands for undefined behaviour or a failed `EDYN_ASSERT`.
-/

namespace Edyn.Mesh.Cache

/-- One entry of `m_cache` (include/edyn/shapes/paged_triangle_mesh.hpp 30-35).  The vertices and
triangles of a page are not modelled: `mesh` is `none` while `trimesh` is null, and otherwise the
thickness of the triangle mesh that is in memory.  `num_indices` is not used by the cache. -/
structure Page where
  verts : Nat
  mesh : Option Int
deriving DecidableEq, Repr

/-- `paged_triangle_mesh` (include/edyn/shapes/paged_triangle_mesh.hpp 324-330, 296).
`room` lists the pages some thread is making room for (paged_triangle_mesh.cpp 52-54), `inflight`
those handed to the loader and not yet assigned, `readers` those some thread has found loaded and
is about to fetch (paged_triangle_mesh.hpp 53-54).  `visits` and `events` are histories: the pages
visited (`mark_recent_visit`), and the load messages sent, oldest first.  The static tree that
selects pages is left out: a schedule may touch any page. -/
structure Cache where
  pages : List Page
  lru : List Nat
  loading : List Bool
  max : Nat
  thickness : Int
  room : List Nat
  inflight : List Nat
  readers : List Nat
  visits : List Nat
  events : List Nat
deriving DecidableEq, Repr

/-- The state after `create_paged_triangle_mesh` (include/edyn/shapes/create_paged_triangle_mesh.hpp
256-261) or after reading the header of a file (src/edyn/serialization/paged_triangle_mesh_s11n.cpp
103-108): the LRU list is `iota` and no page is being loaded. -/
def init (pages : List Page) (max : Nat) (thickness : Int) : Cache :=
  { pages, lru := List.range pages.length, loading := List.replicate pages.length false, max,
    thickness, room := [], inflight := [], readers := [], visits := [], events := [] }

/-- The body of the loop of `cache_num_vertices` (src/edyn/shapes/paged_triangle_mesh.cpp 21-27). -/
def addPage (count : Nat) (node : Page) : Nat :=
  match node.mesh with
  | none => count
  | some _ => count + node.verts

/-- `cache_num_vertices` (src/edyn/shapes/paged_triangle_mesh.cpp 18-30). -/
def numVertices (pages : List Page) : Nat := pages.foldl addPage 0

/-- The vertices of page `i`. -/
def vertsOf (pages : List Page) (i : Nat) : Nat := (pages[i]?.map Page.verts).getD 0

/-- Whether page `i` is in memory (`node.trimesh` is not null). -/
def hasMesh (pages : List Page) (i : Nat) : Bool :=
  match pages[i]? with
  | some p => p.mesh.isSome
  | none => false

/-- `node.trimesh = mesh`. -/
def setMesh (pages : List Page) (i : Nat) (m : Option Int) : List Page :=
  pages.modify i (fun p => { p with mesh := m })

/-- `mark_recent_visit` (src/edyn/shapes/paged_triangle_mesh.cpp 60-64): `std::find`, then
`std::rotate(begin, it, it + 1)`, which is undefined when the index is not in the list. -/
def markRecent (lru : List Nat) (i : Nat) : Option (List Nat) :=
  let k := lru.idxOf i
  match lru[k]? with
  | none => none
  | some x => some (x :: (lru.take k ++ lru.drop (k + 1)))

/-- `unload_least_recently_visited_node` (src/edyn/shapes/paged_triangle_mesh.cpp 66-78). -/
def unload (c : Cache) : Cache :=
  match c.lru.reverse.find? (fun j => hasMesh c.pages j) with
  | none => c
  | some j => { c with pages := setMesh c.pages j none, events := c.events ++ [j] }

/-- One atomic action of some thread. -/
inductive Step where
  /-- `load_node_if_needed` up to the eviction loop (paged_triangle_mesh.cpp 33-49). -/
  | enter (i : Nat)
  /-- One iteration of the eviction loop of a thread that is loading page `i`, or, when there is
  room, the request to the loader (paged_triangle_mesh.cpp 53-57). -/
  | makeRoom (i : Nat)
  /-- The loader delivers page `i` (`assign_mesh`, paged_triangle_mesh.cpp 92-100). -/
  | assign (i : Nat)
  /-- A thread finds page `i` in memory (paged_triangle_mesh.hpp 53). -/
  | look (i : Nat)
  /-- The thread then fetches the page again, uses it and marks the visit
  (paged_triangle_mesh.hpp 54-55; collide.hpp 349-352). -/
  | use (i : Nat)
  /-- `clear_cache` (paged_triangle_mesh.cpp 86-90). -/
  | clear
  /-- `set_thickness` (paged_triangle_mesh.cpp 176-184). -/
  | setThickness (t : Int)
deriving DecidableEq, Repr

/-- `load_node_if_needed` up to the eviction loop (src/edyn/shapes/paged_triangle_mesh.cpp 33-49).
The exchange of the flag, the test of the page and the reset of the flag are taken as one step. -/
def enter (c : Cache) (i : Nat) : Option Cache :=
  match c.loading[i]? with
  | none => none
  | some true => some c
  | some false =>
    if hasMesh c.pages i = true then
      some { c with loading := c.loading.set i false }
    else if vertsOf c.pages i < c.max then
      some { c with loading := c.loading.set i true, room := i :: c.room }
    else none

/-- One turn of the eviction loop, or the call to the loader that follows it
(src/edyn/shapes/paged_triangle_mesh.cpp 53-57). -/
def makeRoom (c : Cache) (i : Nat) : Cache :=
  if i ∈ c.room then
    if numVertices c.pages + vertsOf c.pages i > c.max then unload c
    else { c with room := c.room.erase i, inflight := i :: c.inflight }
  else c

/-- `assign_mesh` for a page that was requested (src/edyn/shapes/paged_triangle_mesh.cpp 92-100). -/
def assign (c : Cache) (i : Nat) : Cache :=
  if i ∈ c.inflight then
    { c with pages := setMesh c.pages i (some c.thickness), loading := c.loading.set i false,
             inflight := c.inflight.erase i, events := c.events ++ [i] }
  else c

/-- The callback of `visit_submeshes` (include/edyn/collision/collide.hpp 349-352) followed by
`mark_recent_visit` (include/edyn/shapes/paged_triangle_mesh.hpp 54-55).  Dereferencing a page that
is no longer there is undefined. -/
def use (c : Cache) (i : Nat) : Option Cache :=
  if i ∈ c.readers then
    if hasMesh c.pages i = true then
      match markRecent c.lru i with
      | none => none
      | some l => some { c with lru := l, readers := c.readers.erase i, visits := c.visits ++ [i] }
    else none
  else some c

/-- One step of the interleaving. -/
def step (c : Cache) : Step → Option Cache
  | .enter i => enter c i
  | .makeRoom i => some (makeRoom c i)
  | .assign i => some (assign c i)
  | .look i => some (if hasMesh c.pages i = true then { c with readers := i :: c.readers } else c)
  | .use i => use c i
  | .clear => some { c with pages := c.pages.map (fun p => { p with mesh := none }) }
  | .setThickness t =>
    some { c with pages := c.pages.map (fun p => { p with mesh := p.mesh.map (fun _ => t) }) }

/-- A whole interleaving. -/
def run (c : Cache) : List Step → Option Cache
  | [] => some c
  | s :: l => (step c s).bind (fun c' => run c' l)

/-! ## Specification -/

/-- Page `i` is in memory. -/
def Loaded (c : Cache) (i : Nat) : Prop := ∃ v t, c.pages[i]? = some ⟨v, some t⟩

instance (c : Cache) (i : Nat) : Decidable (Loaded c i) :=
  match h : c.pages[i]? with
  | none => .isFalse (by rintro ⟨v, t, e⟩; rw [h] at e; cases e)
  | some ⟨v, none⟩ => .isFalse (by rintro ⟨v, t, e⟩; rw [h] at e; cases e)
  | some ⟨v, some t⟩ => .isTrue ⟨v, t, h⟩

/-- Page `a` was used more recently than page `b`: there is a visit of `a` after which `b` was not
visited any more; among pages that were never visited the one with the smaller index counts as
more recent. -/
def Fresher (visits : List Nat) (a b : Nat) : Prop :=
  (∃ s t, visits = s ++ a :: t ∧ b ∉ t ∧ a ≠ b) ∨ (a ∉ visits ∧ b ∉ visits ∧ a < b)

/-- The number of vertices in memory. -/
def InMemory (c : Cache) : Nat := ((c.pages.filter (fun p => p.mesh.isSome)).map Page.verts).sum

end Edyn.Mesh.Cache
