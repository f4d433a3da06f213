import Verif.Mesh.TopologyProps
import Verif.StaticTree.Props

/-!
# Splitting a mesh into pages

`create_paged_triangle_mesh` builds a static tree over the triangles of a mesh and turns every leaf
into a page: a triangle mesh with its own vertices and indices.  Positions, normals and the values
given at vertices are of arbitrary types `P`, `N`, `A`: they are only copied.

`none` stands for undefined behaviour or a failed `EDYN_ASSERT`.
-/

namespace Edyn.Mesh.Split

open Topo

variable {P N C A : Type}

/-- The mesh that is split: the arrays given by the user, and the "global" `triangle_mesh` made from
them (include/edyn/shapes/create_paged_triangle_mesh.hpp 224-229).  `colors` may be empty. -/
structure Src (P N C : Type) where
  verts : List P
  tris : List Tri
  colors : List C
  normals : List N
  adj : List (N × N × N)
  topo : Topology
  convex : List Bool

/-- A page: the members of its `triangle_mesh` (include/edyn/shapes/triangle_mesh.hpp 214-262) that
`submesh_builder::build` fills in; `values` are the friction, restitution and material id of each
vertex. -/
structure Page (P N A : Type) where
  verts : List P
  values : List A
  tris : List Tri
  normals : List N
  adj : List (N × N × N)
  topo : Topology
  convex : List Bool

/-- The vertex indices of a triangle. -/
def ends (t : Tri) : List Nat := [t.a, t.b, t.c]

/-- `std::sort`, `std::unique` and `erase` (create_paged_triangle_mesh.hpp 68-71): the ascending list
of the distinct values. -/
def sortUnique (l : List Nat) : List Nat := l.foldr setInsert []

/-- `std::find` and `std::distance` (create_paged_triangle_mesh.hpp 103-106). -/
def localIndex (loc : List Nat) (v : Nat) : Option Nat := loc.findIdx? (fun x => decide (x = v))

/-- The vertex indices of a triangle within the page (create_paged_triangle_mesh.hpp 99-107). -/
def localTri (loc : List Nat) (t : Tri) : Option Tri :=
  (localIndex loc t.a).bind fun a => (localIndex loc t.b).bind fun b => (localIndex loc t.c).map fun c =>
    ⟨a, b, c⟩

/-- The convexity of an edge of the page, looked up in the global mesh
(create_paged_triangle_mesh.hpp 126-167). -/
def findConvex (G : Src P N C) (loc : List Nat) (p : Nat × Nat) : Option Bool :=
  (loc[p.1]?).bind fun g0 => (loc[p.2]?).bind fun g1 =>
  (G.topo.vertexEdges[g0]?).bind fun es =>
  (es.find? (fun e => match G.topo.edgeVerts[e]? with
    | some q => decide (q.1 = g1 ∨ q.2 = g1)
    | none => false)).bind fun e => G.convex[e]?

/-- One page (create_paged_triangle_mesh.hpp 50-173): `ids` are the triangles of the leaf, `value`
turns a colour into friction, restitution and material id (lines 89-92). -/
def page (value : C → A) (G : Src P N C) (ids : List Nat) : Option (Page P N A) :=
  (ids.mapM (fun i => G.tris[i]?)).bind fun tris =>
  let loc := sortUnique (tris.flatMap ends)
  (loc.mapM (fun v => G.verts[v]?)).bind fun verts =>
  (if G.colors.isEmpty = true then some [] else loc.mapM (fun v => (G.colors[v]?).map value)).bind fun values =>
  (tris.mapM (localTri loc)).bind fun ltris =>
  (ids.mapM (fun i => G.normals[i]?)).bind fun normals =>
  (ids.mapM (fun i => G.adj[i]?)).bind fun adj =>
  (initEdges verts.length ltris).bind fun topo =>
  (topo.edgeVerts.mapM (findConvex G loc)).map fun convex =>
    ⟨verts, values, ltris, normals, adj, topo, convex⟩

/-! ## Specification -/

/-- The global mesh has been initialized from vertices and triangles with indices in range. -/
structure Initialized (G : Src P N C) : Prop where
  range : ∀ t ∈ G.tris, t.a < G.verts.length ∧ t.b < G.verts.length ∧ t.c < G.verts.length
  colors : G.colors = [] ∨ G.colors.length = G.verts.length
  normals : G.normals.length = G.tris.length
  adj : G.adj.length = G.tris.length
  topo : initEdges G.verts.length G.tris = some G.topo
  convex : G.convex.length = G.topo.edgeVerts.length

/-! ## Lemmas -/

theorem mapM_spec {α β : Type} {f : α → Option β} {l : List α} {r : List β} (h : l.mapM f = some r) :
    r.length = l.length ∧ ∀ (k : Nat) x, l[k]? = some x → ∃ y, f x = some y ∧ r[k]? = some y := by
  induction l generalizing r with
  | nil => simp at h; subst h; simp
  | cons a l ih =>
    rw [List.mapM_cons] at h
    cases ha : f a with
    | none => rw [ha] at h; simp at h
    | some b =>
      rw [ha] at h
      cases hl : l.mapM f with
      | none => rw [hl] at h; simp at h
      | some r' =>
        rw [hl] at h
        simp at h
        subst h
        obtain ⟨h1, h2⟩ := ih hl
        refine ⟨by simp [h1], ?_⟩
        intro k x hx
        cases k with
        | zero =>
          simp only [List.getElem?_cons_zero, Option.some.injEq] at hx
          subst hx
          exact ⟨b, ha, by simp⟩
        | succ k => simpa using h2 k x (by simpa using hx)

theorem mapM_back {α β : Type} {f : α → Option β} {l : List α} {r : List β} (h : l.mapM f = some r)
    {k : Nat} {y : β} (hy : r[k]? = some y) : ∃ x, l[k]? = some x ∧ f x = some y := by
  obtain ⟨h1, h2⟩ := mapM_spec h
  have hlt := (List.getElem?_eq_some_iff.mp hy).1
  rw [h1] at hlt
  obtain ⟨y', e1, e2⟩ := h2 k _ (List.getElem?_eq_getElem hlt)
  rw [hy] at e2
  simp only [Option.some.injEq] at e2
  subst e2
  exact ⟨_, List.getElem?_eq_getElem hlt, e1⟩

theorem mapM_some {α β : Type} {f : α → Option β} {l : List α} (h : ∀ x ∈ l, ∃ y, f x = some y) :
    ∃ r, l.mapM f = some r := by
  induction l with
  | nil => exact ⟨[], rfl⟩
  | cons a l ih =>
    obtain ⟨b, hb⟩ := h a (by simp)
    obtain ⟨r, hr⟩ := ih (fun x hx => h x (by simp [hx]))
    exact ⟨b :: r, by rw [List.mapM_cons, hb, hr]; rfl⟩

theorem mem_sortUnique (l : List Nat) (x : Nat) : x ∈ sortUnique l ↔ x ∈ l := by
  unfold sortUnique
  induction l with
  | nil => simp
  | cons a l ih => simp [mem_setInsert, ih]

theorem sorted_sortUnique (l : List Nat) : (sortUnique l).Pairwise (· < ·) := by
  unfold sortUnique
  induction l with
  | nil => simp
  | cons a l ih => exact sorted_setInsert _ _ ih

theorem localIndex_some {loc : List Nat} {v i : Nat} (h : localIndex loc v = some i) :
    loc[i]? = some v := by
  unfold localIndex at h
  rw [List.findIdx?_eq_some_iff_getElem] at h
  obtain ⟨h1, h2, _⟩ := h
  rw [List.getElem?_eq_getElem h1]
  simpa using h2

theorem localIndex_mem {loc : List Nat} {v : Nat} (h : v ∈ loc) : ∃ i, localIndex loc v = some i := by
  cases hc : localIndex loc v with
  | none =>
    unfold localIndex at hc
    rw [List.findIdx?_eq_none_iff] at hc
    simpa using hc v h
  | some i => exact ⟨i, rfl⟩

theorem localTri_some {loc : List Nat} {t t' : Tri} (h : localTri loc t = some t') :
    loc[t'.a]? = some t.a ∧ loc[t'.b]? = some t.b ∧ loc[t'.c]? = some t.c := by
  unfold localTri at h
  cases ha : localIndex loc t.a with
  | none => rw [ha] at h; simp at h
  | some a =>
    cases hb : localIndex loc t.b with
    | none => rw [ha, hb] at h; simp at h
    | some b =>
      cases hc : localIndex loc t.c with
      | none => rw [ha, hb, hc] at h; simp at h
      | some c =>
        rw [ha, hb, hc] at h
        simp only [Option.bind_some, Option.map_some, Option.some.injEq] at h
        subst h
        exact ⟨localIndex_some ha, localIndex_some hb, localIndex_some hc⟩

/-- The intermediate values of a call of `page`. -/
theorem page_parts {value : C → A} {G : Src P N C} {ids : List Nat} {Q : Page P N A}
    (h : page value G ids = some Q) : ∃ tris loc,
      ids.mapM (fun i => G.tris[i]?) = some tris ∧ loc = sortUnique (tris.flatMap ends) ∧
      loc.mapM (fun v => G.verts[v]?) = some Q.verts ∧
      (if G.colors.isEmpty = true then some [] else loc.mapM (fun v => (G.colors[v]?).map value))
        = some Q.values ∧
      tris.mapM (localTri loc) = some Q.tris ∧ ids.mapM (fun i => G.normals[i]?) = some Q.normals ∧
      ids.mapM (fun i => G.adj[i]?) = some Q.adj ∧ initEdges Q.verts.length Q.tris = some Q.topo ∧
      Q.topo.edgeVerts.mapM (findConvex G loc) = some Q.convex := by
  unfold page at h
  simp only [Option.bind_eq_some_iff, Option.map_eq_some_iff] at h
  obtain ⟨tris, h1, verts, h2, values, h3, lt, h4, ns, h5, ad, h6, topo, h7, cv, h8, rfl⟩ := h
  exact ⟨tris, _, h1, rfl, h2, h3, h4, h5, h6, h7, h8⟩

/-! ## The theorems -/

/-- **Pages can be made** of any triangles of an initialized mesh. -/
theorem page_succeeds (value : C → A) (G : Src P N C) (hG : Initialized G) (ids : List Nat)
    (hids : ∀ i ∈ ids, i < G.tris.length) : ∃ Q, page value G ids = some Q := by
  obtain ⟨tris, h1⟩ := mapM_some (f := fun i => G.tris[i]?) (l := ids)
    (fun i hi => ⟨_, List.getElem?_eq_getElem (hids i hi)⟩)
  have htris : ∀ t ∈ tris, t ∈ G.tris := by
    intro t ht
    obtain ⟨k, hk⟩ := List.mem_iff_getElem?.mp ht
    obtain ⟨i, -, hi⟩ := mapM_back h1 hk
    exact List.mem_of_getElem? hi
  have hloc : ∀ v ∈ sortUnique (tris.flatMap ends), ∃ t ∈ G.tris, v ∈ ends t := by
    intro v hv
    rw [mem_sortUnique, List.mem_flatMap] at hv
    obtain ⟨t, ht, hv⟩ := hv
    exact ⟨t, htris t ht, hv⟩
  have hlt : ∀ v ∈ sortUnique (tris.flatMap ends), v < G.verts.length := by
    intro v hv
    obtain ⟨t, ht, hv⟩ := hloc v hv
    have := hG.range t ht
    simp only [ends, List.mem_cons, List.not_mem_nil, or_false] at hv
    omega
  obtain ⟨verts, h2⟩ := mapM_some (f := fun v => G.verts[v]?) (l := sortUnique (tris.flatMap ends))
    (fun v hv => ⟨_, List.getElem?_eq_getElem (hlt v hv)⟩)
  obtain ⟨values, h3⟩ : ∃ values, (if G.colors.isEmpty = true then some [] else
      (sortUnique (tris.flatMap ends)).mapM (fun v => (G.colors[v]?).map value)) = some values := by
    by_cases hc : G.colors.isEmpty = true
    · exact ⟨[], by rw [if_pos hc]⟩
    · rw [if_neg hc]
      refine mapM_some ?_
      intro v hv
      have hlen : G.colors.length = G.verts.length := by
        rcases hG.colors with h | h
        · rw [h] at hc; simp at hc
        · exact h
      have : v < G.colors.length := by rw [hlen]; exact hlt v hv
      exact ⟨value G.colors[v], by rw [List.getElem?_eq_getElem this]; rfl⟩
  obtain ⟨lt, h4⟩ := mapM_some (f := localTri (sortUnique (tris.flatMap ends))) (l := tris) (by
    intro t ht
    have hm : ∀ v ∈ ends t, v ∈ sortUnique (tris.flatMap ends) := by
      intro v hv
      rw [mem_sortUnique, List.mem_flatMap]
      exact ⟨t, ht, hv⟩
    obtain ⟨a, ha⟩ := localIndex_mem (hm t.a (by simp [ends]))
    obtain ⟨b, hb⟩ := localIndex_mem (hm t.b (by simp [ends]))
    obtain ⟨c, hc⟩ := localIndex_mem (hm t.c (by simp [ends]))
    exact ⟨⟨a, b, c⟩, by simp [localTri, ha, hb, hc]⟩)
  obtain ⟨ns, h5⟩ := mapM_some (f := fun i => G.normals[i]?) (l := ids)
    (fun i hi => ⟨_, List.getElem?_eq_getElem (by rw [hG.normals]; exact hids i hi)⟩)
  obtain ⟨ad, h6⟩ := mapM_some (f := fun i => G.adj[i]?) (l := ids)
    (fun i hi => ⟨_, List.getElem?_eq_getElem (by rw [hG.adj]; exact hids i hi)⟩)
  have hvl := (mapM_spec h2).1
  have hltri : ∀ t' ∈ lt, ∃ t ∈ tris, (sortUnique (tris.flatMap ends))[t'.a]? = some t.a ∧
      (sortUnique (tris.flatMap ends))[t'.b]? = some t.b ∧
      (sortUnique (tris.flatMap ends))[t'.c]? = some t.c := by
    intro t' ht'
    obtain ⟨k, hk⟩ := List.mem_iff_getElem?.mp ht'
    obtain ⟨t, ht, he⟩ := mapM_back h4 hk
    exact ⟨t, List.mem_of_getElem? ht, localTri_some he⟩
  obtain ⟨topo, h7⟩ := init_succeeds verts.length lt (by
    intro t' ht'
    obtain ⟨t, -, e1, e2, e3⟩ := hltri t' ht'
    rw [hvl]
    exact ⟨(List.getElem?_eq_some_iff.mp e1).1, (List.getElem?_eq_some_iff.mp e2).1,
      (List.getElem?_eq_some_iff.mp e3).1⟩)
  obtain ⟨cv, h8⟩ := mapM_some (f := findConvex G (sortUnique (tris.flatMap ends)))
    (l := topo.edgeVerts) (by
    intro p hp
    obtain ⟨e, he⟩ := List.mem_iff_getElem?.mp hp
    obtain ⟨f, t', ht', hside⟩ := ((edges_unique _ _ _ h7).2.1 p.1 p.2).mp ⟨e, Or.inl he⟩
    obtain ⟨t, ht, e1, e2, e3⟩ := hltri t' (List.mem_of_getElem? ht')
    -- the ends of the edge in the global mesh
    have hg : ∃ g0 g1, (sortUnique (tris.flatMap ends))[p.1]? = some g0 ∧
        (sortUnique (tris.flatMap ends))[p.2]? = some g1 ∧ (Side t (g0, g1) ∨ Side t (g1, g0)) := by
      obtain ⟨p1, p2⟩ := p
      simp only at hside
      rcases hside with (hs | hs | hs) | (hs | hs | hs) <;>
        simp only [Prod.mk.injEq] at hs <;> obtain ⟨rfl, rfl⟩ := hs
      · exact ⟨t.a, t.b, e1, e2, Or.inl (Or.inl rfl)⟩
      · exact ⟨t.b, t.c, e2, e3, Or.inl (Or.inr (Or.inl rfl))⟩
      · exact ⟨t.c, t.a, e3, e1, Or.inl (Or.inr (Or.inr rfl))⟩
      · exact ⟨t.b, t.a, e2, e1, Or.inr (Or.inl rfl)⟩
      · exact ⟨t.c, t.b, e3, e2, Or.inr (Or.inr (Or.inl rfl))⟩
      · exact ⟨t.a, t.c, e1, e3, Or.inr (Or.inr (Or.inr rfl))⟩
    obtain ⟨g0, g1, hg0, hg1, hs⟩ := hg
    obtain ⟨k, hk⟩ := List.mem_iff_getElem?.mp (htris t ht)
    obtain ⟨E, hE⟩ := ((edges_unique _ _ _ hG.topo).2.1 g0 g1).mpr ⟨k, t, hk, hs⟩
    have hv := vertex_edges _ _ _ hG.topo
    have hg0lt : g0 < G.topo.vertexEdges.length := by
      rw [hv.1]; exact hlt g0 (List.mem_of_getElem? hg0)
    obtain ⟨es, hes⟩ : ∃ es, G.topo.vertexEdges[g0]? = some es := ⟨_, List.getElem?_eq_getElem hg0lt⟩
    have hEmem : E ∈ es := ((hv.2 g0 es hes).2 E).mpr ⟨g1, hE⟩
    unfold findConvex
    rw [hg0, hg1]
    simp only [Option.bind_some]
    rw [hes]
    simp only [Option.bind_some]
    cases hf : es.find? (fun e => match G.topo.edgeVerts[e]? with
        | some q => decide (q.1 = g1 ∨ q.2 = g1)
        | none => false) with
    | none =>
      exfalso
      rw [List.find?_eq_none] at hf
      have := hf E hEmem
      rcases hE with hE | hE <;> rw [hE] at this <;> simp at this
    | some e' =>
      have hm := List.mem_of_find?_eq_some hf
      obtain ⟨y, hy⟩ := ((hv.2 g0 es hes).2 e').mp hm
      have : e' < G.convex.length := by
        rw [hG.convex]
        rcases hy with hy | hy <;> exact (List.getElem?_eq_some_iff.mp hy).1
      exact ⟨_, List.getElem?_eq_getElem this⟩)
  refine ⟨⟨verts, values, lt, ns, ad, topo, cv⟩, ?_⟩
  simp only [page, h1, h2, h3, h4, h5, h6, h7, h8, Option.bind_some, Option.map_some]

/-- **A triangle keeps its shape.**  Triangle `k` of the page made of `ids` is triangle `ids[k]` of the
mesh: its vertices have the same positions, in the same order, and the same values, and its normal
and the normals of its neighbours are the same. -/
theorem page_triangle (value : C → A) (G : Src P N C) (ids : List Nat) (Q : Page P N A)
    (h : page value G ids = some Q) (k g : Nat) (t : Tri) (hk : ids[k]? = some g)
    (ht : G.tris[g]? = some t) :
    ∃ t', Q.tris[k]? = some t' ∧
      Q.verts[t'.a]? = G.verts[t.a]? ∧ Q.verts[t'.b]? = G.verts[t.b]? ∧ Q.verts[t'.c]? = G.verts[t.c]? ∧
      t'.a < Q.verts.length ∧ t'.b < Q.verts.length ∧ t'.c < Q.verts.length ∧
      (G.colors ≠ [] → Q.values[t'.a]? = (G.colors[t.a]?).map value ∧
        Q.values[t'.b]? = (G.colors[t.b]?).map value ∧ Q.values[t'.c]? = (G.colors[t.c]?).map value) ∧
      Q.normals[k]? = G.normals[g]? ∧ Q.adj[k]? = G.adj[g]? := by
  obtain ⟨tris, loc, h1, hloc, h2, h3, h4, h5, h6, h7, h8⟩ := page_parts h
  obtain ⟨t0, e0, e1⟩ := (mapM_spec h1).2 k g hk
  rw [ht] at e0
  simp only [Option.some.injEq] at e0
  subst e0
  obtain ⟨t', e2, e3⟩ := (mapM_spec h4).2 k t e1
  obtain ⟨a1, a2, a3⟩ := localTri_some e2
  have hv : ∀ (i v : Nat), loc[i]? = some v → Q.verts[i]? = G.verts[v]? := by
    intro i v hi
    obtain ⟨y, y1, y2⟩ := (mapM_spec h2).2 i v hi
    rw [y1, y2]
  have hl : ∀ (i v : Nat), loc[i]? = some v → i < Q.verts.length := by
    intro i v hi
    rw [(mapM_spec h2).1]; exact (List.getElem?_eq_some_iff.mp hi).1
  refine ⟨t', e3, hv _ _ a1, hv _ _ a2, hv _ _ a3, hl _ _ a1, hl _ _ a2, hl _ _ a3, ?_, ?_, ?_⟩
  · intro hc
    have hc' : ¬ G.colors.isEmpty = true := by simpa using hc
    rw [if_neg hc'] at h3
    have hw : ∀ (i v : Nat), loc[i]? = some v → Q.values[i]? = (G.colors[v]?).map value := by
      intro i v hi
      obtain ⟨y, y1, y2⟩ := (mapM_spec h3).2 i v hi
      rw [y1, y2]
    exact ⟨hw _ _ a1, hw _ _ a2, hw _ _ a3⟩
  · obtain ⟨y, y1, y2⟩ := (mapM_spec h5).2 k g hk
    rw [y1, y2]
  · obtain ⟨y, y1, y2⟩ := (mapM_spec h6).2 k g hk
    rw [y1, y2]

/-- A page has as many triangles as it was given, and its topology is that of these triangles. -/
theorem page_size (value : C → A) (G : Src P N C) (ids : List Nat) (Q : Page P N A)
    (h : page value G ids = some Q) :
    Q.tris.length = ids.length ∧ initEdges Q.verts.length Q.tris = some Q.topo := by
  obtain ⟨tris, loc, h1, hloc, h2, h3, h4, h5, h6, h7, h8⟩ := page_parts h
  exact ⟨by rw [(mapM_spec h4).1, (mapM_spec h1).1], h7⟩

/-- **No vertex is stored twice or for nothing**: the vertices of a page are those of its triangles,
each once (as vertices of the mesh they are in ascending order). -/
theorem page_vertices (value : C → A) (G : Src P N C) (ids : List Nat) (Q : Page P N A)
    (h : page value G ids = some Q) :
    ∃ src : List Nat, src.length = Q.verts.length ∧ src.Pairwise (· < ·) ∧
      (∀ (i v : Nat), src[i]? = some v → Q.verts[i]? = G.verts[v]?) ∧
      ∀ v, v ∈ src ↔ ∃ g t, g ∈ ids ∧ G.tris[g]? = some t ∧ (v = t.a ∨ v = t.b ∨ v = t.c) := by
  obtain ⟨tris, loc, h1, hloc, h2, h3, h4, h5, h6, h7, h8⟩ := page_parts h
  refine ⟨loc, ((mapM_spec h2).1).symm, hloc ▸ sorted_sortUnique _, ?_, ?_⟩
  · intro i v hi
    obtain ⟨y, y1, y2⟩ := (mapM_spec h2).2 i v hi
    rw [y1, y2]
  · intro v
    rw [hloc, mem_sortUnique, List.mem_flatMap]
    constructor
    · rintro ⟨t, ht, hv⟩
      obtain ⟨k, hk⟩ := List.mem_iff_getElem?.mp ht
      obtain ⟨g, hg, he⟩ := mapM_back h1 hk
      exact ⟨g, t, List.mem_of_getElem? hg, he, by simpa [ends] using hv⟩
    · rintro ⟨g, t, hg, ht, hv⟩
      obtain ⟨k, hk⟩ := List.mem_iff_getElem?.mp hg
      obtain ⟨t0, e0, e1⟩ := (mapM_spec h1).2 k g hk
      rw [ht] at e0
      simp only [Option.some.injEq] at e0
      subst e0
      exact ⟨t, List.mem_of_getElem? e1, by simpa [ends] using hv⟩

theorem convex_lookup (G : Src P N C) (hG : Initialized G) (loc : List Nat) (x y u v E : Nat) (b : Bool)
    (hx : loc[x]? = some u) (hy : loc[y]? = some v) (huv : u ≠ v) (hE : Joins G.topo.edgeVerts E u v)
    (hb : findConvex G loc (x, y) = some b) : G.convex[E]? = some b := by
  unfold findConvex at hb
  simp only [hx, hy, Option.bind_some] at hb
  cases hes : G.topo.vertexEdges[u]? with
  | none => rw [hes] at hb; simp at hb
  | some es =>
    rw [hes] at hb
    simp only [Option.bind_some] at hb
    cases hf : es.find? (fun e => match G.topo.edgeVerts[e]? with
        | some q => decide (q.1 = v ∨ q.2 = v)
        | none => false) with
    | none => rw [hf] at hb; simp at hb
    | some e =>
      rw [hf] at hb
      simp only [Option.bind_some] at hb
      have hm := List.mem_of_find?_eq_some hf
      have hp := List.find?_some hf
      obtain ⟨z, hz⟩ := (((vertex_edges _ _ _ hG.topo).2 u es hes).2 e).mp hm
      have hj : Joins G.topo.edgeVerts e u v := by
        rcases hz with hz | hz
        · rw [hz] at hp
          simp only [decide_eq_true_eq] at hp
          rcases hp with rfl | rfl
          · exact absurd rfl huv
          · exact Or.inl hz
        · rw [hz] at hp
          simp only [decide_eq_true_eq] at hp
          rcases hp with rfl | rfl
          · exact Or.inr hz
          · exact absurd rfl huv
      have : E = e := (edges_unique _ _ _ hG.topo).1 E e u v hE hj
      subst this
      exact hb

/-- **Edges keep their convexity**, also at the border between pages: each side of a triangle whose
vertices are distinct is convex in the page exactly if it is in the mesh. -/
theorem page_convex (value : C → A) (G : Src P N C) (hG : Initialized G) (ids : List Nat) (Q : Page P N A)
    (h : page value G ids = some Q) (k g : Nat) (t : Tri) (hk : ids[k]? = some g)
    (ht : G.tris[g]? = some t) (hd : t.a ≠ t.b ∧ t.b ≠ t.c ∧ t.c ≠ t.a) :
    ∃ e0 e1 e2 E0 E1 E2, Q.topo.faceEdges[k]? = some (e0, e1, e2) ∧
      G.topo.faceEdges[g]? = some (E0, E1, E2) ∧ (G.convex[E0]?).isSome = true ∧
      Q.convex[e0]? = G.convex[E0]? ∧ Q.convex[e1]? = G.convex[E1]? ∧ Q.convex[e2]? = G.convex[E2]? := by
  obtain ⟨tris, loc, h1, hloc, h2, h3, h4, h5, h6, h7, h8⟩ := page_parts h
  obtain ⟨t0, q0, q1⟩ := (mapM_spec h1).2 k g hk
  rw [ht] at q0
  simp only [Option.some.injEq] at q0
  subst q0
  obtain ⟨t', q2, q3⟩ := (mapM_spec h4).2 k t q1
  obtain ⟨a1, a2, a3⟩ := localTri_some q2
  obtain ⟨e0, e1, e2, f1, j0, j1, j2⟩ := face_edges _ _ _ h7 k t' q3
  obtain ⟨E0, E1, E2, F1, J0, J1, J2⟩ := face_edges _ _ _ hG.topo g t ht
  have key : ∀ (x y u v e E : Nat), loc[x]? = some u → loc[y]? = some v → u ≠ v →
      Joins Q.topo.edgeVerts e x y → Joins G.topo.edgeVerts E u v → ∃ b, Q.convex[e]? = some b ∧
        G.convex[E]? = some b := by
    intro x y u v e E hx hy huv hj hJ
    rcases hj with hj | hj
    · obtain ⟨b, b1, b2⟩ := (mapM_spec h8).2 e _ hj
      exact ⟨b, b2, convex_lookup G hG loc x y u v E b hx hy huv hJ b1⟩
    · obtain ⟨b, b1, b2⟩ := (mapM_spec h8).2 e _ hj
      exact ⟨b, b2, convex_lookup G hG loc y x v u E b hy hx (fun h => huv h.symm)
        (by rcases hJ with h | h; exacts [Or.inr h, Or.inl h]) b1⟩
  obtain ⟨b0, c0, d0⟩ := key _ _ _ _ _ _ a1 a2 hd.1 j0 J0
  obtain ⟨b1, c1, d1⟩ := key _ _ _ _ _ _ a2 a3 hd.2.1 j1 J1
  obtain ⟨b2, c2, d2⟩ := key _ _ _ _ _ _ a3 a1 hd.2.2 j2 J2
  exact ⟨e0, e1, e2, E0, E1, E2, f1, F1, by rw [d0]; rfl, by rw [c0, d0], by rw [c1, d1], by rw [c2, d2]⟩

end Edyn.Mesh.Split
