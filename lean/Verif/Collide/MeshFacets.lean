import Verif.Collide.SphereMesh
import Verif.Mesh.Convex

/-!
# The triangles of a mesh and contact points of spheres with meshes (C88)

`triangle_mesh::initialize` fills in the arrays which `collide` reads; the models of `init_edge_indices` and
`calculate_adjacent_normals` are those of C44 and C65.
-/

namespace Edyn.Collide

open Edyn.Math hiding lengthSqr_nonneg
open V3 Edyn.Geom Edyn.Contact Edyn.Mesh.Topo Edyn.Mesh.Convex

/-! ## Model -/

/-- `normalize`, `include/edyn/math/vector3.hpp` 231-235, without the assertion: it is only used here for vectors
which are longer than `1e-18`, see `face_cross` and `tilted_length`. -/
noncomputable def unit3 (v : V3 ℝ) : V3 ℝ := smul (1 / Real.sqrt (lengthSqr v)) v

/-- `triangle_mesh::calculate_face_normals`, `src/edyn/shapes/triangle_mesh.cpp` 17-26; `none` is an index out of
range. -/
noncomputable def faceNormals (verts : List (V3 ℝ)) (ts : List Mesh.Topo.Tri) : Option (List (V3 ℝ)) :=
  ts.mapM fun t => (verts[t.a]?).bind fun p0 => (verts[t.b]?).bind fun p1 => (verts[t.c]?).map fun p2 =>
    unit3 (cross (p1 - p0) (p2 - p1))

/-- What is stored for triangle `f`: `get_triangle_vertices`, `triangle_mesh.cpp` 146-154, `get_triangle_normal`,
`get_adjacent_face_normal`, `get_face_edge_index` and `get_face_vertex_index`, `triangle_mesh.hpp` 89-92 and
154-170. -/
def facetAt (verts ns : List (V3 ℝ)) (adj : List (V3 ℝ × V3 ℝ × V3 ℝ)) (topo : Topology) (ts : List Mesh.Topo.Tri)
    (f : ℕ) : Option Facet :=
  (ts[f]?).bind fun t => (verts[t.a]?).bind fun p0 => (verts[t.b]?).bind fun p1 => (verts[t.c]?).bind fun p2 =>
  (ns[f]?).bind fun n => (adj[f]?).bind fun a => (topo.faceEdges[f]?).map fun e =>
    ⟨![p0, p1, p2], n, ![a.1, a.2.1, a.2.2], f, ![e.1, e.2.1, e.2.2], ![t.a, t.b, t.c]⟩

/-- `triangle_mesh::initialize`, `triangle_mesh.cpp` 9-15, without the tree, which is `triTree` of the triangles. -/
noncomputable def meshFacets (eps : ℝ) (verts : List (V3 ℝ)) (ts : List Mesh.Topo.Tri) : Option (List Facet) :=
  (faceNormals verts ts).bind fun ns => (initEdges verts.length ts).bind fun topo =>
  (adjacentNormals unit3 eps verts ns topo ts).bind fun a =>
    (List.range ts.length).mapM (facetAt verts ns a.1 topo ts)

/-! ## Specification -/

/-- A mesh of which no triangle is degenerate: the indices are in range, no edge is shorter than the square root of
`eps`, and no triangle has twice an area below `3 * eps`. -/
structure Solid (eps : ℝ) (verts : List (V3 ℝ)) (ts : List Mesh.Topo.Tri) : Prop where
  range : ∀ t ∈ ts, t.a < verts.length ∧ t.b < verts.length ∧ t.c < verts.length
  edges : ∀ t ∈ ts, ∀ i j, Side t (i, j) → ∀ p q, verts[i]? = some p → verts[j]? = some q → eps < lengthSqr (q - p)
  area : ∀ t ∈ ts, ∀ p q r, verts[t.a]? = some p → verts[t.b]? = some q → verts[t.c]? = some r →
    9 * (eps * eps) ≤ lengthSqr (cross (q - p) (r - p))

/-- The facet belongs to triangle `f`. -/
structure Facet.Is (verts : List (V3 ℝ)) (ts : List Mesh.Topo.Tri) (f : ℕ) (T : Facet) : Prop where
  tri : ∃ t, ts[f]? = some t ∧ T.vert 0 = t.a ∧ T.vert 1 = t.b ∧ T.vert 2 = t.c
  pos : ∀ i, verts[T.vert i]? = some (T.v i)
  id : T.id = f

/-! ## Lemmas -/

theorem unit3_unit {v : V3 ℝ} (h : 0 < lengthSqr v) : lengthSqr (unit3 v) = 1 := by
  have hs := Real.mul_self_sqrt h.le
  have hp := Real.sqrt_pos.2 h
  have : lengthSqr (unit3 v) = 1 / Real.sqrt (lengthSqr v) * (1 / Real.sqrt (lengthSqr v)) * lengthSqr v := by
    simp [unit3, lengthSqr, dot]; ring
  rw [this, ← hs]
  field_simp
  rw [Real.sqrt_sq hp.le]

theorem mapM_some {α β : Type} {g : α → Option β} (l : List α) (h : ∀ a ∈ l, ∃ b, g a = some b) :
    ∃ r, l.mapM g = some r ∧ r.length = l.length ∧ ∀ (i : ℕ) a, l[i]? = some a → ∃ b, g a = some b ∧ r[i]? = some b := by
  induction l with
  | nil => exact ⟨[], rfl, rfl, by simp⟩
  | cons a l ih =>
    obtain ⟨r, h1, h2, h3⟩ := ih fun b hb => h b (List.mem_cons_of_mem _ hb)
    obtain ⟨b, hb⟩ := h a List.mem_cons_self
    refine ⟨b :: r, by simp [List.mapM_cons, hb, h1], by simp [h2], ?_⟩
    rintro (_ | i) x hx
    · simp only [List.getElem?_cons_zero, Option.some.injEq] at hx
      subst hx
      exact ⟨b, hb, by simp⟩
    · obtain ⟨y, y1, y2⟩ := h3 i x (by simpa using hx)
      exact ⟨y, y1, by simpa using y2⟩

/-- The cross product of consecutive edges is that of the edges from the first vertex. -/
theorem face_cross (p q r : V3 ℝ) : cross (q - p) (r - q) = cross (q - p) (r - p) := by
  ext <;> simp [cross] <;> ring

/-- The vector which is normalized at a boundary edge is not shorter than the normal. -/
theorem tilted_length {n : V3 ℝ} (hn : lengthSqr n = 1) (e : V3 ℝ) : 1 ≤ lengthSqr (n + smul (1 / 10) (cross n e)) := by
  have : lengthSqr (n + smul (1 / 10) (cross n e)) = lengthSqr n + 1 / 100 * lengthSqr (cross n e) := by
    simp [lengthSqr, dot, cross]; ring
  rw [this, hn]
  have : 0 ≤ lengthSqr (cross n e) := lengthSqr_nonneg _
  linarith

theorem beyond_unit {eps : ℝ} {verts ns : List (V3 ℝ)} {topo : Topology} {f e v0 v1 : ℕ} {n : V3 ℝ} {b : Bool}
    (h : Beyond unit3 eps verts ns topo f e v0 v1 n b) (hu : ∀ m ∈ ns, lengthSqr m = 1) : lengthSqr n = 1 := by
  obtain ⟨q, p0, p1, nf, -, -, -, hf, hc⟩ := h
  rcases hc with ⟨-, hn, -⟩ | ⟨-, hn, -⟩
  · rw [hn]
    refine neg_unit (unit3_unit ?_)
    have := tilted_length (hu _ (List.mem_of_getElem? hf)) (p1 - p0)
    linarith
  · exact hu _ (List.mem_of_getElem? hn)

/-! ## The theorems -/

/-- **C88, the triangles of a mesh.** A mesh without degenerate triangles is initialized; every triangle is recorded
with its vertices and its unit normal, and the normals recorded for the faces next to it are unit vectors.  If
exactly two triangles share a side, each records the normal of the other one. -/
theorem mesh_facets {eps : ℝ} (he : 0 < eps) {verts : List (V3 ℝ)} {ts : List Mesh.Topo.Tri} (hs : Solid eps verts ts) :
    ∃ F, meshFacets eps verts ts = some F ∧ F.length = ts.length ∧
      (∀ (f : ℕ) T, F[f]? = some T → T.Ok eps ∧ T.Is verts ts f) ∧
      ∀ (f g : ℕ) T U, F[f]? = some T → F[g]? = some U → g ≠ f → ∀ i : Fin 3,
        (∀ k, Uses ts k (T.vert i, T.vert (i + 1)) ↔ k = f ∨ k = g) → T.adj i = U.n := by
  obtain ⟨ns, n1, n2, n3⟩ := mapM_some (g := fun t : Mesh.Topo.Tri => (verts[t.a]?).bind fun p0 =>
    (verts[t.b]?).bind fun p1 => (verts[t.c]?).map fun p2 => unit3 (cross (p1 - p0) (p2 - p1))) ts (by
      intro t ht
      obtain ⟨a, b, c⟩ := hs.range t ht
      simp [List.getElem?_eq_getElem a, List.getElem?_eq_getElem b, List.getElem?_eq_getElem c])
  obtain ⟨topo, ht⟩ := init_succeeds verts.length ts hs.range
  obtain ⟨adj, flags, a1, a2, -⟩ := succeeds unit3 eps verts ns ts topo ht hs.range n2
  have normalOf : ∀ (f : ℕ) t, ts[f]? = some t → ∃ p0 p1 p2 n, verts[t.a]? = some p0 ∧ verts[t.b]? = some p1 ∧
      verts[t.c]? = some p2 ∧ ns[f]? = some n ∧ lengthSqr n = 1 ∧
      ∃ k, 0 < k ∧ cross (p1 - p0) (p2 - p0) = smul k n := by
    intro f t hf
    have hm := List.mem_of_getElem? hf
    obtain ⟨ra, rb, rc⟩ := hs.range t hm
    have ea := List.getElem?_eq_getElem ra
    have eb := List.getElem?_eq_getElem rb
    have ec := List.getElem?_eq_getElem rc
    obtain ⟨b, h1, h2⟩ := n3 f t hf
    rw [ea, eb, ec] at h1
    simp only [Option.bind_some, Option.map_some, Option.some.injEq] at h1
    have har := hs.area t hm _ _ _ ea eb ec
    have hpos : 0 < lengthSqr (cross (verts[t.b] - verts[t.a]) (verts[t.c] - verts[t.a])) :=
      lt_of_lt_of_le (by positivity) har
    rw [face_cross] at h1
    refine ⟨_, _, _, b, ea, eb, ec, h2, by rw [← h1]; exact unit3_unit hpos,
      Real.sqrt (lengthSqr (cross (verts[t.b] - verts[t.a]) (verts[t.c] - verts[t.a]))), Real.sqrt_pos.2 hpos, ?_⟩
    rw [← h1]
    have := Real.sqrt_pos.2 hpos
    unfold unit3
    ext <;> simp only [smul_x, smul_y, smul_z] <;> field_simp
  have hunit : ∀ m ∈ ns, lengthSqr m = 1 := by
    intro m hm
    obtain ⟨f, hf⟩ := List.mem_iff_getElem?.1 hm
    have hlt : f < ts.length := by rw [← n2]; exact (List.getElem?_eq_some_iff.1 hf).1
    obtain ⟨-, -, -, n, -, -, -, h, hu, -⟩ := normalOf f _ (List.getElem?_eq_getElem hlt)
    rw [hf] at h
    rw [Option.some.inj h]; exact hu
  have facet : ∀ f, f < ts.length → ∃ T, facetAt verts ns adj topo ts f = some T ∧ T.Ok eps ∧ T.Is verts ts f ∧
      ns[f]? = some T.n ∧ ∃ n0 n1 n2, adj[f]? = some (n0, n1, n2) ∧ T.adj = ![n0, n1, n2] := by
    intro f hlt
    have hf := List.getElem?_eq_getElem hlt
    set t := ts[f] with htt
    have hm := List.mem_of_getElem? hf
    obtain ⟨p0, p1, p2, n, v0, v1, v2, hn, hu, k, hk, hc⟩ := normalOf f _ hf
    obtain ⟨-, -, hl, -⟩ := loop_spec ts ts 0 _ _ (by simp) a1
    obtain ⟨e0, e1, e2, b0, b1, b2, m0, m1, m2, hes, ha, c0, c1, c2⟩ := hl f _ hf
    rw [Nat.zero_add] at hes c0 c1 c2
    have ha' : adj[f]? = some (m0, m1, m2) := ha
    refine ⟨⟨![p0, p1, p2], n, ![m0, m1, m2], f, ![e0, e1, e2], ![t.a, t.b, t.c]⟩, ?_, ?_, ?_, hn, m0, m1, m2, ha', rfl⟩
    · simp [facetAt, hf, v0, v1, v2, hn, ha', hes]
    · refine ⟨⟨hu, k, hk, hc⟩, ?_, hs.area t hm _ _ _ v0 v1 v2, ?_⟩
      · rw [all3]
        refine ⟨hs.edges t hm _ _ (.inl rfl) _ _ v0 v1, hs.edges t hm _ _ (.inr (.inl rfl)) _ _ v1 v2,
          hs.edges t hm _ _ (.inr (.inr rfl)) _ _ v2 v0⟩
      · rw [all3]
        exact ⟨beyond_unit c0 hunit, beyond_unit c1 hunit, beyond_unit c2 hunit⟩
    · refine ⟨⟨t, hf, rfl, rfl, rfl⟩, ?_, rfl⟩
      rw [all3]
      exact ⟨v0, v1, v2⟩
  obtain ⟨F, f1, f2, f3⟩ := mapM_some (g := facetAt verts ns adj topo ts) (List.range ts.length) (by
    intro f hf
    obtain ⟨T, h, -⟩ := facet f (List.mem_range.1 hf)
    exact ⟨T, h⟩)
  rw [List.length_range] at f2
  have get : ∀ (f : ℕ) T, F[f]? = some T → T.Ok eps ∧ T.Is verts ts f ∧
      ns[f]? = some T.n ∧ ∃ n0 n1 n2, adj[f]? = some (n0, n1, n2) ∧ T.adj = ![n0, n1, n2] := by
    intro f T hT
    have hlt : f < ts.length := by rw [← f2]; exact (List.getElem?_eq_some_iff.1 hT).1
    obtain ⟨U, u1, u2⟩ := facet f hlt
    obtain ⟨V, w1, w2⟩ := f3 f f (by simp [hlt])
    rw [u1] at w1
    rw [hT] at w2
    rw [Option.some.inj w2, ← Option.some.inj w1]
    exact u2
  refine ⟨F, ?_, f2, fun f T hT => ⟨(get f T hT).1, (get f T hT).2.1⟩, ?_⟩
  · unfold meshFacets faceNormals
    rw [n1, Option.bind_some, ht, Option.bind_some, a1, Option.bind_some]
    exact f1
  · intro f g T U hT hU hfg i hu
    obtain ⟨-, ⟨⟨t, t1, t2, t3, t4⟩, -, -⟩, -, n0, m1, m2, k1, k2⟩ := get f T hT
    obtain ⟨-, -, hn, -⟩ := get g U hU
    obtain ⟨x0, x1, x2, y1, y2, y3, y4⟩ := neighbour_normal unit3 eps verts ns ts topo ht a1 f g t t1 hfg
    rw [k1] at y1
    simp only [Option.some.injEq, Prod.mk.injEq] at y1
    obtain ⟨rfl, rfl, rfl⟩ := y1
    rw [k2]
    fin_cases i
    · have := y2 (by rw [← t2, ← t3]; exact hu)
      rw [hn] at this
      exact (Option.some.inj this).symm
    · have := y3 (by rw [← t3, ← t4]; exact hu)
      rw [hn] at this
      exact (Option.some.inj this).symm
    · have := y4 (by rw [← t4, ← t2]; exact hu)
      rw [hn] at this
      exact (Option.some.inj this).symm

/-! ## Spheres and meshes -/

/-- The triangles with their normals, as the tree of the mesh is built from them. -/
def triList (F : List Facet) : List (Edyn.Geom.Tri × V3 ℝ) := F.map fun T => (T.tri, T.n)

section
variable {K : Consts ℝ} {eps tiny tol brk thick r : ℝ} {F : List Facet} {c : Ctx} {env : StaticTree.Env ℝ}
  {st : StaticTree.St ℝ}

/-- The lower corner of the bounding box of a sphere, `sphere_aabb`, `src/edyn/util/aabb_util.cpp` 65-70. -/
def sphereLo (r : ℝ) (p : V3 ℝ) : V3 ℝ := ⟨p.x - r, p.y - r, p.z - r⟩

/-- The upper corner of the bounding box of a sphere, `src/edyn/util/aabb_util.cpp` 65-70. -/
def sphereHi (r : ℝ) (p : V3 ℝ) : V3 ℝ := ⟨p.x + r, p.y + r, p.z + r⟩

/-- The triangles which are visited: all that exist, and every one which has a point in the box. -/
theorem facets_visited (hok : env.Ok) (hid : StaticTree.IdIsItem env) (ht : triTree env (triList F) = some st)
    (q : Box ℝ) :
    ∃ out, StaticTree.queryIds st.nodes (fun b => b.intersect q) = some out ∧
      ∀ i, i ∈ out ↔ ∃ T, F[i]? = some T ∧ (triBox T.tri).intersect q = true := by
  have hne : ((triList F).map fun tn => triBox tn.1) ≠ [] := by
    intro h0
    unfold triTree at ht
    rw [h0] at ht
    simp [StaticTree.build] at ht
  obtain ⟨st', out, h1, h2, -, h4⟩ := StaticTree.query_single_exact hok hid hne
    (test := fun b => b.intersect q) (StaticTree.overlap_monotone q)
  unfold triTree at ht
  rw [ht] at h1
  obtain rfl := Option.some.inj h1
  refine ⟨out, h2, fun i => (h4 i).trans ?_⟩
  constructor
  · rintro ⟨b, hb, hq⟩
    simp only [triList, List.map_map, List.getElem?_map, Option.map_eq_some_iff] at hb
    obtain ⟨T, hT, rfl⟩ := hb
    exact ⟨T, hT, hq⟩
  · rintro ⟨T, hT, hq⟩
    exact ⟨_, by simp [triList, hT], hq⟩

/-- A point of the triangle that is not farther from the centre than the radius and the breaking threshold makes the
boxes overlap. -/
theorem visited_near {T : Facet} {p x : V3 ℝ} (hx : T.tri.Has x) (hr : 0 ≤ r + brk)
    (hd : lengthSqr (p - x) ≤ (r + brk) * (r + brk)) :
    (triBox T.tri).intersect (grown brk (sphereLo r p) (sphereHi r p)) = true := by
  have hb := triBox_has _ _ hx
  have sq : lengthSqr (p - x) = (p.x - x.x) * (p.x - x.x) + (p.y - x.y) * (p.y - x.y) + (p.z - x.z) * (p.z - x.z) := by
    simp [lengthSqr, dot]
  rw [sq] at hd
  have bx : |p.x - x.x| ≤ r + brk := abs_le_of_sq_le_sq (by nlinarith [mul_self_nonneg (p.y - x.y), mul_self_nonneg (p.z - x.z)]) hr
  have bY : |p.y - x.y| ≤ r + brk := abs_le_of_sq_le_sq (by nlinarith [mul_self_nonneg (p.x - x.x), mul_self_nonneg (p.z - x.z)]) hr
  have bz : |p.z - x.z| ≤ r + brk := abs_le_of_sq_le_sq (by nlinarith [mul_self_nonneg (p.x - x.x), mul_self_nonneg (p.y - x.y)]) hr
  rw [abs_le] at bx bY bz
  obtain ⟨⟨l1, u1⟩, ⟨l2, u2⟩, l3, u3⟩ := hb
  simp only [toAabb] at l1 u1 l2 u2 l3 u3
  simp only [Box.intersect, grown, sphereLo, sphereHi, decide_eq_true_eq, Bool.and_eq_true]
  and_intros <;> (first | exact decide_eq_true (by linarith) | linarith)

/-- The loop over the visited triangles. -/
theorem sphere_fold (he : 0 < eps) (htn : 0 ≤ tiny) (htl : 0 < tol) (hr : 0 < r) (hT : ∀ T ∈ F, T.Ok eps)
    (hc : c.Fixed) (ids : List ℕ) (hids : ∀ i ∈ ids, i < F.length) (l : List Point) (hl : l.length ≤ 4)
    (hg : ∀ p ∈ l, ∃ T ∈ F, FromTri eps tol thick r T c p) :
    ∃ l', ids.foldlM (fun l i => (F[i]?).bind fun T => (sphereTriangle eps tiny tol thick r T c).map fun
        | some p => maybeAdd K l p
        | none => l) l = some l' ∧ l'.length ≤ 4 ∧ (∀ p ∈ l', ∃ T ∈ F, FromTri eps tol thick r T c p) ∧
      (l' ≠ [] ↔ l ≠ [] ∨ ∃ i ∈ ids, ∃ T, F[i]? = some T ∧ sphereTriangle eps tiny tol thick r T c ≠ some none) := by
  induction ids generalizing l with
  | nil => exact ⟨l, rfl, hl, hg, by simp⟩
  | cons i ids ih =>
    have hlt := hids i List.mem_cons_self
    have hi := List.getElem?_eq_getElem hlt
    have hm := List.getElem_mem hlt
    obtain ⟨o, e1, e2⟩ := sphere_triangle_sound (thick := thick) he htn htl hr (hT _ hm) hc
    have rest := fun j hj => hids j (List.mem_cons_of_mem i hj)
    cases o with
    | none =>
      obtain ⟨l', a1, a2, a3, a4⟩ := ih rest l hl hg
      refine ⟨l', ?_, a2, a3, a4.trans ?_⟩
      · simp only [List.foldlM_cons, hi, Option.bind_some, e1, Option.map_some]
        exact a1
      · refine or_congr_right ⟨?_, ?_⟩
        · rintro ⟨j, hj, h⟩
          exact ⟨j, List.mem_cons_of_mem _ hj, h⟩
        · rintro ⟨j, hj, T, hj2, h⟩
          rcases List.mem_cons.1 hj with rfl | hj
          · rw [hi] at hj2
            rw [← Option.some.inj hj2, e1] at h
            exact absurd rfl h
          · exact ⟨j, hj, T, hj2, h⟩
    | some p =>
      obtain ⟨m1, m2, m3⟩ := maybeAdd_spec K (fun p => ∃ T ∈ F, FromTri eps tol thick r T c p) l p hl hg
        ⟨_, hm, e2 p rfl⟩
      obtain ⟨l', a1, a2, a3, a4⟩ := ih rest (maybeAdd K l p) m1 m2
      refine ⟨l', ?_, a2, a3, ?_⟩
      · simp only [List.foldlM_cons, hi, Option.bind_some, e1, Option.map_some]
        exact a1
      · exact iff_of_true (a4.2 (.inl m3)) (.inr ⟨i, List.mem_cons_self, _, hi, by rw [e1]; simp⟩)

/-- **C88, spheres and meshes: what holds for every contact point.** The result is defined, has at most four points,
and every one of them is the contact of the sphere with one triangle of the mesh.  It has a point exactly when one of
the triangles in the box gives one. -/
theorem sphere_mesh_points (he : 0 < eps) (htn : 0 ≤ tiny) (htl : 0 < tol) (hr : 0 < r) (hok : env.Ok)
    (hid : StaticTree.IdIsItem env) (hT : ∀ T ∈ F, T.Ok eps) (ht : triTree env (triList F) = some st) (hc : c.Fixed)
    (lo hi : V3 ℝ) :
    ∃ l, sphereMesh K eps tiny tol brk thick r st.nodes F lo hi c = some l ∧ l.length ≤ 4 ∧
      (∀ p ∈ l, ∃ T ∈ F, FromTri eps tol thick r T c p) ∧
      (l ≠ [] ↔ ∃ T ∈ F, (triBox T.tri).intersect (grown brk lo hi) = true ∧
        sphereTriangle eps tiny tol thick r T c ≠ some none) := by
  obtain ⟨out, h1, h2⟩ := facets_visited hok hid ht (grown brk lo hi)
  obtain ⟨l, a1, a2, a3, a4⟩ := sphere_fold (K := K) (thick := thick) he htn htl hr hT hc out (fun i hi => by
    obtain ⟨T, hT, -⟩ := (h2 i).1 hi
    exact (List.getElem?_eq_some_iff.1 hT).1) [] (by simp) (by simp)
  refine ⟨l, ?_, a2, a3, a4.trans ?_⟩
  · unfold sphereMesh
    rw [h1, Option.bind_some]
    exact a1
  · constructor
    · rintro (h | ⟨i, hi, T, hT, h⟩)
      · exact absurd rfl h
      · obtain ⟨U, u1, u2⟩ := (h2 i).1 hi
        rw [hT] at u1
        obtain rfl := Option.some.inj u1
        exact ⟨T, List.mem_of_getElem? hT, u2, h⟩
    · rintro ⟨T, hm, h, h'⟩
      obtain ⟨i, hi⟩ := List.mem_iff_getElem?.1 hm
      exact .inr ⟨i, (h2 i).2 ⟨T, hi, h⟩, T, hi, h'⟩

/-- **C88, spheres touching a mesh, partial.** A sphere within the threshold of a triangle, at which it is in the
position described in `sphere_triangle_partial`, gets a contact point with the mesh.  Missing: spheres which are only in
the other positions; such a sphere can fall through, `sphere_mesh_missed`. -/
theorem sphere_mesh_touch_partial (he : 0 < eps) (htn : 0 ≤ tiny) (htl : 0 < tol) (hr : 0 < r) (hok : env.Ok)
    (hid : StaticTree.IdIsItem env) (hT : ∀ T ∈ F, T.Ok eps) (ht : triTree env (triList F) = some st) (hc : c.Fixed)
    (hb : c.thr ≤ brk) {T : Facet} (hm : T ∈ F) {w : Fin 3 → ℝ} (h : T.Nearest c.posA w)
    (hp : tiny < lengthSqr (c.posA - T.at w)) (hside : (∃ i, w i = 0) ∨ 0 ≤ dot (c.posA - T.v 0) T.n)
    (hclear : T.Clear tol c.posA w) (hface : T.Facing c.posA w)
    (hnear : Real.sqrt (lengthSqr (c.posA - T.at w)) ≤ r + c.thr)
    (hthick : r - thick ≤ Real.sqrt (lengthSqr (c.posA - T.at w))) :
    ∃ l, sphereMesh K eps tiny tol brk thick r st.nodes F (sphereLo r c.posA) (sphereHi r c.posA) c = some l ∧ l ≠ [] := by
  obtain ⟨l, a1, -, -, a4⟩ := sphere_mesh_points (K := K) (brk := brk) (thick := thick) he htn htl hr hok hid hT ht hc
    (sphereLo r c.posA) (sphereHi r c.posA)
  refine ⟨l, a1, a4.2 ?_⟩
  have h0 := Real.sqrt_nonneg (lengthSqr (c.posA - T.at w))
  have hs := Real.mul_self_sqrt (lengthSqr_nonneg (c.posA - T.at w))
  have hv := visited_near (T := T) (r := r) (brk := brk) h.has (p := c.posA) (by linarith) (by
    rw [← hs]; exact mul_self_le_mul_self h0 (by linarith))
  refine ⟨T, hm, hv, ?_⟩
  obtain ⟨o, o1, o2, -⟩ := sphere_triangle_partial (thick := thick) he htn htl hr (hT _ hm) hc h hp hside hclear hface
  rw [o1]
  intro hn
  exact o2.2 ⟨by linarith, by linarith⟩ (Option.some.inj hn)

/-- **C88, spheres far from a mesh, partial.** A sphere farther than the threshold from every triangle, which is in front
of the triangles or beyond an edge of them, gets no contact point.  Missing: spheres below the inside of a triangle,
which can get one, `sphere_mesh_ghost`. -/
theorem sphere_mesh_far_partial (he : 0 < eps) (htn : 0 ≤ tiny) (htl : 0 < tol) (hr : 0 < r) (hok : env.Ok)
    (hid : StaticTree.IdIsItem env) (hT : ∀ T ∈ F, T.Ok eps) (ht : triTree env (triList F) = some st) (hc : c.Fixed)
    (lo hi : V3 ℝ) (hfar : ∀ T ∈ F, ∃ w, T.Nearest c.posA w ∧ tiny < lengthSqr (c.posA - T.at w) ∧
      ((∃ i, w i = 0) ∨ 0 ≤ dot (c.posA - T.v 0) T.n) ∧ r + c.thr < Real.sqrt (lengthSqr (c.posA - T.at w))) :
    sphereMesh K eps tiny tol brk thick r st.nodes F lo hi c = some [] := by
  obtain ⟨l, a1, -, -, a4⟩ := sphere_mesh_points (K := K) (brk := brk) (thick := thick) he htn htl hr hok hid hT ht hc lo hi
  have : l = [] := by
    by_contra hne
    obtain ⟨T, hm, -, h⟩ := a4.1 hne
    obtain ⟨w, w1, w2, w3, w4⟩ := hfar T hm
    exact h (sphere_triangle_far he.le htn (hT _ hm) w1 w2 w3 w4)
  rw [a1, this]

end

end Edyn.Collide
