import Verif.Collide.PolyMain

/-!
# Contacts between two polyhedra: the meshes (C94)

What `convex_mesh::initialize` makes of the vertices and faces of a convex polyhedron is a mesh as the theorems on
contacts require it.
-/

namespace Edyn.Collide

open Edyn.Math hiding lengthSqr_nonneg
open V3 Edyn.Geom Edyn.Geom.Poly Edyn.Contact

/-- The positions of the vertices of a face. -/
noncomputable def corners (vs : List (V3 ℝ)) (f : List ℕ) : List (V3 ℝ) := f.map fun i => vs.getD i 0

/-- `convex_mesh::update_calculated_properties`, `src/edyn/shapes/convex_mesh.cpp` 16-22, in terms of the parts modelled
in `Verif/Geom`: `calculate_normals` 85-120, `calculate_edges` 122-172 (with the vertices and normals of the edges,
153 and 164-168), `calculate_neighbors` 174-193, `calculate_relevant_faces` 195-209.  `none`: an index is out of range, an
edge has more than two faces or a normal is not found. -/
noncomputable def meshOf (eps tol : ℝ) (vs : List (V3 ℝ)) (faces : List (List ℕ)) : Option PMesh :=
  (faces.mapM fun f => faceNormal eps (corners vs f)).bind fun ns =>
  (calcEdges faces).bind fun es =>
  (es.mapM fun e => (vs[e.v0]?).bind fun v0 => (vs[e.v1]?).bind fun v1 => (ns[e.f0]?).bind fun n0 =>
    (match e.f1 with | some g => ns[g]? | none => some 0).map fun n1 => PEdge.mk v0 v1 n0 n1).bind fun pes =>
  ((relevant (similarNormals tol fun i => ns.getD i 0) faces.length).mapM fun i =>
    (ns[i]?).bind fun n => (faces[i]?).bind fun f => (f[0]?).bind fun j => (vs[j]?).map fun v => (n, v)).map fun rel =>
  let nb := calcNeighbors vs.length (es.map fun e => (e.v0, e.v1))
  ⟨vs, rel, pes, nb.1, nb.2⟩

/-- A convex polyhedron with the origin inside, given by vertices and faces: every face is a convex polygon around its
outward normal, with some area at each side; every side belongs to two faces; from every vertex the edges lead around the
polyhedron. -/
structure ConvexBody (eps : ℝ) (vs : List (V3 ℝ)) (faces : List (List ℕ)) (normal : ℕ → V3 ℝ) : Prop where
  some_face : faces ≠ []
  in_range : ∀ f ∈ faces, ∀ v ∈ f, v < vs.length
  three : ∀ f ∈ faces, 2 < f.length
  convex : ∀ i f, faces[i]? = some f → ConvexFace (normal i) (corners vs f)
  sharp : ∀ f ∈ faces, ∀ v0 v1, (corners vs f)[0]? = some v0 → (corners vs f)[1]? = some v1 → ∀ b ∈ corners vs f, ∀ c ∈ corners vs f,
    cross (v1 - v0) (b - c) = 0 ∨ eps < lengthSqr (cross (v1 - v0) (b - c))
  area : ∀ i f, faces[i]? = some f → ∀ a b, Side (corners vs f) a b → ∃ c ∈ corners vs f, 0 < dot (cross (b - a) (c - a)) (normal i)
  behind : ∀ i f, faces[i]? = some f → ∀ p ∈ corners vs f, ∀ v ∈ vs, dot (v - p) (normal i) ≤ 0
  around : ∀ i f, faces[i]? = some f → ∀ p ∈ corners vs f, 0 < dot p (normal i)
  closed : ∀ a b, facesAt faces a b = [] ∨ (facesAt faces a b).length = 2
  cone : ∀ es, calcEdges faces = some es → EdgeCone vs (es.map fun e => (e.v0, e.v1))

/-- The edge between two faces of a convex polyhedron runs along the cross product of their normals. -/
theorem edge_along {n0 n1 a b w : V3 ℝ} (u0 : lengthSqr n0 = 1) (u1 : lengthSqr n1 = 1) (h0 : dot (b - a) n0 = 0)
    (h1 : dot (b - a) n1 = 0) (w0 : dot w n0 = 0) (w1 : dot w n1 ≤ 0) (hl : 0 < dot (cross (b - a) w) n0)
    (p0 : 0 < dot a n0) (p1 : 0 < dot a n1) : n0 = n1 ∨ ∃ k, 0 < k ∧ a - b = smul k (cross n1 n0) := by
  by_cases hx : cross n0 n1 = 0
  · left
    have e : smul (lengthSqr n0) n1 - smul (dot n1 n0) n0 = cross (cross n0 n1) n0 := by
      ext <;> simp [cross, dot, lengthSqr] <;> ring
    rw [hx, u0] at e
    have e' : n1 = smul (dot n1 n0) n0 := by
      ext
      · have := congrArg V3.x e; simp [cross] at this; simp; linarith
      · have := congrArg V3.y e; simp [cross] at this; simp; linarith
      · have := congrArg V3.z e; simp [cross] at this; simp; linarith
    generalize dot n1 n0 = k at *
    have hk : 0 < k := by
      rw [e', dot_smul_right] at p1
      by_contra hc
      nlinarith [not_lt.mp hc]
    have hk1 : k * k = 1 := by
      rw [e'] at u1
      simp only [lengthSqr, dot_smul_left, dot_smul_right] at u1 u0
      rw [u0] at u1; linarith
    have : k = 1 := by nlinarith
    rw [e', this]; ext <;> simp
  · right
    have hL : 0 < lengthSqr (cross n0 n1) := lt_of_le_of_ne (lengthSqr_nonneg _) (Ne.symm (lengthSqr_ne hx))
    have e : smul (lengthSqr (cross n0 n1)) (b - a) = smul (dot (b - a) (cross n0 n1)) (cross n0 n1) := by
      have c0 : cross (cross n0 n1) (b - a) = smul (dot (b - a) n0) n1 - smul (dot (b - a) n1) n0 := by
        ext <;> simp [cross, dot] <;> ring
      have c1 : smul (lengthSqr (cross n0 n1)) (b - a) - smul (dot (b - a) (cross n0 n1)) (cross n0 n1) = cross (cross (cross n0 n1) (b - a)) (cross n0 n1) := by
        generalize cross n0 n1 = x
        generalize b - a = d
        ext <;> simp [cross, dot, lengthSqr] <;> ring
      rw [c0, h0, h1] at c1
      generalize cross n0 n1 = x at *
      generalize lengthSqr x = L at *
      generalize dot (b - a) x = D at *
      ext
      · have := congrArg V3.x c1; simp [cross] at this; simp; linarith
      · have := congrArg V3.y c1; simp [cross] at this; simp; linarith
      · have := congrArg V3.z c1; simp [cross] at this; simp; linarith
    have t : lengthSqr (cross n0 n1) * dot (cross (b - a) w) n0 = dot (b - a) (cross n0 n1) * -dot w n1 := by
      have e1 : lengthSqr (cross n0 n1) * dot (cross (b - a) w) n0 = dot (cross (smul (lengthSqr (cross n0 n1)) (b - a)) w) n0 := by
        simp [cross, dot]; ring
      rw [e1, e]
      have e2 : ∀ k : ℝ, dot (cross (smul k (cross n0 n1)) w) n0 = k * (dot n1 n0 * dot w n0 - dot w n1 * lengthSqr n0) := by
        intro k; simp [cross, dot, lengthSqr]; ring
      rw [e2, w0, u0]; ring
    have hD : 0 < dot (b - a) (cross n0 n1) := by
      have : 0 < lengthSqr (cross n0 n1) * dot (cross (b - a) w) n0 := by positivity
      by_contra hc
      nlinarith [not_lt.mp hc]
    refine ⟨dot (b - a) (cross n0 n1) / lengthSqr (cross n0 n1), by positivity, ?_⟩
    have e3 := congrArg (smul (1 / lengthSqr (cross n0 n1))) e
    have hx' : cross n1 n0 = -cross n0 n1 := cross_anti n1 n0
    rw [hx']
    generalize lengthSqr (cross n0 n1) = L at *
    generalize dot (b - a) (cross n0 n1) = D at *
    have l : smul (1 / L) (smul L (b - a)) = b - a := by
      ext <;> simp only [smul_x, smul_y, smul_z] <;> field_simp
    rw [l] at e3
    have : a - b = -(b - a) := by ext <;> simp
    rw [this, e3]
    ext <;> simp only [smul_x, smul_y, smul_z, neg_x, neg_y, neg_z] <;> field_simp

theorem poly_mapM_some {α β : Type} {g : α → Option β} {l : List α} (h : ∀ x ∈ l, ∃ y, g x = some y) :
    ∃ r, l.mapM g = some r ∧ r.length = l.length ∧ ∀ i : ℕ, ∀ x, l[i]? = some x → ∃ y, g x = some y ∧ r[i]? = some y := by
  induction l with
  | nil => exact ⟨[], rfl, rfl, by simp⟩
  | cons a l ih =>
    obtain ⟨r, h1, h2, h3⟩ := ih fun x hx => h x (List.mem_cons_of_mem _ hx)
    obtain ⟨y, hy⟩ := h a List.mem_cons_self
    refine ⟨y :: r, by rw [List.mapM_cons, hy, h1]; rfl, by simp [h2], ?_⟩
    intro i x hx
    cases i with
    | zero => simp only [List.getElem?_cons_zero, Option.some.injEq] at hx; subst hx; exact ⟨y, hy, rfl⟩
    | succ i => simpa using h3 i x (by simpa using hx)

theorem mapM_mem {α β : Type} {g : α → Option β} {l : List α} {r : List β} (h : l.mapM g = some r) {y : β} (hy : y ∈ r) :
    ∃ x ∈ l, g x = some y := by
  induction l generalizing r with
  | nil => simp at h; subst h; simp at hy
  | cons a l ih =>
    rw [List.mapM_cons] at h
    simp only [Option.pure_def, Option.bind_eq_bind, Option.bind_eq_some_iff, Option.some.injEq] at h
    obtain ⟨z, hz, r', hr, rfl⟩ := h
    rcases List.mem_cons.mp hy with rfl | hy
    · exact ⟨a, List.mem_cons_self, hz⟩
    · obtain ⟨x, hx, e⟩ := ih hr hy; exact ⟨x, List.mem_cons_of_mem _ hx, e⟩

theorem corners_get {vs : List (V3 ℝ)} {f : List ℕ} {i a : ℕ} (h : f[i]? = some a) : (corners vs f)[i]? = some (vs.getD a 0) := by
  unfold corners; rw [List.getElem?_map, h]; rfl

theorem getD_get {vs : List (V3 ℝ)} {i : ℕ} (h : i < vs.length) : vs[i]? = some (vs.getD i 0) := by
  rw [List.getD_eq_getElem?_getD, List.getElem?_eq_getElem h]; rfl

theorem facesAt_mem {faces : List (List ℕ)} {a b g : ℕ} (h : g ∈ facesAt faces a b) :
    ∃ f, faces[g]? = some f ∧ ∃ i, SideOf f i a b ∨ SideOf f i b a := by
  unfold facesAt at h
  obtain ⟨⟨f, j⟩, hf, hg⟩ := List.mem_flatMap.mp h
  obtain ⟨hne, rfl⟩ := List.mem_replicate.mp hg
  rw [List.mem_zipIdx_iff_getElem?] at hf
  refine ⟨f, hf, ?_⟩
  unfold uses at hne
  obtain ⟨i, hi⟩ := List.exists_mem_of_length_pos (Nat.pos_of_ne_zero hne)
  rw [List.mem_filter] at hi
  exact ⟨i, by simpa using hi.2⟩

/-- **C94, the meshes.** The mesh which `convex_mesh::initialize` makes of a convex polyhedron is as the theorems on
contacts require.  Its edges are those of the faces, with the normals of their two faces. -/
theorem solid_of_mesh (eps tol : ℝ) (he : 0 ≤ eps) (vs : List (V3 ℝ)) (faces : List (List ℕ)) (normal : ℕ → V3 ℝ)
    (h : ConvexBody eps vs faces normal) : ∃ m, meshOf eps tol vs faces = some m ∧ m.verts = vs ∧ PolySolid m ∧
      ∃ es, calcEdges faces = some es ∧
        (m.edges = es.map fun e => ⟨vs.getD e.v0 0, vs.getD e.v1 0, normal e.f0, normal (e.f1.getD 0)⟩) ∧
        (∀ x ∈ m.faces, ∃ i f, faces[i]? = some f ∧ x.1 = normal i ∧ x.2 ∈ corners vs f ∧ x.2 ∈ vs) ∧
        ∀ i f, faces[i]? = some f → ∃ x ∈ m.faces, ∃ j g, faces[j]? = some g ∧ x.1 = normal j ∧ x.2 ∈ corners vs g ∧ x.2 ∈ vs ∧
          (i = j ∨ 1 - tol ≤ dot (normal i) (normal j)) := by
  -- the normals
  have hn : ∀ i f, faces[i]? = some f → faceNormal eps (corners vs f) = some (normal i) := by
    intro i f hf
    have hm := List.mem_of_getElem? hf
    have h3 := h.three f hm
    obtain ⟨a, ha⟩ : ∃ a, f[0]? = some a := ⟨_, List.getElem?_eq_getElem (by omega)⟩
    obtain ⟨b, hb⟩ : ∃ b, f[1]? = some b := ⟨_, List.getElem?_eq_getElem (by omega)⟩
    have hl : (corners vs f).length = f.length := by simp [corners]
    refine face_normal_spec eps he (normal i) _ (h.convex i f hf) (h.sharp f hm) ⟨_, _, corners_get ha, corners_get hb, ?_⟩
    obtain ⟨c, hc, hpos⟩ := h.area i f hf _ _ ⟨0, corners_get ha, by
      rw [hl, Nat.mod_eq_of_lt (by omega)]; exact corners_get hb⟩
    refine ⟨c, hc, ?_⟩
    intro h0; rw [h0] at hpos; simp [dot] at hpos
  obtain ⟨ns, n1, n2, n3⟩ := poly_mapM_some (g := fun f => faceNormal eps (corners vs f)) (l := faces) (by
    intro f hf
    obtain ⟨i, hi⟩ := List.getElem?_of_mem hf
    exact ⟨_, hn i f hi⟩)
  have hns : ∀ i f, faces[i]? = some f → ns[i]? = some (normal i) := by
    intro i f hf
    obtain ⟨y, y1, y2⟩ := n3 i f hf
    rw [hn i f hf] at y1; cases y1; exact y2
  -- the edges
  obtain ⟨es, e1, e2⟩ := closed_edges faces h.closed
  obtain ⟨x1, x2, x3, x4⟩ := edges_exact faces es e1
  have vget : ∀ f ∈ faces, ∀ v ∈ f, vs[v]? = some (vs.getD v 0) := fun f hf v hv => getD_get (h.in_range f hf v hv)
  have sideMem : ∀ {f : List ℕ} {i a b : ℕ}, SideOf f i a b → a ∈ f ∧ b ∈ f := fun s =>
    ⟨List.mem_of_getElem? s.1, List.mem_of_getElem? s.2⟩
  have edge : ∀ e ∈ es, ∃ f0 f1 g i j, faces[e.f0]? = some f0 ∧ e.f1 = some g ∧ faces[g]? = some f1 ∧ SideOf f0 i e.v0 e.v1 ∧
      (SideOf f1 j e.v0 e.v1 ∨ SideOf f1 j e.v1 e.v0) := by
    intro e hee
    obtain ⟨f0, i, a1, a2⟩ := x2 e hee
    obtain ⟨g, b1, b2⟩ := e2 e hee
    obtain ⟨f1, c1, j, c2⟩ := facesAt_mem (g := g) (faces := faces) (a := e.v0) (b := e.v1) (by rw [b2]; simp)
    exact ⟨f0, f1, g, i, j, a1, b1, c1, a2, c2⟩
  obtain ⟨pes, p1, p2, p3⟩ := poly_mapM_some (l := es) (g := fun e => (vs[e.v0]?).bind fun v0 => (vs[e.v1]?).bind fun v1 => (ns[e.f0]?).bind fun n0 =>
      (match e.f1 with | some g => ns[g]? | none => some 0).map fun n1 => PEdge.mk v0 v1 n0 n1) (by
    intro e hee
    obtain ⟨f0, f1, g, i, j, a1, a2, a3, a4, a5⟩ := edge e hee
    have hm := List.mem_of_getElem? a1
    exact ⟨_, by rw [vget f0 hm _ (sideMem a4).1, vget f0 hm _ (sideMem a4).2, hns _ _ a1, a2]; simp only [Option.bind_some, hns _ _ a3, Option.map_some]; rfl⟩)
  -- the relevant faces
  obtain ⟨r1, r2, -⟩ := relevant_inv (similarNormals tol fun i => ns.getD i 0) faces.length
  have face : ∀ i < faces.length, ∃ f j v, faces[i]? = some f ∧ f[0]? = some j ∧ vs[j]? = some v ∧ v ∈ corners vs f := by
    intro i hi
    have hf : faces[i]? = some faces[i] := List.getElem?_eq_getElem hi
    have hm := List.mem_of_getElem? hf
    have h3 := h.three _ hm
    have h0 : faces[i][0]? = some (faces[i][0]'(by omega)) := List.getElem?_eq_getElem (by omega)
    exact ⟨_, _, _, hf, h0, vget _ hm _ (List.mem_of_getElem? h0), List.mem_of_getElem? (corners_get h0)⟩
  obtain ⟨rel, q1, -, q3⟩ := poly_mapM_some (l := relevant (similarNormals tol fun i => ns.getD i 0) faces.length)
    (g := fun i => (ns[i]?).bind fun n => (faces[i]?).bind fun f => (f[0]?).bind fun j => (vs[j]?).map fun v => (n, v)) (by
    intro i hi
    obtain ⟨f, j, v, a1, a2, a3, -⟩ := face i (r1 i hi)
    exact ⟨(normal i, v), by rw [hns i f a1, a1]; simp only [Option.bind_some, a2, a3, Option.map_some]⟩)
  have relMem : ∀ x ∈ rel, ∃ i f, faces[i]? = some f ∧ x.1 = normal i ∧ x.2 ∈ corners vs f ∧ x.2 ∈ vs := by
    intro x hx
    obtain ⟨i, hi, e⟩ := mapM_mem q1 hx
    obtain ⟨f, j, v, a1, a2, a3, a4⟩ := face i (r1 i hi)
    rw [hns i f a1, a1] at e
    simp only [Option.bind_some, a2, a3, Option.map_some, Option.some.injEq] at e
    subst e
    exact ⟨i, f, a1, rfl, a4, List.mem_of_getElem? a3⟩
  refine ⟨_, by unfold meshOf; rw [n1, Option.bind_some, e1, Option.bind_some, p1, Option.bind_some, q1, Option.map_some], rfl, ?_, es, e1, ?_, relMem, ?_⟩
  rotate_left
  · apply List.ext_getElem?
    intro n
    simp only [List.getElem?_map]
    cases hen : es[n]? with
    | none =>
      rw [List.getElem?_eq_none_iff] at hen
      rw [Option.map_none, List.getElem?_eq_none_iff]; omega
    | some e =>
      obtain ⟨y, y1, y2⟩ := p3 n e hen
      obtain ⟨f0, f1, g, i, j, a1, a2, a3, a4, a5⟩ := edge e (List.mem_of_getElem? hen)
      have hm := List.mem_of_getElem? a1
      rw [vget f0 hm _ (sideMem a4).1, vget f0 hm _ (sideMem a4).2, hns _ _ a1, a2] at y1
      simp only [Option.bind_some, hns _ _ a3, Option.map_some, Option.some.injEq] at y1
      rw [y2, ← y1, Option.map_some, a2]; rfl
  · intro i f hf
    have hi : i < faces.length := (List.getElem?_eq_some_iff.mp hf).1
    have pick : ∀ j ∈ relevant (similarNormals tol fun i => ns.getD i 0) faces.length, ∃ x ∈ rel, ∃ g, faces[j]? = some g ∧
        x.1 = normal j ∧ x.2 ∈ corners vs g ∧ x.2 ∈ vs := by
      intro j hj
      obtain ⟨n, hn'⟩ := List.getElem?_of_mem hj
      obtain ⟨y, y1, hy⟩ := q3 n j hn'
      obtain ⟨f, j', v, a1, a2, a3, a4⟩ := face j (r1 j hj)
      rw [hns j f a1, a1] at y1
      simp only [Option.bind_some, a2, a3, Option.map_some, Option.some.injEq] at y1
      subst y1
      exact ⟨_, List.mem_of_getElem? hy, f, a1, rfl, a4, List.mem_of_getElem? a3⟩
    rcases r2 i hi with hr | ⟨j, hj, -, hs⟩
    · obtain ⟨x, hx, g, g1, g2, g3, g4⟩ := pick i hr
      exact ⟨x, hx, i, g, g1, g2, g3, g4, .inl rfl⟩
    · obtain ⟨x, hx, g, g1, g2, g3, g4⟩ := pick j hj
      refine ⟨x, hx, j, g, g1, g2, g3, g4, .inr ?_⟩
      simp only [similarNormals, Bool.not_eq_eq_eq_not, Bool.not_true, decide_eq_false_iff_not, not_lt] at hs
      rwa [List.getD_eq_getElem?_getD, List.getD_eq_getElem?_getD, hns i f hf, hns j g g1] at hs
  have cmem : ∀ {f : List ℕ} {v : ℕ}, v ∈ f → vs.getD v 0 ∈ corners vs f := fun hv => List.mem_map_of_mem hv
  have pesMem : ∀ x ∈ pes, ∃ f0 f1 i g, faces[i]? = some f0 ∧ faces[g]? = some f1 ∧ x.n0 = normal i ∧ x.n1 = normal g ∧
      x.v0 ∈ vs ∧ x.v0 ∈ corners vs f0 ∧ x.v0 ∈ corners vs f1 ∧ x.v1 ∈ corners vs f0 ∧ x.v1 ∈ corners vs f1 ∧ Side (corners vs f0) x.v0 x.v1 := by
    intro x hx
    obtain ⟨e, hee, eq⟩ := mapM_mem p1 hx
    obtain ⟨f0, f1, g, i, j, a1, a2, a3, a4, a5⟩ := edge e hee
    have hm := List.mem_of_getElem? a1
    rw [vget f0 hm _ (sideMem a4).1, vget f0 hm _ (sideMem a4).2, hns _ _ a1, a2] at eq
    simp only [Option.bind_some, hns _ _ a3, Option.map_some, Option.some.injEq] at eq
    subst eq
    have m1 : e.v0 ∈ f1 ∧ e.v1 ∈ f1 := by
      rcases a5 with a5 | a5
      · exact sideMem a5
      · exact ⟨(sideMem a5).2, (sideMem a5).1⟩
    refine ⟨f0, f1, e.f0, g, a1, a3, rfl, rfl, List.mem_of_getElem? (vget f0 hm _ (sideMem a4).1), cmem (sideMem a4).1, cmem m1.1,
      cmem (sideMem a4).2, cmem m1.2, i, corners_get a4.1, ?_⟩
    have hl : (corners vs f0).length = f0.length := by simp [corners]
    rw [hl]; exact corners_get a4.2
  have hne : rel ≠ [] := by
    have : 0 < faces.length := List.length_pos_iff.mpr h.some_face
    have hr : ∃ i, i ∈ relevant (similarNormals tol fun i => ns.getD i 0) faces.length := by
      rcases r2 0 this with h | ⟨j, h, -⟩
      · exact ⟨0, h⟩
      · exact ⟨j, h⟩
    obtain ⟨i, hi⟩ := hr
    obtain ⟨n, hn'⟩ := List.getElem?_of_mem hi
    obtain ⟨y, -, hy⟩ := q3 n i hn'
    exact List.ne_nil_of_mem (List.mem_of_getElem? hy)
  refine ⟨?_, hne, ?_, ?_, ?_, ?_, ?_, ?_, ?_, ?_⟩
  · obtain ⟨x, hx⟩ := List.exists_mem_of_ne_nil _ hne
    obtain ⟨i, f, -, -, -, hv⟩ := relMem x hx
    exact List.ne_nil_of_mem hv
  · intro x hx
    obtain ⟨i, f, a1, a2, a3, -⟩ := relMem x hx
    rw [a2]; exact (h.convex i f a1).unit
  · intro x hx
    obtain ⟨i, f, a1, a2, a3, a4⟩ := relMem x hx
    exact a4
  · intro x hx v hv
    obtain ⟨i, f, a1, a2, a3, -⟩ := relMem x hx
    rw [a2]; exact h.behind i f a1 _ a3 v hv
  · intro x hx
    obtain ⟨f0, f1, i, g, a1, a2, a3, a4, a5, a6, a7, a8, a9, a10⟩ := pesMem x hx
    exact a5
  · intro x hx v hv
    obtain ⟨f0, f1, i, g, a1, a2, a3, a4, a5, a6, a7, a8, a9, a10⟩ := pesMem x hx
    rw [a3, a4]
    exact ⟨h.behind i f0 a1 _ a6 v hv, h.behind g f1 a2 _ a7 v hv⟩
  · intro x hx
    obtain ⟨f0, f1, i, g, a1, a2, a3, a4, a5, a6, a7, a8, a9, a10⟩ := pesMem x hx
    rw [a3, a4]
    exact ⟨h.around i f0 a1 _ a6, h.around g f1 a2 _ a7⟩
  · intro x hx
    obtain ⟨f0, f1, i, g, a1, a2, a3, a4, a5, a6, a7, a8, a9, a10⟩ := pesMem x hx
    obtain ⟨c, hc, hpos⟩ := h.area i f0 a1 _ _ a10
    have cv : c ∈ vs := by
      obtain ⟨v, hv, rfl⟩ := List.mem_map.mp hc
      exact List.mem_of_getElem? (vget f0 (List.mem_of_getElem? a1) v hv)
    rw [a3, a4]
    exact edge_along (w := c - x.v0) (h.convex i f0 a1).unit (h.convex g f1 a2).unit ((h.convex i f0 a1).flat _ a8 _ a6)
      ((h.convex g f1 a2).flat _ a9 _ a7) ((h.convex i f0 a1).flat _ hc _ a6) (h.behind g f1 a2 _ a7 c cv) hpos
      (h.around i f0 a1 _ a6) (h.around g f1 a2 _ a7)
  · refine ⟨es.map fun e => (e.v0, e.v1), ?_, h.cone es e1, rfl, rfl⟩
    intro x hx
    obtain ⟨e, hee, rfl⟩ := List.mem_map.mp hx
    obtain ⟨f0, f1, g, i, j, a1, a2, a3, a4, a5⟩ := edge e hee
    have hm := List.mem_of_getElem? a1
    exact ⟨h.in_range f0 hm _ (sideMem a4).1, h.in_range f0 hm _ (sideMem a4).2⟩

end Edyn.Collide
