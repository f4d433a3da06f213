import Verif.Collide.MeshFacets

/-!
# Contact points of spheres with triangle meshes: the full statement, examples and findings (C88)
-/

namespace Edyn.Collide

open Edyn.Math hiding lengthSqr_nonneg
open V3 Edyn.Geom Edyn.Contact Edyn.Mesh.Topo Edyn.Mesh.Convex

/-- The full statement about a sphere and a mesh: a sphere in front of all triangles, not larger than the thickness of
the mesh, which has a point of the mesh inside of it gets a contact point; a sphere farther from the mesh than the
threshold gets none. -/
def SphereMeshFull (eps tiny tol brk thick : ℝ) : Prop :=
  ∀ (K : Consts ℝ) (env : StaticTree.Env ℝ) (verts : List (V3 ℝ)) (ts : List Mesh.Topo.Tri) (F : List Facet)
    (st : StaticTree.St ℝ) (r : ℝ) (c : Ctx),
    env.Ok → StaticTree.IdIsItem env → Solid eps verts ts → meshFacets eps verts ts = some F →
    triTree env (triList F) = some st → 0 < r → r ≤ thick → c.Fixed → c.thr ≤ brk →
    ∃ l, sphereMesh K eps tiny tol brk thick r st.nodes F (sphereLo r c.posA) (sphereHi r c.posA) c = some l ∧
      ((∀ T ∈ F, 0 ≤ dot (c.posA - T.v 0) T.n) → (∃ T ∈ F, ∃ x, T.tri.Has x ∧ lengthSqr (c.posA - x) < r * r) → l ≠ []) ∧
      ((∀ T ∈ F, ∀ x, T.tri.Has x → (r + c.thr) * (r + c.thr) < lengthSqr (c.posA - x)) → l = [])

/-! ## A single triangle -/

theorem unit3_of {v : V3 ℝ} {l : ℝ} (hl : 0 < l) (h : lengthSqr v = l * l) : unit3 v = smul (1 / l) v := by
  unfold unit3
  rw [h, Real.sqrt_mul_self hl.le]

/-- What is stored about the only triangle of a mesh with unit normal `n`. -/
noncomputable def singleFacet (p0 p1 p2 n : V3 ℝ) : Facet :=
  ⟨![p0, p1, p2], n, ![-(unit3 (n + smul (1 / 10) (cross n (p1 - p0)))), -(unit3 (n + smul (1 / 10) (cross n (p2 - p1)))),
    -(unit3 (n + smul (1 / 10) (cross n (p0 - p2))))], 0, ![0, 1, 2], ![0, 1, 2]⟩

/-- The mesh of a single triangle. -/
theorem single_facet {eps : ℝ} (he : 0 < eps) {p0 p1 p2 n : V3 ℝ} (hs : Solid eps [p0, p1, p2] [⟨0, 1, 2⟩])
    (hn : unit3 (cross (p1 - p0) (p2 - p1)) = n) :
    meshFacets eps [p0, p1, p2] [⟨0, 1, 2⟩] = some [singleFacet p0 p1 p2 n] ∧ (singleFacet p0 p1 p2 n).Ok eps := by
  obtain ⟨F, f1, f2, f3, -⟩ := mesh_facets he hs
  have ht : initEdges 3 [⟨0, 1, 2⟩] = some ⟨[(0, 1), (1, 2), (2, 0)], [(0, 0), (0, 0), (0, 0)], [true, true, true],
      [(0, 1, 2)], [[0, 2], [0, 1], [1, 2]]⟩ := by decide
  have e : meshFacets eps [p0, p1, p2] [⟨0, 1, 2⟩] = some [singleFacet p0 p1 p2 n] := by
    unfold meshFacets faceNormals
    simp only [List.mapM_cons, List.mapM_nil, List.length_cons, List.length_nil, Nat.reduceAdd, ht]
    simp [adjacentNormals, loop, Edyn.Mesh.Convex.face, side, otherFace, facetAt, List.range_succ, hn, singleFacet]
  rw [e] at f1
  have := f3 0
  rw [← Option.some.inj f1] at this
  exact ⟨e, (this _ rfl).1⟩

/-- The conditions on the mesh of a single triangle. -/
theorem single_solid {eps : ℝ} {p0 p1 p2 : V3 ℝ} (h0 : eps < lengthSqr (p1 - p0)) (h1 : eps < lengthSqr (p2 - p1))
    (h2 : eps < lengthSqr (p0 - p2)) (ha : 9 * (eps * eps) ≤ lengthSqr (cross (p1 - p0) (p2 - p0))) :
    Solid eps [p0, p1, p2] [⟨0, 1, 2⟩] := by
  refine ⟨by simp, ?_, ?_⟩
  · simp only [List.mem_singleton, forall_eq, Side, Prod.mk.injEq]
    rintro i j (⟨rfl, rfl⟩ | ⟨rfl, rfl⟩ | ⟨rfl, rfl⟩) p q hp hq <;> simp at hp hq <;> subst hp hq <;> assumption
  · simp only [List.mem_singleton, forall_eq]
    rintro p q r hp hq hr
    simp at hp hq hr
    subst hp hq hr
    exact ha

theorem single_tree (T : Facet) : ∃ st, triTree realEnv (triList [T]) = some st := by
  obtain ⟨st, h, -⟩ := StaticTree.build_exact realEnv_ok (boxes := (triList [T]).map fun tn => triBox tn.1) (by
    simp [triList]) (Nat.le_refl 1)
  exact ⟨st, h⟩

/-! ## A sphere over the edge of a mesh that gets no contact point -/

/-- A right triangle in the plane `y = 0`, seen from above. -/
noncomputable def flatTri : Facet := singleFacet 0 ⟨0, 0, 1⟩ ⟨1, 0, 0⟩ ⟨0, 1, 0⟩

theorem flat_facet {eps : ℝ} (he : 0 < eps) (he2 : eps ≤ 1 / 1000000) :
    Solid eps [0, ⟨0, 0, 1⟩, ⟨1, 0, 0⟩] [⟨0, 1, 2⟩] ∧
    meshFacets eps [0, ⟨0, 0, 1⟩, ⟨1, 0, 0⟩] [⟨0, 1, 2⟩] = some [flatTri] ∧ flatTri.Ok eps := by
  have hs : Solid eps [0, ⟨0, 0, 1⟩, ⟨1, 0, 0⟩] [⟨0, 1, 2⟩] := by
    refine single_solid ?_ ?_ ?_ ?_ <;> simp [lengthSqr, dot, cross] <;> nlinarith
  refine ⟨hs, single_facet he hs ?_⟩
  rw [unit3_of (l := 1) (by norm_num) (by norm_num [lengthSqr, dot, cross])]
  ext <;> norm_num [cross]

/-- The centre of a sphere above the edge on the `z`-axis, with the line to the middle of the edge tilted by 1/500. -/
noncomputable def overEdge : Ctx := ⟨⟨-(9 / 20) * (2000 / 1000001), 9 / 20 * (999999 / 1000001), 1 / 2⟩, 1, 0, 1, 1 / 100⟩

theorem overEdge_fixed : overEdge.Fixed := by
  refine ⟨⟨?_, ?_, ?_⟩, rfl, rfl⟩ <;> norm_num [overEdge, Quat.lengthSqr]

theorem flat_bounds {x : V3 ℝ} (h : flatTri.tri.Has x) : 0 ≤ x.x ∧ x.y = 0 := by
  have a := hull_le (d := ⟨-1, 0, 0⟩) (x := 0) (by simp [flatTri, singleFacet, Facet.tri, dot]) h
  have b := hull_le (d := ⟨0, 1, 0⟩) (x := 0) (by simp [flatTri, singleFacet, Facet.tri, dot]) h
  have k := hull_le (d := ⟨0, -1, 0⟩) (x := 0) (by simp [flatTri, singleFacet, Facet.tri, dot]) h
  simp [dot] at a b k
  exact ⟨a, le_antisymm b k⟩

theorem flat_at : flatTri.at ![1 / 2, 1 / 2, 0] = ⟨0, 0, 1 / 2⟩ := by
  show smul (1 / 2) (0 : V3 ℝ) + smul (1 / 2) ⟨0, 0, 1⟩ + smul 0 ⟨1, 0, 0⟩ = ⟨0, 0, 1 / 2⟩
  ext <;> norm_num

theorem flat_nearest : flatTri.Nearest overEdge.posA ![1 / 2, 1 / 2, 0] := by
  refine ⟨?_, ?_, ?_⟩
  · rw [all3]
    show (0 : ℝ) ≤ 1 / 2 ∧ (0 : ℝ) ≤ 1 / 2 ∧ (0 : ℝ) ≤ 0
    norm_num
  · show (1 / 2 : ℝ) + 1 / 2 + 0 = 1
    norm_num
  · intro x hx
    obtain ⟨h1, h2⟩ := flat_bounds hx
    rw [flat_at]
    simp only [lengthSqr, dot, sub_x, sub_y, sub_z, overEdge, h2]
    nlinarith [mul_self_nonneg (x.z - 1 / 2), mul_nonneg h1 h1]

theorem flat_distance : lengthSqr (overEdge.posA - ⟨0, 0, 1 / 2⟩) = 9 / 20 * (9 / 20) := by
  norm_num [lengthSqr, dot, overEdge]

theorem flat_towards : towards overEdge.posA (flatTri.at ![1 / 2, 1 / 2, 0]) = ⟨-(2000 / 1000001), 999999 / 1000001, 0⟩ := by
  rw [flat_at]
  unfold towards
  rw [flat_distance, Real.sqrt_mul_self (by norm_num)]
  ext <;> norm_num [overEdge]

/-- **Finding.** The sphere overlaps the triangle by 0.05 and its centre is in front of it, but the third vertex is
within the tolerance of the closest edge, so the face is taken as the feature; the centre is not above the face, and no
contact point is added. -/
theorem flat_missed {eps tiny thick : ℝ} (he : 0 < eps) (he2 : eps ≤ 1 / 1000000) (htn : 0 ≤ tiny) (ht2 : tiny < 1 / 100)
    (hth : 1 / 2 ≤ thick) : sphereTriangle eps tiny (1 / 200) thick (1 / 2) flatTri overEdge = some none := by
  obtain ⟨-, -, hok⟩ := flat_facet he he2
  have hax := sphere_axis_nearest (r := 1 / 2) he.le htn hok flat_nearest (by rw [flat_at, flat_distance]; linarith)
    (.inl ⟨2, rfl⟩)
  rw [flat_towards, flat_at, flat_distance, Real.sqrt_mul_self (by norm_num)] at hax
  have v0 : flatTri.v 0 = 0 := rfl
  have v1 : flatTri.v 1 = ⟨0, 0, 1⟩ := rfl
  have v2 : flatTri.v 2 = ⟨1, 0, 0⟩ := rfl
  have f1 : (triFeature flatTri.v 0 ⟨-(2000 / 1000001), 999999 / 1000001, 0⟩ (1 / 200)).feat = .face := by
    norm_num [triFeature, triStep, v0, v1, v2, dot, abs_lt]
  have f2 : triFeature flatTri.v 0 ⟨0, 1, 0⟩ (1 / 200) = ⟨.face, 0, 0⟩ := by
    norm_num [triFeature, triStep, v0, v1, v2, dot, abs_lt]
  have hn : flatTri.n = ⟨0, 1, 0⟩ := rfl
  unfold sphereTriangle
  rw [hax, Option.bind_some]
  simp only [f1, triClip, hn, f2]
  rw [if_neg (by norm_num [overEdge]), if_neg (by norm_num [overEdge, dot]), if_neg (by
    simp only [overEdge, dot]; simp; linarith)]
  unfold spherePoint
  simp only [Option.some.injEq, ite_eq_right_iff, reduceCtorEq, imp_false]
  unfold Geom.pointInTriangle
  simp only [Facet.tri, v0, v1, v2, hn, overEdge, dot, cross, sub_x, sub_y, sub_z, zero_x, zero_y, zero_z]
  rintro (⟨-, h, -⟩ | ⟨h, -⟩)
  · norm_num at h; linarith
  · norm_num at h; linarith

/-- **Finding.** A sphere of radius 1/2 which overlaps the mesh gets no contact point. -/
theorem sphere_mesh_missed {eps tiny brk thick : ℝ} (he : 0 < eps) (he2 : eps ≤ 1 / 1000000) (htn : 0 ≤ tiny)
    (ht2 : tiny < 1 / 100) (hb : 1 / 100 ≤ brk) (hth : 1 / 2 ≤ thick) : ¬ SphereMeshFull eps tiny (1 / 200) brk thick := by
  intro hfull
  obtain ⟨hs, hm, hok⟩ := flat_facet he he2
  obtain ⟨st, hst⟩ := single_tree flatTri
  obtain ⟨l, h1, h2, -⟩ := hfull ⟨0, 0, 0, 0⟩ realEnv _ _ _ st (1 / 2) overEdge realEnv_ok realEnv_item hs hm hst (by norm_num) hth
    overEdge_fixed (by simpa [overEdge] using hb)
  refine h2 ?_ ⟨flatTri, by simp, _, flat_nearest.has, ?_⟩ ?_
  · simp only [List.mem_singleton, forall_eq]
    norm_num [flatTri, singleFacet, overEdge, dot]
  · rw [flat_at, flat_distance]; norm_num
  · obtain ⟨l', a1, -, -, a4⟩ := sphere_mesh_points (K := ⟨0, 0, 0, 0⟩) (brk := brk) (thick := thick) (tol := 1 / 200) he htn
      (by norm_num) (r := 1 / 2) (by norm_num) realEnv_ok realEnv_item (F := [flatTri]) (by simpa using hok) hst
      overEdge_fixed (sphereLo (1 / 2) overEdge.posA) (sphereHi (1 / 2) overEdge.posA)
    rw [h1] at a1
    rw [Option.some.inj a1]
    by_contra hne
    obtain ⟨T, hmem, -, h⟩ := a4.1 hne
    simp only [List.mem_singleton] at hmem
    subst hmem
    exact h (flat_missed he he2 htn ht2 hth)

/-! ## Examples -/

/-- A sphere beyond the edge on the `z`-axis. -/
noncomputable def beyondEdge : Ctx := ⟨⟨-(27 / 100), 36 / 100, 1 / 2⟩, 1, 0, 1, 1 / 100⟩

theorem beyond_distance : lengthSqr (beyondEdge.posA - ⟨0, 0, 1 / 2⟩) = 9 / 20 * (9 / 20) := by
  norm_num [lengthSqr, dot, beyondEdge]

theorem beyond_towards : towards beyondEdge.posA (flatTri.at ![1 / 2, 1 / 2, 0]) = ⟨-(3 / 5), 4 / 5, 0⟩ := by
  rw [flat_at]
  unfold towards
  rw [beyond_distance, Real.sqrt_mul_self (by norm_num)]
  ext <;> norm_num [beyondEdge]

/-- The hypotheses of `sphere_triangle_partial` and `sphere_mesh_touch_partial` are met by a sphere whose closest point
is on an edge. -/
theorem beyond_example : beyondEdge.Fixed ∧ flatTri.Nearest beyondEdge.posA ![1 / 2, 1 / 2, 0] ∧
    (1 / 1000 : ℝ) < lengthSqr (beyondEdge.posA - flatTri.at ![1 / 2, 1 / 2, 0]) ∧
    flatTri.Clear (1 / 200) beyondEdge.posA ![1 / 2, 1 / 2, 0] ∧ flatTri.Facing beyondEdge.posA ![1 / 2, 1 / 2, 0] ∧
    Real.sqrt (lengthSqr (beyondEdge.posA - flatTri.at ![1 / 2, 1 / 2, 0])) = 9 / 20 := by
  refine ⟨⟨⟨?_, ?_, ?_⟩, rfl, rfl⟩, ⟨?_, ?_, ?_⟩, ?_, ?_, ?_, ?_⟩
  · norm_num [beyondEdge, Quat.lengthSqr]
  · norm_num [beyondEdge, Quat.lengthSqr]
  · norm_num [beyondEdge]
  · rw [all3]
    show (0 : ℝ) ≤ 1 / 2 ∧ (0 : ℝ) ≤ 1 / 2 ∧ (0 : ℝ) ≤ 0
    norm_num
  · show (1 / 2 : ℝ) + 1 / 2 + 0 = 1
    norm_num
  · intro x hx
    obtain ⟨h1, h2⟩ := flat_bounds hx
    rw [flat_at]
    simp only [lengthSqr, dot, sub_x, sub_y, sub_z, beyondEdge, h2]
    nlinarith [mul_self_nonneg (x.z - 1 / 2), mul_nonneg h1 h1]
  · rw [flat_at, beyond_distance]; norm_num
  · unfold Facet.Clear
    rw [beyond_towards, all3, flat_at]
    refine ⟨.inl ?_, .inl ?_, .inr ?_⟩
    · show (0 : ℝ) < 1 / 2; norm_num
    · show (0 : ℝ) < 1 / 2; norm_num
    · show dot (⟨1, 0, 0⟩ : V3 ℝ) _ + _ ≤ _
      norm_num [dot]
  · unfold Facet.Facing
    rw [beyond_towards, all3]
    have hadj : flatTri.adj 0 = -(unit3 ⟨1 / 10, 1, 0⟩) := by
      show -(unit3 _) = _
      congr 2
      ext <;> norm_num [cross]
    have hk : 0 < 1 / Real.sqrt (lengthSqr (⟨1 / 10, 1, 0⟩ : V3 ℝ)) :=
      one_div_pos.2 (Real.sqrt_pos.2 (by norm_num [lengthSqr, dot]))
    refine ⟨fun _ => ?_, fun h => ?_, fun h => ?_⟩
    · show dot (⟨0, 1, 0⟩ : V3 ℝ) (cross ((⟨0, 0, 1⟩ : V3 ℝ) - 0) (flatTri.adj 0)) < 0 ∧
        dot (⟨-(3 / 5), 4 / 5, 0⟩ : V3 ℝ) (cross ((⟨0, 0, 1⟩ : V3 ℝ) - 0) (flatTri.adj 0)) ≤ 0
      rw [hadj]
      unfold unit3
      revert hk
      generalize 1 / Real.sqrt (lengthSqr (⟨1 / 10, 1, 0⟩ : V3 ℝ)) = k
      intro hk
      simp [dot, cross]
      constructor <;> linarith
    · exact absurd (show (1 / 2 : ℝ) = 0 from h) (by norm_num)
    · exact absurd (show (1 / 2 : ℝ) = 0 from h) (by norm_num)
  · rw [flat_at, beyond_distance, Real.sqrt_mul_self (by norm_num)]

/-- The hypotheses of `sphere_mesh_touch_partial` are met: a sphere of radius 1/2 gets a contact point with the mesh of
one triangle. -/
example : ∃ st, triTree realEnv (triList [flatTri]) = some st ∧ ∃ l, sphereMesh ⟨0, 0, 0, 0⟩ (1 / 10000000) (1 / 1000)
    (1 / 200) (1 / 50) 1 (1 / 2) st.nodes [flatTri] (sphereLo (1 / 2) beyondEdge.posA) (sphereHi (1 / 2) beyondEdge.posA)
    beyondEdge = some l ∧ l ≠ [] := by
  obtain ⟨st, hst⟩ := single_tree flatTri
  obtain ⟨-, -, hok⟩ := flat_facet (eps := 1 / 10000000) (by norm_num) (by norm_num)
  obtain ⟨h1, h2, h3, h4, h5, h6⟩ := beyond_example
  refine ⟨st, hst, sphere_mesh_touch_partial (by norm_num) (by norm_num) (by norm_num) (by norm_num) realEnv_ok realEnv_item
    (by simpa using hok) hst h1 (by norm_num [beyondEdge]) (List.mem_singleton.2 rfl) h2 h3 (.inl ⟨2, rfl⟩) h4 h5 ?_ ?_⟩
  · rw [h6]; norm_num [beyondEdge]
  · rw [h6]; norm_num

/-- The hypotheses of `sphere_mesh_far_partial` are met: a sphere of radius 1/4 gets none. -/
example : ∃ st, triTree realEnv (triList [flatTri]) = some st ∧ sphereMesh ⟨0, 0, 0, 0⟩ (1 / 10000000) (1 / 1000)
    (1 / 200) (1 / 50) 1 (1 / 4) st.nodes [flatTri] (sphereLo (1 / 4) beyondEdge.posA) (sphereHi (1 / 4) beyondEdge.posA)
    beyondEdge = some [] := by
  obtain ⟨st, hst⟩ := single_tree flatTri
  obtain ⟨-, -, hok⟩ := flat_facet (eps := 1 / 10000000) (by norm_num) (by norm_num)
  obtain ⟨h1, h2, h3, h4, h5, h6⟩ := beyond_example
  refine ⟨st, hst, sphere_mesh_far_partial (by norm_num) (by norm_num) (by norm_num) (by norm_num) realEnv_ok realEnv_item
    (by simpa using hok) hst h1 _ _ ?_⟩
  simp only [List.mem_singleton, forall_eq]
  exact ⟨_, h2, h3, .inl ⟨2, rfl⟩, by rw [h6]; norm_num [beyondEdge]⟩

/-! ## A sphere far below a triangle that gets a contact point -/

/-- A right triangle with legs 10 and 40/3. -/
noncomputable def rampTri : Facet := singleFacet 0 ⟨10, 0, 0⟩ ⟨0, 32 / 3, -8⟩ ⟨0, 3 / 5, 4 / 5⟩

theorem ramp_facet {eps : ℝ} (he : 0 < eps) (he2 : eps ≤ 1) :
    Solid eps [0, ⟨10, 0, 0⟩, ⟨0, 32 / 3, -8⟩] [⟨0, 1, 2⟩] ∧
    meshFacets eps [0, ⟨10, 0, 0⟩, ⟨0, 32 / 3, -8⟩] [⟨0, 1, 2⟩] = some [rampTri] ∧ rampTri.Ok eps := by
  have hs : Solid eps [0, ⟨10, 0, 0⟩, ⟨0, 32 / 3, -8⟩] [⟨0, 1, 2⟩] := by
    refine single_solid ?_ ?_ ?_ ?_ <;> norm_num [lengthSqr, dot, cross] <;> nlinarith
  refine ⟨hs, single_facet he hs ?_⟩
  rw [unit3_of (l := 400 / 3) (by norm_num) (by norm_num [lengthSqr, dot, cross])]
  ext <;> norm_num [cross]

theorem ramp_tri : rampTri.tri = ⟨0, ⟨10, 0, 0⟩, ⟨0, 32 / 3, -8⟩⟩ := rfl

/-- The centre of a sphere 40/9 below the middle of the triangle. -/
noncomputable def below : Ctx := ⟨⟨10 / 3, 0, -(50 / 9)⟩, 1, 0, 1, 1 / 100⟩

theorem below_fixed : below.Fixed := by
  refine ⟨⟨?_, ?_, ?_⟩, rfl, rfl⟩ <;> norm_num [below, Quat.lengthSqr]

/-- No point of the triangle is closer than 40/9. -/
theorem below_far {x : V3 ℝ} (h : rampTri.tri.Has x) : 40 / 9 * (40 / 9) ≤ lengthSqr (below.posA - x) := by
  rw [ramp_tri] at h
  have b := hull_le (d := ⟨0, 3 / 5, 4 / 5⟩) (x := 0) (by norm_num [dot]) h
  have k := hull_le (d := ⟨0, -(3 / 5), -(4 / 5)⟩) (x := 0) (by norm_num [dot]) h
  simp [dot] at b k
  simp only [lengthSqr, dot, sub_x, sub_y, sub_z, below]
  nlinarith [mul_self_nonneg (10 / 3 - x.x), mul_self_nonneg (-(4 / 5) * (0 - x.y) + 3 / 5 * (-(50 / 9) - x.z))]

theorem ramp_edge {eps tiny : ℝ} (he : eps ≤ 1) (ht : tiny ≤ 1) (i : Fin 3) (t : ℝ) (q d : V3 ℝ) (x : ℝ)
    (hb : 1 < dot (rampTri.v (i + 1) - rampTri.v i) (rampTri.v (i + 1) - rampTri.v i))
    (h0 : 0 ≤ t) (h1 : t ≤ 1)
    (ha : dot (below.posA - rampTri.v i) (rampTri.v (i + 1) - rampTri.v i) =
      t * dot (rampTri.v (i + 1) - rampTri.v i) (rampTri.v (i + 1) - rampTri.v i))
    (hq : rampTri.v i + smul t (rampTri.v (i + 1) - rampTri.v i) = q)
    (hd : below.posA - q = smul (50 / 9) d) (hu : lengthSqr d = 1)
    (hx : -(dot below.posA (-d) + 4 / 5) - triProj rampTri.v d = x) :
    edgeCand eps tiny (4 / 5) rampTri.v below.posA i = some [(x, d)] := by
  have hl : lengthSqr (smul (50 / 9) d) = 50 / 9 * (50 / 9) := by
    have : lengthSqr (smul (50 / 9) d) = 50 / 9 * (50 / 9) * lengthSqr d := by simp [lengthSqr, dot]; ring
    rw [this, hu, mul_one]
  unfold edgeCand closestSegment
  simp only
  rw [if_pos (lt_of_le_of_lt he hb), Option.map_some, ha, mul_div_assoc, div_self (by linarith), mul_one]
  have : clampUnit t = t := by
    unfold clampUnit
    rw [if_neg (by linarith), if_neg (by linarith)]
  rw [this, hq, hd]
  unfold tryNormalize
  rw [hl, if_pos (by linarith), Real.sqrt_mul_self (by norm_num)]
  have : smul (1 / (50 / 9)) (smul (50 / 9) d) = d := by ext <;> simp <;> ring
  simp only [this, hx]

theorem ramp_axis {eps tiny : ℝ} (he : eps ≤ 1) (ht : tiny ≤ 1) :
    sphereAxis eps tiny (4 / 5) rampTri below.posA = some (-(2 / 45), ⟨-(12 / 25), -(96 / 125), -(53 / 125)⟩) := by
  have v0 : rampTri.v 0 = 0 := rfl
  have v1 : rampTri.v 1 = ⟨10, 0, 0⟩ := rfl
  have v2 : rampTri.v 2 = ⟨0, 32 / 3, -8⟩ := rfl
  have hn : rampTri.n = ⟨0, 3 / 5, 4 / 5⟩ := rfl
  have c0 := ramp_edge (i := 0) he ht (1 / 3) ⟨10 / 3, 0, 0⟩ ⟨0, 0, -1⟩ (50 / 9 - 4 / 5 - 8)
    (by show 1 < dot (rampTri.v 1 - rampTri.v 0) (rampTri.v 1 - rampTri.v 0); norm_num [v0, v1, v2, dot])
    (by norm_num) (by norm_num)
    (by show dot (_ - rampTri.v 0) (rampTri.v 1 - rampTri.v 0) = _ * dot (rampTri.v 1 - rampTri.v 0) (rampTri.v 1 - rampTri.v 0)
        norm_num [v0, v1, v2, dot, below])
    (by show rampTri.v 0 + smul _ (rampTri.v 1 - rampTri.v 0) = _; ext <;> norm_num [v0, v1, v2])
    (by ext <;> norm_num [below]) (by norm_num [lengthSqr, dot])
    (by norm_num [triProj, v0, v1, v2, dot, below])
  have c1 := ramp_edge (i := 1) he ht (2 / 5) ⟨6, 64 / 15, -(16 / 5)⟩ ⟨-(12 / 25), -(96 / 125), -(53 / 125)⟩ (-(2 / 45))
    (by show 1 < dot (rampTri.v 2 - rampTri.v 1) (rampTri.v 2 - rampTri.v 1); norm_num [v0, v1, v2, dot])
    (by norm_num) (by norm_num)
    (by show dot (_ - rampTri.v 1) (rampTri.v 2 - rampTri.v 1) = _ * dot (rampTri.v 2 - rampTri.v 1) (rampTri.v 2 - rampTri.v 1)
        norm_num [v0, v1, v2, dot, below])
    (by show rampTri.v 1 + smul _ (rampTri.v 2 - rampTri.v 1) = _; ext <;> norm_num [v0, v1, v2])
    (by ext <;> norm_num [below]) (by norm_num [lengthSqr, dot])
    (by norm_num [triProj, v0, v1, v2, dot, below])
  have c2 := ramp_edge (i := 2) he ht (3 / 4) ⟨0, 8 / 3, -2⟩ ⟨3 / 5, -(12 / 25), -(16 / 25)⟩ (50 / 9 - 4 / 5 - 6)
    (by show 1 < dot (rampTri.v 0 - rampTri.v 2) (rampTri.v 0 - rampTri.v 2); norm_num [v0, v1, v2, dot])
    (by norm_num) (by norm_num)
    (by show dot (_ - rampTri.v 2) (rampTri.v 0 - rampTri.v 2) = _ * dot (rampTri.v 0 - rampTri.v 2) (rampTri.v 0 - rampTri.v 2)
        norm_num [v0, v1, v2, dot, below])
    (by show rampTri.v 2 + smul _ (rampTri.v 0 - rampTri.v 2) = _; ext <;> norm_num [v0, v1, v2])
    (by ext <;> norm_num [below]) (by norm_num [lengthSqr, dot])
    (by norm_num [triProj, v0, v1, v2, dot, below])
  unfold sphereAxis
  rw [c0, c1, c2]
  simp only [Option.bind_some, List.cons_append, List.nil_append, List.foldl_cons, List.foldl_nil, betterAxis]
  norm_num [hn, v0, below, dot]

/-- **Finding.** The sphere of radius 4/5 is 3.6 below the triangle, and gets a contact point 4/5 deep at one of the
edges. -/
theorem ramp_ghost {eps tiny thick : ℝ} (he2 : eps ≤ 1) (ht2 : tiny ≤ 1) (hth : 4 / 5 ≤ thick) :
    ∃ pt, sphereTriangle eps tiny (1 / 200) thick (4 / 5) rampTri below = some (some pt) ∧ pt.dist = -(4 / 5) := by
  have v0 : rampTri.v 0 = 0 := rfl
  have v1 : rampTri.v 1 = ⟨10, 0, 0⟩ := rfl
  have v2 : rampTri.v 2 = ⟨0, 32 / 3, -8⟩ := rfl
  have hn : rampTri.n = ⟨0, 3 / 5, 4 / 5⟩ := rfl
  have f1 : triFeature rampTri.v 0 ⟨-(12 / 25), -(96 / 125), -(53 / 125)⟩ (1 / 200) = ⟨.vertex, 0, 0⟩ := by
    norm_num [triFeature, triStep, v0, v1, v2, dot, abs_lt]
  have f2 : triFeature rampTri.v 0 ⟨-(4 / 5), -(9 / 25), -(12 / 25)⟩ (1 / 200) = ⟨.edge, 2, 0⟩ := by
    norm_num [triFeature, triStep, v0, v1, v2, dot, abs_lt]
  have a2 : rampTri.adj 2 = ⟨-(4 / 5), -(9 / 25), -(12 / 25)⟩ := by
    show -(unit3 _) = _
    rw [unit3_of (l := 5 / 3) (by norm_num) (by norm_num [lengthSqr, dot, cross])]
    ext <;> norm_num [cross]
  obtain ⟨k, k0, k1, a0⟩ : ∃ k, 0 ≤ k ∧ k ≤ 1 ∧ rampTri.adj 0 = -(smul k (⟨0, 7 / 5, 1 / 5⟩ : V3 ℝ)) := by
    refine ⟨1 / Real.sqrt 2, by positivity, ?_, ?_⟩
    · rw [div_le_one (by positivity)]
      exact Real.one_le_sqrt.2 (by norm_num)
    · show -(unit3 _) = _
      have : (⟨0, 3 / 5, 4 / 5⟩ + smul (1 / 10) (cross ⟨0, 3 / 5, 4 / 5⟩ (⟨10, 0, 0⟩ - 0)) : V3 ℝ) = ⟨0, 7 / 5, 1 / 5⟩ := by
        ext <;> norm_num [cross]
      rw [this]
      unfold unit3
      congr 3
      norm_num [lengthSqr, dot]
  have hclip : triClip ⟨-(12 / 25), -(96 / 125), -(53 / 125)⟩ rampTri.adj rampTri.v rampTri.n .vertex (corner 0) =
      ⟨-(4 / 5), -(9 / 25), -(12 / 25)⟩ := by
    have e0 : corner 0 = 0 := rfl
    have e1 : (0 : Fin 3) + 1 = 1 := rfl
    have e2 : (0 : Fin 3) + 2 = 2 := rfl
    have e3 : (2 : Fin 3) + 1 = 0 := rfl
    simp only [triClip, e0, e1, e2, e3, a0, a2, v0, v1, v2, hn]
    rw [if_neg (by simp [dot, cross]; norm_num; nlinarith), if_neg (by norm_num [dot, cross]), if_pos (by norm_num [dot, cross])]
  unfold sphereTriangle
  rw [ramp_axis he2 ht2, Option.bind_some]
  simp only [f1, hclip, f2]
  have hd : -(dot below.posA (-(⟨-(4 / 5), -(9 / 25), -(12 / 25)⟩ : V3 ℝ)) + 4 / 5) - 0 = -(4 / 5) := by
    norm_num [below, dot]
  rw [hd, if_neg (by norm_num [below]), if_neg (by norm_num [below]), if_neg (by linarith)]
  unfold spherePoint
  have e2 : corner 2 = 2 := rfl
  have e3 : (2 : Fin 3) + 1 = 0 := rfl
  simp only [e2, e3, v0, v2]
  unfold closestLine
  simp only
  rw [if_pos (lt_of_le_of_lt he2 (by norm_num [dot])), Option.map_some, if_pos (by norm_num [dot, below])]
  exact ⟨_, rfl, rfl⟩

/-- **Finding.** A sphere of radius 4/5 farther than 3.6 from the mesh gets a contact point. -/
theorem sphere_mesh_ghost {eps tiny brk thick : ℝ} (he : 0 < eps) (he2 : eps ≤ 1) (htn : 0 ≤ tiny) (ht2 : tiny ≤ 1)
    (hb : 1 / 100 ≤ brk) (hth : 4 / 5 ≤ thick) : ¬ SphereMeshFull eps tiny (1 / 200) brk thick := by
  intro hfull
  obtain ⟨hs, hm, hok⟩ := ramp_facet he he2
  obtain ⟨st, hst⟩ := single_tree rampTri
  obtain ⟨l, h1, -, h2⟩ := hfull ⟨0, 0, 0, 0⟩ realEnv _ _ _ st (4 / 5) below realEnv_ok realEnv_item hs hm hst (by norm_num) hth
    below_fixed (by simpa [below] using hb)
  have hl := h2 (by
    simp only [List.mem_singleton, forall_eq]
    intro x hx
    refine lt_of_lt_of_le ?_ (below_far hx)
    norm_num [below])
  obtain ⟨l', a1, -, -, a4⟩ := sphere_mesh_points (K := ⟨0, 0, 0, 0⟩) (brk := brk) (thick := thick) (tol := 1 / 200) he htn
    (by norm_num) (r := 4 / 5) (by norm_num) realEnv_ok realEnv_item (F := [rampTri]) (by simpa using hok) hst
    below_fixed (sphereLo (4 / 5) below.posA) (sphereHi (4 / 5) below.posA)
  rw [h1] at a1
  rw [Option.some.inj a1] at hl
  refine a4.2 ⟨rampTri, List.mem_singleton.2 rfl, ?_, ?_⟩ hl
  · have hbox : triBox rampTri.tri = ⟨⟨0, 0, -8⟩, ⟨10, 32 / 3, 0⟩⟩ := by
      rw [ramp_tri]
      norm_num [triBox]
    rw [hbox]
    simp only [Box.intersect, grown, sphereLo, sphereHi, below, decide_eq_true_eq, Bool.and_eq_true]
    and_intros <;> (first | exact decide_eq_true (by linarith) | linarith)
  · obtain ⟨pt, hpt, -⟩ := ramp_ghost (thick := thick) he2 ht2 hth
    rw [hpt]
    simp

end Edyn.Collide
