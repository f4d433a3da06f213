import Verif.Mass.Poly

/-!
# Moment of inertia of polyhedra (C78)
-/

namespace Edyn.Mass

open Edyn.Math V3 Edyn.Geom MeasureTheory

theorem inertia_fold (ts : List Tri) (s : Sums) : ts.foldl inertiaStep s =
    { volume := s.volume + 6 * (ts.map (tetMoment (affine 1 0) (affine 1 0) 0)).sum
      xx := s.xx + 120 * (ts.map (tetMoment (affine 0 ⟨1, 0, 0⟩) (affine 0 ⟨1, 0, 0⟩) 0)).sum
      yy := s.yy + 120 * (ts.map (tetMoment (affine 0 ⟨0, 1, 0⟩) (affine 0 ⟨0, 1, 0⟩) 0)).sum
      zz := s.zz + 120 * (ts.map (tetMoment (affine 0 ⟨0, 0, 1⟩) (affine 0 ⟨0, 0, 1⟩) 0)).sum
      yz := s.yz + 120 * (ts.map (tetMoment (affine 0 ⟨0, 1, 0⟩) (affine 0 ⟨0, 0, 1⟩) 0)).sum
      zx := s.zx + 120 * (ts.map (tetMoment (affine 0 ⟨0, 0, 1⟩) (affine 0 ⟨1, 0, 0⟩) 0)).sum
      xy := s.xy + 120 * (ts.map (tetMoment (affine 0 ⟨1, 0, 0⟩) (affine 0 ⟨0, 1, 0⟩) 0)).sum } := by
  induction ts generalizing s with
  | nil => simp
  | cons t ts ih =>
    rw [List.foldl_cons, ih]
    simp only [inertiaStep, List.map_cons, List.sum_cons, Sums.mk.injEq]
    refine ⟨?_, ?_, ?_, ?_, ?_, ?_, ?_⟩ <;> simp [tetMoment, affine, det6, dot] <;> ring

/-- The matrix with the signs of all entries off the diagonal changed. -/
def mirrored (m : M3 ℝ) : M3 ℝ :=
  ⟨⟨m.r0.x, -m.r0.y, -m.r0.z⟩, ⟨-m.r1.x, m.r1.y, -m.r1.z⟩, ⟨-m.r2.x, -m.r2.y, m.r2.z⟩⟩

/-- The full property: the result is the moment of inertia of the body the mesh bounds. -/
def PolyInertiaFull : Prop :=
  ∀ (mass : ℝ) (m : Mesh) (ps : List (List (V3 ℝ))) (S : Shape), Polygons m ps → Closed ps → IsCompact (region S) →
    Bounds ps S → volumeOf S ≠ 0 → polyInertia mass m = some (inertiaOf S mass)

theorem integral_add_sq {S : Shape} (hS : IsCompact (region S)) (f g : V3 ℝ → ℝ)
    (hf : Continuous fun p : ℝ × ℝ × ℝ => f (toV p)) (hg : Continuous fun p : ℝ × ℝ × ℝ => g (toV p)) :
    integralOver S (fun p => f p * f p + g p * g p) = integralOver S (fun p => f p * f p) + integralOver S (fun p => g p * g p) := by
  unfold integralOver
  exact integral_add ((hf.mul hf).continuousOn.integrableOn_compact hS) ((hg.mul hg).continuousOn.integrableOn_compact hS)

theorem integral_neg_mul (S : Shape) (f g : V3 ℝ → ℝ) :
    integralOver S (fun p => -(f p * g p)) = -integralOver S (fun p => f p * g p) := by
  unfold integralOver
  exact integral_neg _

/-- **C78**, in part: the entries on the diagonal are right, those off the diagonal have the wrong sign. -/
theorem poly_inertia_partial (mass : ℝ) (m : Mesh) (ps : List (List (V3 ℝ))) (S : Shape) (hp : Polygons m ps)
    (hc : Closed ps) (hS : IsCompact (region S)) (hb : Bounds ps S) :
    polyInertia mass m = some (mirrored (inertiaOf S mass)) := by
  have hm := hS.measurableSet
  have hx : Continuous fun p : ℝ × ℝ × ℝ => (toV p).x := by unfold toV; fun_prop
  have hy : Continuous fun p : ℝ × ℝ × ℝ => (toV p).y := by unfold toV; fun_prop
  have hz : Continuous fun p : ℝ × ℝ × ℝ => (toV p).z := by unfold toV; fun_prop
  have h1 := bounds_integral hm hc hb 1 1 0 0
  have hxx := bounds_integral hm hc hb 0 0 ⟨1, 0, 0⟩ ⟨1, 0, 0⟩
  have hyy := bounds_integral hm hc hb 0 0 ⟨0, 1, 0⟩ ⟨0, 1, 0⟩
  have hzz := bounds_integral hm hc hb 0 0 ⟨0, 0, 1⟩ ⟨0, 0, 1⟩
  have hyz := bounds_integral hm hc hb 0 0 ⟨0, 1, 0⟩ ⟨0, 0, 1⟩
  have hzx := bounds_integral hm hc hb 0 0 ⟨0, 0, 1⟩ ⟨1, 0, 0⟩
  have hxy := bounds_integral hm hc hb 0 0 ⟨1, 0, 0⟩ ⟨0, 1, 0⟩
  rw [polyInertia, triangles_eq m ps hp]
  simp only [Option.map_some]
  rw [inertia_fold]
  simp only [zero_add, ← h1, ← hxx, ← hyy, ← hzz, ← hyz, ← hzx, ← hxy]
  congr 1
  simp only [mirrored, inertiaOf, volumeOf]
  rw [integral_add_sq hS _ _ hy hz, integral_add_sq hS _ _ hz hx, integral_add_sq hS _ _ hx hy,
    integral_neg_mul, integral_neg_mul, integral_neg_mul, integral_neg_mul, integral_neg_mul, integral_neg_mul]
  have c1 : (fun p : V3 ℝ => p.x * p.z) = fun p => p.z * p.x := by funext p; ring
  have c2 : (fun p : V3 ℝ => p.y * p.x) = fun p => p.x * p.y := by funext p; ring
  have c3 : (fun p : V3 ℝ => p.z * p.y) = fun p => p.y * p.z := by funext p; ring
  rw [c1, c2, c3]
  simp [affine]
  generalize integralOver S (fun _ => 1) = v
  by_cases hv : v = 0
  · subst hv
    simp
  · refine ⟨⟨?_, ?_, ?_⟩, ⟨?_, ?_, ?_⟩, ⟨?_, ?_, ?_⟩⟩ <;> field_simp <;> ring

/-! ## A tetrahedron -/

/-- A tetrahedron with its centroid at the origin. -/
noncomputable def tetMesh : Mesh where
  vertices := [⟨-1, -1, -1⟩, ⟨3, -1, -1⟩, ⟨-1, 3, -1⟩, ⟨-1, -1, 3⟩]
  indices := [0, 2, 1, 0, 1, 3, 0, 3, 2, 1, 2, 3]
  faces := [(0, 3), (3, 3), (6, 3), (9, 3)]

/-- Its faces. -/
noncomputable def tetFaces : List (List (V3 ℝ)) :=
  [[⟨-1, -1, -1⟩, ⟨-1, 3, -1⟩, ⟨3, -1, -1⟩], [⟨-1, -1, -1⟩, ⟨3, -1, -1⟩, ⟨-1, -1, 3⟩],
   [⟨-1, -1, -1⟩, ⟨-1, -1, 3⟩, ⟨-1, 3, -1⟩], [⟨3, -1, -1⟩, ⟨-1, 3, -1⟩, ⟨-1, -1, 3⟩]]

/-- The set it fills. -/
noncomputable def tetSolid : Shape := Tet ⟨-1, -1, -1⟩ ⟨3, -1, -1⟩ ⟨-1, 3, -1⟩ ⟨-1, -1, 3⟩

theorem tet_polygons : Polygons tetMesh tetFaces := by
  unfold Polygons tetMesh tetFaces
  refine .cons ?_ (.cons ?_ (.cons ?_ (.cons ?_ .nil))) <;> refine ⟨by norm_num, rfl, ?_⟩ <;> intro k hk <;>
    simp only [] at hk <;> interval_cases k <;> rfl

theorem tet_closed : Closed tetFaces := by
  unfold Closed
  simp only [tetFaces, List.flatMap_cons, List.flatMap_nil, sides, sidesFrom, List.cons_append, List.nil_append,
    List.map_cons, List.map_nil, Prod.swap_prod_mk]
  generalize (⟨-1, -1, -1⟩ : V3 ℝ) = a
  generalize (⟨3, -1, -1⟩ : V3 ℝ) = b
  generalize (⟨-1, 3, -1⟩ : V3 ℝ) = c
  generalize (⟨-1, -1, 3⟩ : V3 ℝ) = d
  classical
  rw [List.perm_iff_count]
  intro e
  simp only [List.count_cons, List.count_nil]
  ring

theorem tet_bounds : Bounds tetFaces tetSolid := by
  refine ⟨⟨-1, -1, -1⟩, Filter.Eventually.of_forall ?_⟩
  intro p
  have h1 : det6 ⟨-1, -1, -1⟩ ⟨-1, -1, -1⟩ ⟨-1, 3, -1⟩ ⟨3, -1, -1⟩ = 0 := by norm_num [det6, dot]
  have h2 : det6 ⟨-1, -1, -1⟩ ⟨-1, -1, -1⟩ ⟨3, -1, -1⟩ ⟨-1, -1, 3⟩ = 0 := by norm_num [det6, dot]
  have h3 : det6 ⟨-1, -1, -1⟩ ⟨-1, -1, -1⟩ ⟨-1, -1, 3⟩ ⟨-1, 3, -1⟩ = 0 := by norm_num [det6, dot]
  have h4 : det6 ⟨-1, -1, -1⟩ ⟨3, -1, -1⟩ ⟨-1, 3, -1⟩ ⟨-1, -1, 3⟩ = 64 := by norm_num [det6, dot]
  simp only [tetFaces, List.flatMap_cons, List.flatMap_nil, fanOf, fanFrom, List.cons_append, List.nil_append,
    List.map_cons, List.map_nil, List.sum_cons, List.sum_nil, h1, h2, h3, h4, sign_zero, tetSolid]
  rw [sign_pos (by norm_num : (0 : ℝ) < 64)]
  simp
  congr

theorem tet_volume : volumeOf tetSolid = 32 / 3 := by
  have h := mesh_volume_spec tetMesh tetFaces tetSolid tet_polygons tet_closed (tet_compact _ _ _ _).measurableSet tet_bounds
  rw [volume_sum tet_polygons, Option.some.injEq] at h
  rw [← h]
  simp [tetFaces, fanOf, fanFrom, tetMoment, det6, dot, affine]
  norm_num

/-- The mesh of a tetrahedron meets the hypotheses. -/
example : meshVolume tetMesh = some (32 / 3) ∧ meshCentroid tetMesh = some 0 := by
  constructor
  · rw [mesh_volume_spec tetMesh tetFaces tetSolid tet_polygons tet_closed (tet_compact _ _ _ _).measurableSet tet_bounds,
      tet_volume]
  · rw [centroid_sum tet_polygons tet_closed]
    congr 1
    ext <;> simp [moment, tetFaces, fanOf, fanFrom, tetMoment, det6, dot, affine] <;> norm_num

/-- **C78** does not hold: the products of inertia of this tetrahedron, whose centroid is at the origin, have the wrong
sign. -/
theorem poly_inertia_refuted : ¬ PolyInertiaFull := by
  intro h
  have h1 := h 1 tetMesh tetFaces tetSolid tet_polygons tet_closed (tet_compact _ _ _ _) tet_bounds
    (by rw [tet_volume]; norm_num)
  have h2 := poly_inertia_partial 1 tetMesh tetFaces tetSolid tet_polygons tet_closed (tet_compact _ _ _ _) tet_bounds
  have h3 : ∃ I, polyInertia 1 tetMesh = some I ∧ I.r0.y ≠ 0 := by
    rw [polyInertia, triangles_eq _ _ tet_polygons]
    refine ⟨_, rfl, ?_⟩
    simp only [tetFaces, List.flatMap_cons, List.flatMap_nil, fanOf, fanFrom, List.cons_append, List.nil_append,
      List.foldl_cons, List.foldl_nil, inertiaStep]
    norm_num [dot]
  obtain ⟨I, e, hI⟩ := h3
  rw [e, Option.some.injEq] at h1 h2
  rw [h1] at h2 hI
  have : (inertiaOf tetSolid 1).r0.y = -(inertiaOf tetSolid 1).r0.y := congrArg (fun m : M3 ℝ => m.r0.y) h2
  exact hI (by linarith)

/-! ## The mesh of a box -/

/-- The faces of `boxMesh`. -/
noncomputable def boxFaces (h : V3 ℝ) : List (List (V3 ℝ)) :=
  [[⟨-h.x, -h.y, -h.z⟩, ⟨h.x, -h.y, -h.z⟩, ⟨h.x, -h.y, h.z⟩, ⟨-h.x, -h.y, h.z⟩],
   [⟨-h.x, h.y, h.z⟩, ⟨h.x, h.y, h.z⟩, ⟨h.x, h.y, -h.z⟩, ⟨-h.x, h.y, -h.z⟩],
   [⟨-h.x, h.y, -h.z⟩, ⟨h.x, h.y, -h.z⟩, ⟨h.x, -h.y, -h.z⟩, ⟨-h.x, -h.y, -h.z⟩],
   [⟨h.x, h.y, h.z⟩, ⟨-h.x, h.y, h.z⟩, ⟨-h.x, -h.y, h.z⟩, ⟨h.x, -h.y, h.z⟩],
   [⟨-h.x, h.y, h.z⟩, ⟨-h.x, h.y, -h.z⟩, ⟨-h.x, -h.y, -h.z⟩, ⟨-h.x, -h.y, h.z⟩],
   [⟨h.x, h.y, -h.z⟩, ⟨h.x, h.y, h.z⟩, ⟨h.x, -h.y, h.z⟩, ⟨h.x, -h.y, -h.z⟩]]

theorem box_polygons (h : V3 ℝ) : Polygons (boxMesh h) (boxFaces h) := by
  unfold Polygons boxMesh boxFaces
  refine .cons ?_ (.cons ?_ (.cons ?_ (.cons ?_ (.cons ?_ (.cons ?_ .nil))))) <;> refine ⟨by norm_num, rfl, ?_⟩ <;>
    intro k hk <;> simp only [] at hk <;> interval_cases k <;> rfl

theorem box_closed (h : V3 ℝ) : Closed (boxFaces h) := by
  unfold Closed
  simp only [boxFaces, List.flatMap_cons, List.flatMap_nil, sides, sidesFrom, List.cons_append, List.nil_append,
    List.map_cons, List.map_nil, Prod.swap_prod_mk]
  generalize (⟨-h.x, -h.y, -h.z⟩ : V3 ℝ) = a
  generalize (⟨h.x, -h.y, -h.z⟩ : V3 ℝ) = b
  generalize (⟨h.x, -h.y, h.z⟩ : V3 ℝ) = c
  generalize (⟨-h.x, -h.y, h.z⟩ : V3 ℝ) = d
  generalize (⟨-h.x, h.y, -h.z⟩ : V3 ℝ) = a'
  generalize (⟨h.x, h.y, -h.z⟩ : V3 ℝ) = b'
  generalize (⟨h.x, h.y, h.z⟩ : V3 ℝ) = c'
  generalize (⟨-h.x, h.y, h.z⟩ : V3 ℝ) = d'
  classical
  rw [List.perm_iff_count]
  intro e
  simp only [List.count_cons, List.count_nil]
  ring

/-- **C76**: the mesh made for a box has the volume of the box, its centroid is the centre, and the moment of inertia
computed from it is that of the box. -/
theorem box_mesh_mass (h : V3 ℝ) (hx : 0 < h.x) (hy : 0 < h.y) (hz : 0 < h.z) (mass : ℝ) :
    meshVolume (boxMesh h) = some (2 * h.x * (2 * h.y) * (2 * h.z)) ∧ meshCentroid (boxMesh h) = some 0 ∧
    polyInertia mass (boxMesh h) = some (M3.diagonal
      ⟨mass / 12 * ((2 * h.y) ^ 2 + (2 * h.z) ^ 2), mass / 12 * ((2 * h.z) ^ 2 + (2 * h.x) ^ 2),
       mass / 12 * ((2 * h.x) ^ 2 + (2 * h.y) ^ 2)⟩) := by
  refine ⟨?_, ?_, ?_⟩
  · rw [volume_sum (box_polygons h)]
    congr 1
    simp [boxFaces, fanOf, fanFrom, tetMoment, det6, dot, affine]
    ring
  · rw [centroid_sum (box_polygons h) (box_closed h)]
    congr 1
    ext
    · simp [moment, boxFaces, fanOf, fanFrom, tetMoment, det6, dot, affine]
      right
      ring
    · simp [moment, boxFaces, fanOf, fanFrom, tetMoment, det6, dot, affine]
      right
      ring
    · simp [moment, boxFaces, fanOf, fanFrom, tetMoment, det6, dot, affine]
      right
      ring
  · rw [polyInertia, triangles_eq _ _ (box_polygons h)]
    simp only [Option.map_some]
    congr 1
    rw [inertia_fold]
    have e0 : moment (affine 1 0) (affine 1 0) (boxFaces h) = 8 * h.x * h.y * h.z := by
      simp [moment, boxFaces, fanOf, fanFrom, tetMoment, det6, dot, affine]
      ring
    have e1 : moment (affine 0 ⟨1, 0, 0⟩) (affine 0 ⟨1, 0, 0⟩) (boxFaces h) = 8 / 3 * h.x ^ 3 * h.y * h.z := by
      simp [moment, boxFaces, fanOf, fanFrom, tetMoment, det6, dot, affine]
      ring
    have e2 : moment (affine 0 ⟨0, 1, 0⟩) (affine 0 ⟨0, 1, 0⟩) (boxFaces h) = 8 / 3 * h.x * h.y ^ 3 * h.z := by
      simp [moment, boxFaces, fanOf, fanFrom, tetMoment, det6, dot, affine]
      ring
    have e3 : moment (affine 0 ⟨0, 0, 1⟩) (affine 0 ⟨0, 0, 1⟩) (boxFaces h) = 8 / 3 * h.x * h.y * h.z ^ 3 := by
      simp [moment, boxFaces, fanOf, fanFrom, tetMoment, det6, dot, affine]
      ring
    have e4 : moment (affine 0 ⟨0, 1, 0⟩) (affine 0 ⟨0, 0, 1⟩) (boxFaces h) = 0 := by
      simp [moment, boxFaces, fanOf, fanFrom, tetMoment, det6, dot, affine]
      ring
    have e5 : moment (affine 0 ⟨0, 0, 1⟩) (affine 0 ⟨1, 0, 0⟩) (boxFaces h) = 0 := by
      simp [moment, boxFaces, fanOf, fanFrom, tetMoment, det6, dot, affine]
      ring
    have e6 : moment (affine 0 ⟨1, 0, 0⟩) (affine 0 ⟨0, 1, 0⟩) (boxFaces h) = 0 := by
      simp [moment, boxFaces, fanOf, fanFrom, tetMoment, det6, dot, affine]
      ring
    unfold moment at e0 e1 e2 e3 e4 e5 e6
    simp only [e0, e1, e2, e3, e4, e5, e6, M3.diagonal]
    ext <;> simp only [mul_zero, add_zero, zero_mul, zero_add] <;> field_simp <;> ring

end Edyn.Mass
