import Verif.Collide.BoxContacts

/-!
# Penetrating boxes without a contact point (C87)

A beam lies with one of its edges exactly along a diagonal of a plate and is longer than that.  The line through the
corners is not cut by the border of the plate (`line_aabb_refuted`), so no point is reported.
-/

namespace Edyn.Collide

open Edyn.Math hiding lengthSqr_nonneg
open V3 Edyn.Geom Edyn.Contact

/-- The full statement: boxes which meet get at least one contact point. -/
def BoxContactFull (eps tol : ℝ) (K : Consts ℝ) : Prop :=
  ∀ (hA hB : V3 ℝ) (c : Ctx), Sized tol hA → Sized tol hB → c.Ok → Meet (c.boxA hA) (c.boxB hB) →
    ∃ l, boxBox eps tol K hA hB c = some l ∧ l ≠ []

/-- A plate of 1.4 m by 2 m by 4.8 m, and a beam of 6 m by 0.56 m by 1.92 m with an edge along the diagonal of the plate,
10 cm deep. -/
noncomputable def beamCtx : Ctx :=
  ⟨0, ⟨0, 0, 0, 1⟩, ⟨0, 19 / 10, 0⟩, ⟨12 / 25, 12 / 25, -9 / 25, 16 / 25⟩, 1 / 50⟩

noncomputable def plate : V3 ℝ := ⟨7 / 10, 1, 24 / 10⟩
noncomputable def beam : V3 ℝ := ⟨3, 7 / 25, 24 / 25⟩

theorem beam_ok : beamCtx.Ok := by
  refine ⟨?_, ?_, ?_⟩ <;> norm_num [beamCtx, Quat.lengthSqr]

theorem beam_A (v : V3 ℝ) : Quat.rotate beamCtx.ornA v = v := by
  ext <;> simp [beamCtx, Quat.rotate, cross, dot, smul]

theorem beam_B (v : V3 ℝ) : Quat.rotate beamCtx.ornB v =
    ⟨7 / 25 * v.x + 576 / 625 * v.y + 168 / 625 * v.z, 7 / 25 * v.y - 24 / 25 * v.z,
      -(24 / 25) * v.x + 168 / 625 * v.y + 49 / 625 * v.z⟩ := by
  ext <;> simp [beamCtx, Quat.rotate, cross, dot, smul] <;> ring

theorem beam_gap (u : V3 ℝ) (hu : lengthSqr u = 1) :
    gap plate beam beamCtx u ≤ -(1 / 10) ∧ (gap plate beam beamCtx u = -(1 / 10) → u.x = 0 ∧ u.z = 0) := by
  have e : gap plate beam beamCtx u = |19 / 10 * u.y| - (7 / 10 * |u.x| + |u.y| + 24 / 10 * |u.z|)
      - (3 * |7 / 25 * u.x - 24 / 25 * u.z| + 7 / 25 * |576 / 625 * u.x + 7 / 25 * u.y + 168 / 625 * u.z|
        + 24 / 25 * |168 / 625 * u.x - 24 / 25 * u.y + 49 / 625 * u.z|) := by
    unfold gap
    rw [ext1_eq beam_ok.1, ext1_eq beam_ok.2.1, beam_A, beam_A, beam_A, beam_B, beam_B, beam_B]
    simp only [dot, plate, beam, beamCtx, V3.sub_x, V3.sub_y, V3.sub_z, V3.zero_x, V3.zero_y, V3.zero_z, ex, ey, ez]
    rw [show (0 - 0) * u.x + (0 - 19 / 10) * u.y + (0 - 0) * u.z = -(19 / 10 * u.y) by ring, abs_neg]
    norm_num
    simp only [sub_eq_add_neg]
  have q1 : |u.x| * |u.x| + |u.y| * |u.y| + |u.z| * |u.z| = 1 := by
    rw [abs_mul_abs_self, abs_mul_abs_self, abs_mul_abs_self]; exact hu
  have x0 := abs_nonneg u.x
  have y0 := abs_nonneg u.y
  have z0 := abs_nonneg u.z
  have s : |u.y| ≤ 7 / 25 * |576 / 625 * u.x + 7 / 25 * u.y + 168 / 625 * u.z|
        + 24 / 25 * |168 / 625 * u.x - 24 / 25 * u.y + 49 / 625 * u.z| := by
    have a := abs_add_le (7 / 25 * (576 / 625 * u.x + 7 / 25 * u.y + 168 / 625 * u.z)) (-(24 / 25 * (168 / 625 * u.x - 24 / 25 * u.y + 49 / 625 * u.z)))
    rw [abs_neg, abs_mul, abs_mul, abs_of_pos (by norm_num : (0 : ℝ) < 7 / 25), abs_of_pos (by norm_num : (0 : ℝ) < 24 / 25)] at a
    have e1 : 7 / 25 * (576 / 625 * u.x + 7 / 25 * u.y + 168 / 625 * u.z) + -(24 / 25 * (168 / 625 * u.x - 24 / 25 * u.y + 49 / 625 * u.z))
        = u.y := by ring
    rwa [e1] at a
  have g0 := abs_nonneg (7 / 25 * u.x - 24 / 25 * u.z)
  have ey' : |19 / 10 * u.y| = 19 / 10 * |u.y| := by rw [abs_mul, abs_of_pos (by norm_num : (0 : ℝ) < 19 / 10)]
  have sum : 1 ≤ |u.x| + |u.y| + |u.z| := by nlinarith [mul_nonneg x0 y0, mul_nonneg y0 z0, mul_nonneg x0 z0]
  rw [e, ey']
  refine ⟨by linarith, fun h => ?_⟩
  constructor
  · apply abs_eq_zero.1; linarith
  · apply abs_eq_zero.1; linarith

theorem beam_axis {eps : ℝ} (he : 0 ≤ eps) : boxBoxAxis eps plate beam beamCtx = some (-(1 / 10), ⟨0, -1, 0⟩) := by
  obtain ⟨x, n, h1, -, ⟨hu, hx, hd⟩, hA, -⟩ := axis_found he plate beam beam_ok
  simp only at hu hx hd
  obtain ⟨g1, g2⟩ := beam_gap n hu
  have hy := hA ey (by simp)
  rw [beam_A] at hy
  have e : gap plate beam beamCtx ey = -(1 / 10) := by
    unfold gap
    rw [ext1_eq beam_ok.1, ext1_eq beam_ok.2.1, beam_A, beam_A, beam_A, beam_B, beam_B, beam_B]
    simp only [dot, plate, beam, beamCtx, V3.sub_x, V3.sub_y, V3.sub_z, V3.zero_x, V3.zero_y, V3.zero_z, ex, ey, ez]
    norm_num [abs_of_pos, abs_of_neg]
  rw [e] at hy
  have ex' : x = -(1 / 10) := by linarith
  obtain ⟨nx, nz⟩ := g2 (by linarith)
  have ny : n.y = -1 := by
    simp only [lengthSqr, dot, nx, nz] at hu
    simp only [beamCtx, dot, V3.sub_x, V3.sub_y, V3.sub_z, V3.zero_x, V3.zero_y, V3.zero_z, nx, nz] at hd
    nlinarith
  have en : n = ⟨0, -1, 0⟩ := by ext <;> simp [nx, ny, nz]
  rw [h1, ex', en]

theorem plate_feature {tol : ℝ} (ht : 0 < tol) : ∃ j, boxSupportFeatureAt plate beamCtx.posA beamCtx.ornA 0 (-(⟨0, -1, 0⟩ : V3 ℝ)) tol
    = some (.face, 2, j) := by
  have er : Quat.rotate beamCtx.ornA.conjugate (-(⟨0, -1, 0⟩ : V3 ℝ)) = ⟨0, 1, 0⟩ := by
    ext <;> simp [beamCtx, Quat.rotate, Quat.conjugate, cross, dot, smul]
  have hf : boxSupportFace ⟨0, 1, 0⟩ = 2 := by norm_num [boxSupportFace]
  have hb := boxBest_zero (p := ![(1 : ℝ), 1, 1, 1]) (by simp) (by simp) (by simp)
  have hs : boxSelect ![(1 : ℝ), 1, 1, 1] tol = .face := boxSelect_face hb (by simpa) (by simpa) (by simpa)
  unfold boxSupportFeatureAt
  rw [er]
  unfold boxSupportFeature
  simp only [hf, boxFaceVertex, boxFaces, boxVertex, List.getElem?_cons_succ, List.getElem?_cons_zero, Option.map_some,
        Option.bind_some, Matrix.cons_val_zero, Matrix.cons_val_one, Matrix.cons_val]
  simp [dot, plate, hs]

theorem beam_feature {tol : ℝ} (ht : 0 < tol) (ht1 : tol ≤ 1 / 10) :
    ∃ j, boxSupportFeatureAt beam beamCtx.posB beamCtx.ornB 0 ⟨0, -1, 0⟩ tol = some (.edge, 9, j) := by
  have er : Quat.rotate beamCtx.ornB.conjugate (⟨0, -1, 0⟩ : V3 ℝ) = ⟨0, -7 / 25, 24 / 25⟩ := by
    ext <;> norm_num [beamCtx, Quat.rotate, Quat.conjugate, cross, dot, smul]
  have hf : boxSupportFace ⟨0, -7 / 25, 24 / 25⟩ = 4 := by norm_num [boxSupportFace, abs_of_pos, abs_of_neg]
  have hb : boxBest ![(527 / 625 : ℝ), 527 / 625, 1, 1] = 2 := by
    have a2 : ![(527 / 625 : ℝ), 527 / 625, 1, 1] 2 = 1 := rfl
    have a3 : ![(527 / 625 : ℝ), 527 / 625, 1, 1] 3 = 1 := rfl
    norm_num [boxBest, a2, a3]
  have hs : boxSelect ![(527 / 625 : ℝ), 527 / 625, 1, 1] tol = .edge 2 3 := by
    unfold boxSelect
    have k : ¬ 1 - tol < (527 / 625 : ℝ) := by linarith
    simp [hb, List.filter_cons, k, ht]
  unfold boxSupportFeatureAt
  rw [er]
  unfold boxSupportFeature
  simp only [hf, boxFaceVertex, boxFaces, boxVertex, List.getElem?_cons_succ, List.getElem?_cons_zero, Option.map_some,
        Option.bind_some, Matrix.cons_val_zero, Matrix.cons_val_one, Matrix.cons_val]
  have e : (![dot (⟨beam.x, beam.y, beam.z⟩ : V3 ℝ) ⟨0, -7 / 25, 24 / 25⟩, dot (⟨-beam.x, beam.y, beam.z⟩ : V3 ℝ) ⟨0, -7 / 25, 24 / 25⟩,
      dot (⟨-beam.x, -beam.y, beam.z⟩ : V3 ℝ) ⟨0, -7 / 25, 24 / 25⟩, dot (⟨beam.x, -beam.y, beam.z⟩ : V3 ℝ) ⟨0, -7 / 25, 24 / 25⟩] : Fin 4 → ℝ)
      = ![(527 / 625 : ℝ), 527 / 625, 1, 1] := by
    funext k; fin_cases k <;> norm_num [dot, beam]
  rw [e, hs]
  have ei : boxEdgeIndex (![0, 4, 7, 1] 2) (![0, 4, 7, 1] 3) = some 9 := by decide
  simp only [ei, Option.map_some]
  exact ⟨_, rfl⟩

theorem beam_missed {eps tol : ℝ} (he : 0 < eps) (he1 : eps ≤ 1 / 10) (ht : 0 < tol) (ht1 : tol ≤ 1 / 10) (K : Consts ℝ) :
    boxBox eps tol K plate beam beamCtx = some [] := by
  unfold boxBox
  rw [beam_axis he.le, Option.bind_some]
  simp only
  rw [if_neg (by norm_num [beamCtx])]
  obtain ⟨jA, fA⟩ := plate_feature ht
  obtain ⟨jB, fB⟩ := beam_feature ht ht1
  rw [fA, fB, Option.bind_some, Option.bind_some]
  simp only
  obtain ⟨F, f1, f2, f3, f4⟩ := faceAt_spec (h := plate) (by norm_num [PosExt, plate]) (i := 2) (by norm_num) beamCtx.posA beam_ok.1
  have fx : F.center = ⟨0, 1, 0⟩ ∧ F.x = ⟨1, 0, 0⟩ ∧ F.z = ⟨0, 0, 1⟩ ∧ F.hx = 7 / 10 ∧ F.hz = 24 / 10 := by
    unfold faceAt at f1
    simp only [boxFace, boxFaces, boxVertex, boxNormal, boxFaceCenter, boxBasis, boxTangent, boxFaceHalf, List.getElem?_cons_succ,
      List.getElem?_cons_zero, Option.map_some, Option.bind_some, beam_A, Option.some.injEq] at f1
    rw [← f1]
    norm_num [plate, beamCtx, cross, V3.ext_iff]
  have eE : edgeAt beam 9 beamCtx.posB beamCtx.ornB = some (⟨21 / 25, 9 / 10, -72 / 25⟩, ⟨-21 / 25, 9 / 10, 72 / 25⟩) := by
    unfold edgeAt
    simp only [boxEdge, boxEdges, boxVertex, List.getElem?_cons_succ, List.getElem?_cons_zero, Option.map_some, Option.bind_some]
    simp only [toWorldSpace, beam_B]
    norm_num [beam, beamCtx, V3.ext_iff]
  rw [f1, eE, Option.bind_some, Option.bind_some]
  obtain ⟨c1, c2, c3, c4, c5⟩ := fx
  have o1 : ¬ F.Over eps ⟨21 / 25, 9 / 10, -72 / 25⟩ := by
    unfold FaceAt.Over
    rw [c1, c2, c3, c4, c5]
    norm_num [dot, abs_of_pos, abs_of_neg]
    linarith
  have o2 : ¬ F.Over eps ⟨-21 / 25, 9 / 10, 72 / 25⟩ := by
    unfold FaceAt.Over
    rw [c1, c2, c3, c4, c5]
    norm_num [dot, abs_of_pos, abs_of_neg]
    linarith
  obtain ⟨P, p1, p2⟩ := f2.inside eps ⟨21 / 25, 9 / 10, -72 / 25⟩
  obtain ⟨Q, q1, q2⟩ := f2.inside eps ⟨-21 / 25, 9 / 10, 72 / 25⟩
  have nP : ¬ P := fun h => o1 (p2.1 h)
  have nQ : ¬ Q := fun h => o2 (q2.1 h)
  unfold faceEdge addInside
  simp only [List.foldlM_cons, List.foldlM_nil, p1, q1, Option.bind_some, if_neg nP, if_neg nQ, Option.bind_eq_bind, Option.pure_def]
  rw [if_pos (by simp)]
  have ce : F.cuts eps ⟨21 / 25, 9 / 10, -72 / 25⟩ ⟨-21 / 25, 9 / 10, 72 / 25⟩ = [] := by
    have k0 : F.flat ⟨21 / 25, 9 / 10, -72 / 25⟩ = ⟨21 / 25, -72 / 25⟩ := by
      unfold FaceAt.flat; rw [c1, c2, c3]; norm_num [dot]
    have k1 : F.flat ⟨-21 / 25, 9 / 10, 72 / 25⟩ = ⟨-21 / 25, 72 / 25⟩ := by
      unfold FaceAt.flat; rw [c1, c2, c3]; norm_num [dot]
    unfold FaceAt.cuts
    rw [k0, k1, c4, c5]
    have b1 : ¬ |(-21 / 25 - 21 / 25 : ℝ)| < eps := by norm_num [abs_of_neg]; linarith
    have b2 : ¬ |(72 / 25 - -72 / 25 : ℝ)| < eps := by norm_num [abs_of_pos]; linarith
    unfold lineAabb
    simp only [sub2, if_neg b1, if_neg b2]
    norm_num
  unfold FaceAt.cuts at ce
  unfold addCross
  rw [ce]
  rfl

theorem beam_meets : Meet (beamCtx.boxA plate) (beamCtx.boxB beam) := by
  refine ⟨⟨0, 9 / 10, 0⟩, ⟨⟨0, 9 / 10, 0⟩, ?_, ?_⟩, ⟨⟨0, -7 / 25, 24 / 25⟩, ?_, ?_⟩⟩
  · norm_num [boxSet, plate, abs_of_pos]
  · rw [beam_A]; norm_num [beamCtx, V3.ext_iff]
  · norm_num [boxSet, beam, abs_of_pos, abs_of_neg]
  · rw [beam_B]; norm_num [beamCtx, V3.ext_iff]

/-- **C87, refuted.** Boxes 10 cm deep in each other without a contact point. -/
theorem box_box_contact_refuted {eps tol : ℝ} (he : 0 < eps) (he1 : eps ≤ 1 / 10) (ht : 0 < tol) (ht1 : tol ≤ 1 / 10) (K : Consts ℝ) :
    ¬ BoxContactFull eps tol K := by
  intro h
  obtain ⟨l, h1, h2⟩ := h plate beam beamCtx (by norm_num [Sized, plate]; refine ⟨?_, ?_, ?_⟩ <;> linarith)
    (by norm_num [Sized, beam]; refine ⟨?_, ?_, ?_⟩ <;> linarith) beam_ok beam_meets
  rw [beam_missed he he1 ht ht1] at h1
  cases h1
  exact h2 rfl

end Edyn.Collide
