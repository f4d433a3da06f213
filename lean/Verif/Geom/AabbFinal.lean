import Verif.Geom.AabbMore

/-!
# Bounding boxes: tightness of moved boxes, planes, meshes and witnesses (C67)
-/

namespace Edyn.Geom

open Edyn.Math V3

/-! ## Moved boxes are tight -/

theorem transformed_touch (b : AABB) (pos : V3 ℝ) (orn : Quat ℝ) (hq : orn.lengthSqr = 1)
    (hx : b.min.x ≤ b.max.x) (hy : b.min.y ≤ b.max.y) (hz : b.min.z ≤ b.max.z) :
    let c := pos + Quat.rotate orn (smul (1/2) (b.min + b.max))
    let hh := smul (1/2) (b.max - b.min)
    let m : V3 ℝ := ⟨dot (supportBox hh (Quat.rotate orn.conjugate ex)) (Quat.rotate orn.conjugate ex),
      dot (supportBox hh (Quat.rotate orn.conjugate ey)) (Quat.rotate orn.conjugate ey),
      dot (supportBox hh (Quat.rotate orn.conjugate ez)) (Quat.rotate orn.conjugate ez)⟩
    (AABB.mk (c - m) (c + m)).Touches (Placed b.Has pos orn) := by
  intro c hh m
  have hm : ∀ d, boxSet hh (supportBox hh d) := fun d =>
    supportBox_mem (by simp only [hh, smul_x, sub_x]; linarith) (by simp only [hh, smul_y, sub_y]; linarith)
      (by simp only [hh, smul_z, sub_z]; linarith) d
  have ht := symmetric_touch _ (boxSet_neg hh) c orn hq m ⟨_, hm _, rfl⟩ ⟨_, hm _, rfl⟩ ⟨_, hm _, rfl⟩
  have conv : ∀ P : V3 ℝ → Prop, (∃ w, Placed (boxSet hh) c orn w ∧ P w) →
      ∃ w, Placed b.Has pos orn w ∧ P w := by
    rintro P ⟨w, ⟨p, hp, rfl⟩, hP⟩
    refine ⟨_, ⟨p + smul (1/2) (b.min + b.max), ?_, ?_⟩, hP⟩
    · obtain ⟨h1, h2, h3⟩ := hp
      rw [abs_le] at h1 h2 h3
      simp only [hh, smul_x, smul_y, smul_z, sub_x, sub_y, sub_z] at h1 h2 h3
      refine ⟨⟨?_, ?_⟩, ⟨?_, ?_⟩, ⟨?_, ?_⟩⟩ <;>
        simp only [smul_x, smul_y, smul_z, add_x, add_y, add_z] <;> linarith [h1.1, h1.2, h2.1, h2.2, h3.1, h3.2]
    · rw [rotate_add]
      ext <;> simp [c] <;> ring
  obtain ⟨t1, t2, t3, t4, t5, t6⟩ := ht
  exact ⟨conv _ t1, conv _ t2, conv _ t3, conv _ t4, conv _ t5, conv _ t6⟩

/-- **C67.** A box moved to world space is the smallest one around the moved points. -/
theorem aabb_to_world_touches (b : AABB) (pos : V3 ℝ) (orn : Quat ℝ) (hq : orn.lengthSqr = 1)
    (hx : b.min.x ≤ b.max.x) (hy : b.min.y ≤ b.max.y) (hz : b.min.z ≤ b.max.z) :
    (aabbToWorld b pos orn).Touches (Placed b.Has pos orn) :=
  transformed_touch b pos orn hq hx hy hz

/-- **C67.** A box moved to object space is the smallest one around the moved points. -/
theorem aabb_to_object_touches (b : AABB) (pos : V3 ℝ) (orn : Quat ℝ) (hq : orn.lengthSqr = 1)
    (hx : b.min.x ≤ b.max.x) (hy : b.min.y ≤ b.max.y) (hz : b.min.z ≤ b.max.z) :
    (aabbToObject b pos orn).Touches (fun w => b.Has (pos + Quat.rotate orn w)) := by
  have h := transformed_touch b (-Quat.rotate orn.conjugate pos) orn.conjugate (conjugate_unit hq) hx hy hz
  have hcc : orn.conjugate.conjugate = orn := by ext <;> simp [Quat.conjugate]
  rw [hcc] at h
  have e2 : -Quat.rotate orn.conjugate pos + Quat.rotate orn.conjugate (smul (1/2) (b.min + b.max)) =
      toObjectSpace (smul (1/2) (b.min + b.max)) pos orn := by
    simp only [toObjectSpace, rotate_sub]
    ext <;> simp <;> ring
  rw [e2] at h
  have conv : ∀ P : V3 ℝ → Prop,
      (∃ w, Placed b.Has (-Quat.rotate orn.conjugate pos) orn.conjugate w ∧ P w) →
      ∃ w, b.Has (pos + Quat.rotate orn w) ∧ P w := by
    rintro P ⟨w, ⟨p, hp, rfl⟩, hP⟩
    refine ⟨_, ?_, hP⟩
    have : pos + Quat.rotate orn (-Quat.rotate orn.conjugate pos + Quat.rotate orn.conjugate p) = p := by
      rw [rotate_add, rotate_neg, (rotate_conjugate orn hq pos).2, (rotate_conjugate orn hq p).2]
      ext <;> simp
    rw [this]
    exact hp
  obtain ⟨t1, t2, t3, t4, t5, t6⟩ := h
  exact ⟨conv _ t1, conv _ t2, conv _ t3, conv _ t4, conv _ t5, conv _ t6⟩

/-! ## Planes -/

/-- The full statement for planes: the box contains everything below the plane. -/
def PlaneFull : Prop :=
  ∀ (n : V3 ℝ) (c : ℝ), lengthSqr n = 1 → (planeAabb n c).Encloses (halfSpace n c)

/-- **C67, planes.** The box of a plane contains every point below the plane which is within 99999 of the
foot point of the plane along each axis. -/
theorem plane_aabb_partial (n : V3 ℝ) (c : ℝ) (w : V3 ℝ) (hw : halfSpace n c w)
    (hx : |w.x - c * n.x| ≤ 99999) (hy : |w.y - c * n.y| ≤ 99999) (hz : |w.z - c * n.z| ≤ 99999) :
    (planeAabb n c).Has w := by
  rw [abs_le] at hx hy hz
  have hh : dot n w ≤ c := hw
  unfold planeAabb
  by_cases h1 : n = ex
  · subst h1
    simp [dot, ex] at hh hx hy hz
    simp [AABB.Has, planeExtent, ex]
    refine ⟨⟨?_, ?_⟩, ⟨?_, ?_⟩, ⟨?_, ?_⟩⟩ <;> linarith [hx.1, hx.2, hy.1, hy.2, hz.1, hz.2]
  by_cases h2 : n = -ex
  · subst h2
    simp [dot, ex] at hh hx hy hz
    simp [AABB.Has, planeExtent, ex, V3.ext_iff]
    norm_num
    refine ⟨⟨?_, ?_⟩, ⟨?_, ?_⟩, ⟨?_, ?_⟩⟩ <;> linarith [hx.1, hx.2, hy.1, hy.2, hz.1, hz.2]
  by_cases h3 : n = ey
  · subst h3
    simp [dot, ey] at hh hx hy hz
    simp [AABB.Has, planeExtent, ex, ey, V3.ext_iff]
    refine ⟨⟨?_, ?_⟩, ⟨?_, ?_⟩, ⟨?_, ?_⟩⟩ <;> linarith [hx.1, hx.2, hy.1, hy.2, hz.1, hz.2]
  by_cases h4 : n = -ey
  · subst h4
    simp [dot, ey] at hh hx hy hz
    simp [AABB.Has, planeExtent, ex, ey, V3.ext_iff]
    norm_num
    refine ⟨⟨?_, ?_⟩, ⟨?_, ?_⟩, ⟨?_, ?_⟩⟩ <;> linarith [hx.1, hx.2, hy.1, hy.2, hz.1, hz.2]
  by_cases h5 : n = ez
  · subst h5
    simp [dot, ez] at hh hx hy hz
    simp [AABB.Has, planeExtent, ex, ey, ez, V3.ext_iff]
    refine ⟨⟨?_, ?_⟩, ⟨?_, ?_⟩, ⟨?_, ?_⟩⟩ <;> linarith [hx.1, hx.2, hy.1, hy.2, hz.1, hz.2]
  by_cases h6 : n = -ez
  · subst h6
    simp [dot, ez] at hh hx hy hz
    simp [AABB.Has, planeExtent, ex, ey, ez, V3.ext_iff]
    norm_num
    refine ⟨⟨?_, ?_⟩, ⟨?_, ?_⟩, ⟨?_, ?_⟩⟩ <;> linarith [hx.1, hx.2, hy.1, hy.2, hz.1, hz.2]
  simp only [h1, h2, h3, h4, h5, h6, if_false]
  simp only [AABB.Has, planeExtent, add_x, add_y, add_z, smul_x, smul_y, smul_z]
  refine ⟨⟨?_, ?_⟩, ⟨?_, ?_⟩, ⟨?_, ?_⟩⟩ <;> linarith [hx.1, hx.2, hy.1, hy.2, hz.1, hz.2]

/-- The ground plane does not reach a point of itself 100 km away. -/
theorem plane_full_refuted : ¬ PlaneFull := by
  intro h
  have := (h ey 0 ey_unit ⟨100000, 0, 0⟩ (by simp [halfSpace, dot, ey])).1.2
  simp [planeAabb, planeExtent, ex, ey, V3.ext_iff] at this
  norm_num at this

/-! ## Meshes -/

/-- **C67, meshes.** The documentation says the position of a mesh is ignored; the box is moved by it all
the same.  It contains the triangles moved by the position, and the triangles themselves if the position is
the origin. -/
theorem mesh_aabb_partial (box : AABB) (S : V3 ℝ → Prop) (hb : box.Encloses S) (pos : V3 ℝ) :
    (meshAabb box pos).Encloses (fun w => S (w - pos)) ∧ (meshAabb box 0).Encloses S := by
  constructor
  · intro w hw
    have := hb _ hw
    simp only [AABB.Has, meshAabb, sub_x, sub_y, sub_z, add_x, add_y, add_z] at *
    refine ⟨⟨?_, ?_⟩, ⟨?_, ?_⟩, ⟨?_, ?_⟩⟩ <;>
      linarith [this.1.1, this.1.2, this.2.1.1, this.2.1.2, this.2.2.1, this.2.2.2]
  · intro w hw
    have := hb _ hw
    simpa only [AABB.Has, meshAabb, add_x, add_y, add_z, zero_x, zero_y, zero_z, add_zero] using this

/-- Collisions with a mesh use its triangles where they are; with any other position than the origin the
box leaves some of them out. -/
theorem moved_mesh_left_out (box : AABB) (S : V3 ℝ → Prop) (ht : box.Touches S) (pos : V3 ℝ)
    (hp : pos ≠ 0) : ¬ (meshAabb box pos).Encloses S := by
  intro h
  apply hp
  obtain ⟨⟨_, s1, e1⟩, ⟨_, s2, e2⟩, ⟨_, s3, e3⟩, ⟨_, s4, e4⟩, ⟨_, s5, e5⟩, ⟨_, s6, e6⟩⟩ := ht
  have h1 := (h _ s1).1.1
  have h2 := (h _ s2).1.2
  have h3 := (h _ s3).2.1.1
  have h4 := (h _ s4).2.1.2
  have h5 := (h _ s5).2.2.1
  have h6 := (h _ s6).2.2.2
  simp only [meshAabb, add_x, add_y, add_z] at h1 h2 h3 h4 h5 h6
  ext
  · simp only [zero_x]; linarith
  · simp only [zero_y]; linarith
  · simp only [zero_z]; linarith

/-! ## The tolerance of cylinders -/

/-- A cylinder of radius and half length one, turned by about 0.00024 radians about the third axis. -/
noncomputable def tilted : Quat ℝ :=
  ⟨0, 0, 2 * (1/16384) / (1 + (1/16384)^2), (1 - (1/16384)^2) / (1 + (1/16384)^2)⟩

theorem tilted_unit : tilted.lengthSqr = 1 := by
  simp only [Quat.lengthSqr, tilted]; norm_num

/-- With the tolerance of single precision, the box of the slightly tilted cylinder does not contain
it. -/
theorem cylinder_full_refuted : ¬ CylinderFull (1 / 8388608) := by
  intro h
  have hp := h 1 1 .x 0 tilted (by norm_num) (by norm_num) tilted_unit (0 + Quat.rotate tilted ⟨1, -1, 0⟩)
    ⟨_, by rw [cylinderSet_iff]; simp [Axis.c0, Axis.c1, Axis.c2], rfl⟩
  have hx := hp.1.2
  rw [cylinderAabb_eq _ _ _ _ _ _ tilted_unit] at hx
  have hl : ¬ (1 / 8388608 : ℝ) < Axis.c1 .x (Quat.rotate tilted.conjugate ex) * Axis.c1 .x (Quat.rotate tilted.conjugate ex) +
      Axis.c2 .x (Quat.rotate tilted.conjugate ex) * Axis.c2 .x (Quat.rotate tilted.conjugate ex) := by
    simp [Axis.c1, Axis.c2, Quat.rotate, Quat.conjugate, tilted, ex]
    norm_num
  have hs : ¬ Axis.c0 .x (Quat.rotate tilted.conjugate ex) < 0 := by
    simp [Axis.c0, Quat.rotate, Quat.conjugate, tilted, ex]
    norm_num
  simp only [cylinderSupport, hl, hs, if_false] at hx
  simp [Axis.mk, dot, Quat.rotate, Quat.conjugate, tilted, ex] at hx
  norm_num at hx

/-! ## The hypotheses are met -/

/-- A quarter turn about the third axis in exact numbers: cosine 3/5, sine 4/5 of the half angle. -/
noncomputable def someTurn : Quat ℝ := ⟨0, 0, 4/5, 3/5⟩

example : someTurn.lengthSqr = 1 := by simp only [Quat.lengthSqr, someTurn]; norm_num

/-- The turned cylinder is clear of all three axes. -/
example : ClearOf (1 / 8388608) .x someTurn ⟨1, 0, 0⟩ ∧ ClearOf (1 / 8388608) .x someTurn ⟨0, 1, 0⟩ ∧
    ClearOf (1 / 8388608) .x someTurn ⟨0, 0, 1⟩ := by
  refine ⟨.inr ?_, .inr ?_, .inr ?_⟩ <;>
    simp [dot, Quat.rotate, someTurn, Axis.vec, ex] <;> norm_num

/-- A compound of a turned cylinder, a box and a sphere is valid. -/
example : ∀ n ∈ [⟨.cylinder 1 2 .x, 0, someTurn⟩, ⟨.box ⟨1, 2, 3⟩, ⟨4, 0, 0⟩, someTurn⟩,
    (⟨.sphere 2, ⟨0, 5, 0⟩, someTurn⟩ : Node)], n.Valid (1 / 8388608) := by
  have hq : someTurn.lengthSqr = 1 := by simp only [Quat.lengthSqr, someTurn]; norm_num
  intro n hn
  simp only [List.mem_cons, List.not_mem_nil, or_false] at hn
  rcases hn with rfl | rfl | rfl
  · refine ⟨hq, by norm_num, by norm_num, .inr ?_, .inr ?_, .inr ?_⟩ <;>
      simp [dot, Quat.rotate, someTurn, Axis.vec, ex] <;> norm_num
  · exact ⟨hq, by norm_num, by norm_num, by norm_num⟩
  · exact ⟨hq, by norm_num⟩

end Edyn.Geom
