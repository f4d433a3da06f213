import Verif.Geom.AabbFinal

/-!
# Support points and support projections (C69)

`src/edyn/util/shape_util.cpp`, `include/edyn/util/shape_util.hpp`, `src/edyn/shapes/box_shape.cpp`,
`src/edyn/shapes/cylinder_shape.cpp`, `src/edyn/math/geom.cpp`, `src/edyn/shapes/convex_mesh.cpp`.  Scalars
are exact reals.
-/

namespace Edyn.Geom

open Edyn.Math V3

/-! ## Specification -/

/-- `p` is a point of the set and no point of the set is further along `d`. -/
def IsSupport (S : V3 ℝ → Prop) (d p : V3 ℝ) : Prop := S p ∧ ∀ w, S w → dot w d ≤ dot p d

/-- `x` is the largest projection of a point of the set on `d`. -/
def IsProjection (S : V3 ℝ → Prop) (d : V3 ℝ) (x : ℝ) : Prop := (∃ p, S p ∧ dot p d = x) ∧ ∀ w, S w → dot w d ≤ x

/-- All points within the radius of the segment between `v0` and `v1`. -/
def tubeSet (v0 v1 : V3 ℝ) (r : ℝ) : V3 ℝ → Prop :=
  fun p => ∃ t, 0 ≤ t ∧ t ≤ 1 ∧ lengthSqr (p - (v0 + smul t (v1 - v0))) ≤ r * r

/-! ## Model -/

/-- `box_shape::support_point`, `box_shape.cpp` 14-22. -/
noncomputable def boxSupport (h pos : V3 ℝ) (orn : Quat ℝ) (dir : V3 ℝ) : V3 ℝ :=
  pos + Quat.rotate orn (supportBox h (Quat.rotate orn.conjugate dir))

/-- `box_shape::support_projection`, `box_shape.cpp` 24-28. -/
noncomputable def boxProjection (h pos : V3 ℝ) (orn : Quat ℝ) (dir : V3 ℝ) : ℝ :=
  let local_dir := Quat.rotate orn.conjugate dir
  dot pos dir + dot (supportBox h local_dir) local_dir

/-- `cylinder_support_point` with a placement, `shape_util.cpp` 339-342. -/
noncomputable def cylinderSupportAt (eps r hl : ℝ) (a : Axis) (pos : V3 ℝ) (orn : Quat ℝ) (dir : V3 ℝ) : V3 ℝ :=
  pos + cylinderSupportRot eps r hl a orn dir

/-- `cylinder_support_projection`, `shape_util.cpp` 344-349. -/
noncomputable def cylinderProjection (eps r hl : ℝ) (a : Axis) (pos : V3 ℝ) (orn : Quat ℝ) (dir : V3 ℝ) : ℝ :=
  let local_dir := Quat.rotate orn.conjugate dir
  dot pos dir + dot (cylinderSupport eps r hl a local_dir) local_dir

/-- `capsule_support_projection`, `shape_util.cpp` 297-300. -/
noncomputable def capsuleProjection (v0 v1 : V3 ℝ) (r : ℝ) (dir : V3 ℝ) : ℝ := max (dot v0 dir) (dot v1 dir) + r

/-- `support_point_circle`, `geom.cpp` 772-798. -/
noncomputable def circleSupport (eps : ℝ) (pos : V3 ℝ) (orn : Quat ℝ) (r : ℝ) (a : Axis) (dir : V3 ℝ) : V3 ℝ :=
  let ld := Quat.rotate orn.conjugate dir
  let l2 := a.c1 ld * a.c1 ld + a.c2 ld * a.c2 ld
  let sup :=
    if eps < l2 then
      let d := r / Real.sqrt l2
      a.mk 0 (a.c1 ld * d) (a.c2 ld * d)
    else a.mk 0 r 0
  pos + Quat.rotate orn sup

/-- `point_cloud_support_point`, `shape_util.hpp` 94-110; `big` is `EDYN_SCALAR_MAX`. -/
noncomputable def cloudSupport (big : ℝ) (pts : List (V3 ℝ)) (dir : V3 ℝ) : V3 ℝ :=
  (pts.foldl (fun (s : V3 ℝ × ℝ) p => if s.2 < dot p dir then (p, dot p dir) else s) (0, -big)).1

/-- `point_cloud_support_projection`, `shape_util.hpp` 139-150. -/
noncomputable def cloudProjection (big : ℝ) (pts : List (V3 ℝ)) (dir : V3 ℝ) : ℝ :=
  pts.foldl (fun m p => max (dot p dir) m) (-big)

/-! ## Boxes, cylinders, capsules, circles -/

theorem placed_support {S : Shape} {d p : V3 ℝ} (pos : V3 ℝ) {orn : Quat ℝ} (hq : orn.lengthSqr = 1)
    (h : IsSupport S (Quat.rotate orn.conjugate d) p) : IsSupport (Placed S pos orn) d (pos + Quat.rotate orn p) := by
  refine ⟨⟨p, h.1, rfl⟩, ?_⟩
  rintro w ⟨q, hS, rfl⟩
  rw [dot_add_left, dot_add_left, dot_rotate hq, dot_rotate hq]
  linarith [h.2 q hS]

theorem placed_projection {S : Shape} {d p : V3 ℝ} (pos : V3 ℝ) {orn : Quat ℝ} (hq : orn.lengthSqr = 1)
    (h : IsSupport S (Quat.rotate orn.conjugate d) p) :
    IsProjection (Placed S pos orn) d (dot pos d + dot p (Quat.rotate orn.conjugate d)) := by
  have := placed_support pos hq h
  have he : dot (pos + Quat.rotate orn p) d = dot pos d + dot p (Quat.rotate orn.conjugate d) := by
    rw [dot_add_left, dot_rotate hq]
  exact ⟨⟨_, this.1, he⟩, fun w hw => he ▸ this.2 w hw⟩

/-- **C69, boxes.** In every direction the support point is a furthest point of the placed box and the
projection is its projection. -/
theorem box_support_spec (h pos : V3 ℝ) (hx : 0 ≤ h.x) (hy : 0 ≤ h.y) (hz : 0 ≤ h.z) (orn : Quat ℝ)
    (hq : orn.lengthSqr = 1) (d : V3 ℝ) :
    IsSupport (Placed (boxSet h) pos orn) d (boxSupport h pos orn d) ∧
    IsProjection (Placed (boxSet h) pos orn) d (boxProjection h pos orn d) := by
  have key : IsSupport (boxSet h) (Quat.rotate orn.conjugate d) (supportBox h (Quat.rotate orn.conjugate d)) :=
    ⟨supportBox_mem hx hy hz _, fun w hw => by rw [supportBox_dot]; exact box_le_extent hw _⟩
  exact ⟨placed_support pos hq key, placed_projection pos hq key⟩

/-- The direction is parallel to the axis or deviates from it by more than the tolerance. -/
def Across (eps : ℝ) (n d : V3 ℝ) : Prop :=
  lengthSqr (d - smul (dot d n) n) = 0 ∨ eps < lengthSqr (d - smul (dot d n) n)

theorem across_planar {eps : ℝ} {orn : Quat ℝ} (hq : orn.lengthSqr = 1) {a : Axis} {d : V3 ℝ}
    (h : Across eps (Quat.rotate orn a.vec) d) :
    eps < a.planar (Quat.rotate orn.conjugate d) ∨ a.planar (Quat.rotate orn.conjugate d) = 0 := by
  have he : lengthSqr (d - smul (dot d (Quat.rotate orn a.vec)) (Quat.rotate orn a.vec)) =
      a.planar (Quat.rotate orn.conjugate d) := by
    have h1 : dot d (Quat.rotate orn a.vec) = a.c0 (Quat.rotate orn.conjugate d) := by
      rw [dot_comm, dot_rotate hq, dot_comm, a.dot_vec]
    have hn : lengthSqr (Quat.rotate orn a.vec) = 1 := rotate_unit hq a.vec_unit
    have h2 : lengthSqr (Quat.rotate orn.conjugate d) = lengthSqr d :=
      rotate_length _ (conjugate_unit hq) d
    have h3 : lengthSqr (d - smul (dot d (Quat.rotate orn a.vec)) (Quat.rotate orn a.vec)) =
        lengthSqr d - dot d (Quat.rotate orn a.vec) * dot d (Quat.rotate orn a.vec) := by
      have hn' : dot (Quat.rotate orn a.vec) (Quat.rotate orn a.vec) = 1 := hn
      unfold lengthSqr
      rw [dot_sub_left, dot_sub_right, dot_sub_right, dot_smul_left, dot_smul_right, dot_smul_right,
        dot_smul_left, hn', dot_comm (Quat.rotate orn a.vec) d]
      ring
    rw [h3, h1, ← h2, lengthSqr, a.dot_eq]
    unfold Axis.planar
    ring
  rw [← he]
  rcases h with h | h
  · exact .inr h
  · exact .inl h

/-- The full statement for cylinders. -/
def CylinderSupportFull (eps : ℝ) : Prop :=
  ∀ (r hl : ℝ) (a : Axis) (pos : V3 ℝ) (orn : Quat ℝ) (d : V3 ℝ), 0 ≤ r → 0 ≤ hl → orn.lengthSqr = 1 →
    IsSupport (Placed (cylinderSet r hl a) pos orn) d (cylinderSupportAt eps r hl a pos orn d)

/-- **C69, cylinders.** Proved for directions which are parallel to the axis or deviate from it by more than
the tolerance.  Missing: directions nearly parallel to the axis and short ones (`CylinderSupportFull`,
refuted by `cylinder_support_refuted`); `cylinder_support_slack` bounds the error. -/
theorem cylinder_support_partial (eps r hl : ℝ) (he : 0 ≤ eps) (hr : 0 ≤ r) (hl0 : 0 ≤ hl) (a : Axis)
    (pos : V3 ℝ) (orn : Quat ℝ) (hq : orn.lengthSqr = 1) (d : V3 ℝ)
    (hd : Across eps (Quat.rotate orn a.vec) d) :
    IsSupport (Placed (cylinderSet r hl a) pos orn) d (cylinderSupportAt eps r hl a pos orn d) ∧
    IsProjection (Placed (cylinderSet r hl a) pos orn) d (cylinderProjection eps r hl a pos orn d) := by
  have key : IsSupport (cylinderSet r hl a) (Quat.rotate orn.conjugate d)
      (cylinderSupport eps r hl a (Quat.rotate orn.conjugate d)) :=
    ⟨cylinderSupport_mem he hl0 a _, fun w hw => by
      rw [cylinderSupport_dot he a _ (across_planar hq hd)]; exact cylinder_le hr hw _⟩
  exact ⟨placed_support pos hq key, placed_projection pos hq key⟩

/-- In all directions the support point belongs to the cylinder and misses the furthest one by at most
`2 r √ε`, and the projection is that of the support point. -/
theorem cylinder_support_slack (eps r hl : ℝ) (he : 0 ≤ eps) (hr : 0 ≤ r) (hl0 : 0 ≤ hl) (a : Axis)
    (pos : V3 ℝ) (orn : Quat ℝ) (hq : orn.lengthSqr = 1) (d : V3 ℝ) :
    Placed (cylinderSet r hl a) pos orn (cylinderSupportAt eps r hl a pos orn d) ∧
    cylinderProjection eps r hl a pos orn d = dot (cylinderSupportAt eps r hl a pos orn d) d ∧
    ∀ w, Placed (cylinderSet r hl a) pos orn w →
      dot w d ≤ dot (cylinderSupportAt eps r hl a pos orn d) d + 2 * r * Real.sqrt eps := by
  refine ⟨⟨_, cylinderSupport_mem he hl0 a _, rfl⟩, ?_, ?_⟩
  · unfold cylinderProjection cylinderSupportAt cylinderSupportRot
    rw [dot_add_left, dot_rotate hq]
  · rintro w ⟨p, hp, rfl⟩
    unfold cylinderSupportAt cylinderSupportRot
    rw [dot_add_left, dot_add_left, dot_rotate hq, dot_rotate hq]
    have h1 := cylinder_le hr hp (Quat.rotate orn.conjugate d)
    have h2 := cylinderSupport_slack (eps := eps) (hl := hl) he hr a (Quat.rotate orn.conjugate d)
    linarith

/-- A direction of length 1/10000 across the axis: the code returns the point on the opposite side. -/
theorem cylinder_support_refuted : ¬ CylinderSupportFull (1 / 8388608) := by
  intro h
  have h1 := (h 1 1 .x 0 ⟨0, 0, 0, 1⟩ ⟨0, -1 / 10000, 0⟩ (by norm_num) (by norm_num)
    (by simp [Quat.lengthSqr])).2 ⟨0, -1, 0⟩
    ⟨⟨0, -1, 0⟩, ⟨by simp [Axis.vec, ex, dot], by simp [Axis.vec, ex, dot, lengthSqr]⟩, by
      ext <;> simp [Quat.rotate]⟩
  have h2 : ¬ ((1 : ℝ) / 8388608 < -1 / 10000 * (-1 / 10000)) := by norm_num
  simp [cylinderSupportAt, cylinderSupportRot, cylinderSupport, Quat.rotate, Quat.conjugate, Axis.mk, Axis.c0,
    Axis.c1, Axis.c2, dot] at h1
  norm_num at h1

/-- The full statement for capsules: all directions. -/
def CapsuleFull : Prop :=
  ∀ (v0 v1 : V3 ℝ) (r : ℝ) (d : V3 ℝ), 0 ≤ r → IsProjection (tubeSet v0 v1 r) d (capsuleProjection v0 v1 r d)

/-- **C69, capsules.** Proved for unit directions.  Missing: other directions (`CapsuleFull`, refuted by
`capsule_refuted`: the radius is not scaled). -/
theorem capsule_support_partial (v0 v1 : V3 ℝ) (r : ℝ) (hr : 0 ≤ r) (d : V3 ℝ) (hd : lengthSqr d = 1) :
    IsProjection (tubeSet v0 v1 r) d (capsuleProjection v0 v1 r d) := by
  have hd' : dot d d = 1 := hd
  have cancel : ∀ u v : V3 ℝ, u + v - u = v := by intro u v; ext <;> simp
  have hrd : lengthSqr (smul r d) ≤ r * r := by
    unfold lengthSqr; rw [dot_smul_left, dot_smul_right, hd']; linarith
  constructor
  · rcases le_total (dot v0 d) (dot v1 d) with h | h
    · refine ⟨v1 + smul r d, ⟨1, by norm_num, le_rfl, ?_⟩, ?_⟩
      · have : v0 + smul 1 (v1 - v0) = v1 := by ext <;> simp
        rw [this, cancel]; exact hrd
      · unfold capsuleProjection
        rw [max_eq_right h, dot_add_left, dot_smul_left, hd', mul_one]
    · refine ⟨v0 + smul r d, ⟨0, le_rfl, by norm_num, ?_⟩, ?_⟩
      · have : v0 + smul 0 (v1 - v0) = v0 := by ext <;> simp
        rw [this, cancel]; exact hrd
      · unfold capsuleProjection
        rw [max_eq_left h, dot_add_left, dot_smul_left, hd', mul_one]
  · rintro w ⟨t, t0, t1, hw⟩
    have h1 := (dot_le_of_unit hr hw hd).1
    rw [dot_sub_left, dot_add_left, dot_smul_left, dot_sub_left] at h1
    unfold capsuleProjection
    have m0 := le_max_left (dot v0 d) (dot v1 d)
    have m1 := le_max_right (dot v0 d) (dot v1 d)
    nlinarith

theorem capsule_refuted : ¬ CapsuleFull := by
  intro h
  have := (h 0 0 1 ⟨2, 0, 0⟩ (by norm_num)).2 ⟨1, 0, 0⟩ ⟨0, le_rfl, by norm_num, by simp [lengthSqr, dot]⟩
  simp [capsuleProjection, dot] at this

/-- The full statement for discs. -/
def CircleFull (eps : ℝ) : Prop :=
  ∀ (pos : V3 ℝ) (orn : Quat ℝ) (r : ℝ) (a : Axis) (d : V3 ℝ), 0 ≤ r → orn.lengthSqr = 1 →
    IsSupport (discSet pos (Quat.rotate orn a.vec) r) d (circleSupport eps pos orn r a d)

theorem disc_placed {pos : V3 ℝ} {orn : Quat ℝ} (hq : orn.lengthSqr = 1) {r : ℝ} {a : Axis} {w : V3 ℝ} :
    discSet pos (Quat.rotate orn a.vec) r w ↔ Placed (cylinderSet r 0 a) pos orn w := by
  constructor
  · rintro ⟨h1, h2⟩
    refine ⟨Quat.rotate orn.conjugate (w - pos), ?_, ?_⟩
    · have h3 : dot (Quat.rotate orn.conjugate (w - pos)) a.vec = 0 := by
        rw [dot_comm, ← dot_rotate hq, dot_comm]; exact h1
      refine ⟨by rw [h3, abs_zero], ?_⟩
      rw [h3]
      have : Quat.rotate orn.conjugate (w - pos) - smul 0 a.vec = Quat.rotate orn.conjugate (w - pos) := by
        ext <;> simp
      rw [this]
      have := rotate_length _ (conjugate_unit hq) (w - pos)
      rw [this]; exact h2
    · rw [(rotate_conjugate orn hq _).2]; ext <;> simp
  · rintro ⟨p, ⟨h1, h2⟩, rfl⟩
    have h0 : dot p a.vec = 0 := abs_nonpos_iff.mp h1
    have hs : pos + Quat.rotate orn p - pos = Quat.rotate orn p := by ext <;> simp
    unfold discSet
    rw [hs]
    refine ⟨?_, ?_⟩
    · rw [rotate_dot orn hq]; exact h0
    · rw [rotate_length orn hq]
      rw [h0] at h2
      have : p - smul 0 a.vec = p := by ext <;> simp
      rw [this] at h2; exact h2

/-- **C69, discs.** Proved for directions which are parallel to the axis or deviate from it by more than the
tolerance; the other ones are missing (`CircleFull`, refuted by `circle_support_refuted`). -/
theorem circle_support_partial (eps : ℝ) (he : 0 ≤ eps) (pos : V3 ℝ) (orn : Quat ℝ) (hq : orn.lengthSqr = 1)
    (r : ℝ) (hr : 0 ≤ r) (a : Axis) (d : V3 ℝ) (hd : Across eps (Quat.rotate orn a.vec) d) :
    IsSupport (discSet pos (Quat.rotate orn a.vec) r) d (circleSupport eps pos orn r a d) := by
  have hp := (cylinder_support_partial eps r 0 he hr le_rfl a pos orn hq d hd).1
  have he' : circleSupport eps pos orn r a d = cylinderSupportAt eps r 0 a pos orn d := by
    unfold circleSupport cylinderSupportAt cylinderSupportRot cylinderSupport
    simp
  rw [he']
  exact ⟨(disc_placed hq).mpr hp.1, fun w hw => hp.2 w ((disc_placed hq).mp hw)⟩

theorem circle_support_refuted : ¬ CircleFull (1 / 8388608) := by
  intro h
  have h1 := (h 0 ⟨0, 0, 0, 1⟩ 1 .x ⟨0, -1 / 10000, 0⟩ (by norm_num)
    (by simp [Quat.lengthSqr])).2 ⟨0, -1, 0⟩
    ⟨by simp [Axis.vec, ex, dot, Quat.rotate], by simp [dot, lengthSqr]⟩
  have h2 : ¬ ((1 : ℝ) / 8388608 < -1 / 10000 * (-1 / 10000)) := by norm_num
  simp [circleSupport, Quat.rotate, Quat.conjugate, Axis.mk, Axis.c1, Axis.c2, dot] at h1
  norm_num at h1

/-! ## Point clouds -/

theorem hull_le {pts : List (V3 ℝ)} {d : V3 ℝ} {x : ℝ} (h : ∀ p ∈ pts, dot p d ≤ x) {w : V3 ℝ} (hw : Hull pts w) :
    dot w d ≤ x := by
  induction hw with
  | vertex hp => exact h _ hp
  | between t _ _ t0 t1 ih1 ih2 =>
    rw [dot_add_left, dot_smul_left, dot_sub_left]
    nlinarith

theorem cloudSupport_fold (d : V3 ℝ) (pts : List (V3 ℝ)) (s : V3 ℝ × ℝ) :
    let r := pts.foldl (fun (s : V3 ℝ × ℝ) p => if s.2 < dot p d then (p, dot p d) else s) s
    s.2 ≤ r.2 ∧ (∀ p ∈ pts, dot p d ≤ r.2) ∧ (r = s ∨ (r.1 ∈ pts ∧ r.2 = dot r.1 d)) := by
  induction pts generalizing s with
  | nil => exact ⟨le_rfl, by simp, .inl rfl⟩
  | cons q qs ih =>
    simp only [List.foldl_cons]
    by_cases hc : s.2 < dot q d
    · rw [if_pos hc]
      obtain ⟨h1, h2, h3⟩ := ih (q, dot q d)
      simp only at h1 h2 h3
      refine ⟨by linarith, ?_, ?_⟩
      · intro p hp
        rcases List.mem_cons.mp hp with rfl | hp
        · exact h1
        · exact h2 p hp
      · right
        rcases h3 with h3 | ⟨h3, h4⟩
        · rw [h3]; exact ⟨by simp, rfl⟩
        · exact ⟨List.mem_cons_of_mem _ h3, h4⟩
    · rw [if_neg hc]
      obtain ⟨h1, h2, h3⟩ := ih s
      refine ⟨h1, ?_, ?_⟩
      · intro p hp
        rcases List.mem_cons.mp hp with rfl | hp
        · exact le_trans (not_lt.mp hc) h1
        · exact h2 p hp
      · rcases h3 with h3 | ⟨h3, h4⟩
        · exact .inl h3
        · exact .inr ⟨List.mem_cons_of_mem _ h3, h4⟩

theorem cloudProjection_fold (d : V3 ℝ) (pts : List (V3 ℝ)) (m : ℝ) :
    let r := pts.foldl (fun m p => max (dot p d) m) m
    m ≤ r ∧ (∀ p ∈ pts, dot p d ≤ r) ∧ (r = m ∨ ∃ p ∈ pts, dot p d = r) := by
  induction pts generalizing m with
  | nil => exact ⟨le_rfl, by simp, .inl rfl⟩
  | cons q qs ih =>
    simp only [List.foldl_cons]
    obtain ⟨h1, h2, h3⟩ := ih (max (dot q d) m)
    have ml := le_max_left (dot q d) m
    have mr := le_max_right (dot q d) m
    refine ⟨le_trans mr h1, ?_, ?_⟩
    · intro p hp
      rcases List.mem_cons.mp hp with rfl | hp
      · exact le_trans ml h1
      · exact h2 p hp
    · rcases h3 with h3 | ⟨p, hp, h3⟩
      · rcases max_choice (dot q d) m with hm | hm
        · right; exact ⟨q, by simp, by rw [h3, hm]⟩
        · left; rw [h3, hm]
      · exact .inr ⟨p, List.mem_cons_of_mem _ hp, h3⟩

/-- **C69, point clouds.** For a cloud which is not empty and whose projections exceed the lowest number the
support point is a furthest point of the convex hull, and the projection is its projection. -/
theorem cloud_support_spec (big : ℝ) (pts : List (V3 ℝ)) (hne : pts ≠ []) (d : V3 ℝ)
    (hb : ∀ p ∈ pts, -big < dot p d) :
    IsSupport (Hull pts) d (cloudSupport big pts d) ∧ IsProjection (Hull pts) d (cloudProjection big pts d) := by
  obtain ⟨q, hq⟩ := List.exists_mem_of_ne_nil pts hne
  constructor
  · obtain ⟨_, h2, h3⟩ := cloudSupport_fold d pts (0, -big)
    have hb' := hb q hq
    have h2q := h2 q hq
    rcases h3 with h3 | ⟨h3, h4⟩
    · rw [h3] at h2q; simp only at h2q; linarith
    · exact ⟨.vertex h3, fun w hw => h4 ▸ hull_le h2 hw⟩
  · obtain ⟨_, h2, h3⟩ := cloudProjection_fold d pts (-big)
    have hb' := hb q hq
    have h2q := h2 q hq
    rcases h3 with h3 | ⟨p, hp, h3⟩
    · rw [h3] at h2q; linarith
    · exact ⟨⟨p, .vertex hp, h3⟩, fun w hw => hull_le h2 hw⟩

/-! ## The hypotheses are met -/

/-- A direction which is not a unit vector, across a turned cylinder. -/
example : Across (1 / 8388608) (Quat.rotate someTurn Axis.x.vec) ⟨3, -4, 5⟩ := by
  right
  simp [dot, lengthSqr, Quat.rotate, someTurn, Axis.vec, ex]
  norm_num

example : ∀ p ∈ [(⟨1, 2, 3⟩ : V3 ℝ), ⟨-4, 0, 2⟩], -(340282346638528859811704183484516925440 : ℝ) < dot p ⟨1, -1, 2⟩ := by
  intro p hp
  simp only [List.mem_cons, List.not_mem_nil, or_false] at hp
  rcases hp with rfl | rfl <;> simp [dot] <;> norm_num

end Edyn.Geom
