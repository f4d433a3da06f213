import Verif.Geom.AabbProps

/-!
# Bounding boxes of cylinders, point clouds, compounds and planes (C67)
-/

namespace Edyn.Geom

open Edyn.Math V3

/-! ## Cylinders -/

theorem cylinderSet_iff (r hl : ℝ) (a : Axis) (p : V3 ℝ) :
    cylinderSet r hl a p ↔ |a.c0 p| ≤ hl ∧ a.c1 p * a.c1 p + a.c2 p * a.c2 p ≤ r * r := by
  unfold cylinderSet
  rw [a.dot_vec, lengthSqr, a.dot_eq, Axis.c0_sub_smul_vec, Axis.c1_sub_smul_vec, Axis.c2_sub_smul_vec]
  simp

theorem Axis.neg_c (a : Axis) (p : V3 ℝ) : a.c0 (-p) = -a.c0 p ∧ a.c1 (-p) = -a.c1 p ∧ a.c2 (-p) = -a.c2 p := by
  cases a <;> exact ⟨rfl, rfl, rfl⟩

theorem cylinderSet_neg (r hl : ℝ) (a : Axis) (p : V3 ℝ) (hp : cylinderSet r hl a p) :
    cylinderSet r hl a (-p) := by
  rw [cylinderSet_iff] at *
  obtain ⟨e0, e1, e2⟩ := a.neg_c p
  rw [e0, e1, e2, abs_neg]
  exact ⟨hp.1, by linarith [hp.2]⟩

/-- The squared length of a direction across the axis. -/
def Axis.planar (a : Axis) (d : V3 ℝ) : ℝ := a.c1 d * a.c1 d + a.c2 d * a.c2 d

theorem Axis.planar_nonneg (a : Axis) (d : V3 ℝ) : 0 ≤ a.planar d := by
  unfold Axis.planar; nlinarith [mul_self_nonneg (a.c1 d), mul_self_nonneg (a.c2 d)]

/-- No point of a cylinder is further along a direction than this. -/
theorem cylinder_le {r hl : ℝ} (hr : 0 ≤ r) {a : Axis} {p : V3 ℝ} (hp : cylinderSet r hl a p) (d : V3 ℝ) :
    dot p d ≤ |a.c0 d| * hl + r * Real.sqrt (a.planar d) := by
  rw [cylinderSet_iff] at hp
  rw [a.dot_eq]
  have h1 := mul_le_abs (a := a.c0 d) hp.1
  have h2 : a.c1 p * a.c1 d + a.c2 p * a.c2 d ≤ r * Real.sqrt (a.planar d) := by
    apply le_of_sq_le_sq _ (mul_nonneg hr (Real.sqrt_nonneg _)) |> fun h => h
    rw [mul_pow, Real.sq_sqrt (a.planar_nonneg d)]
    have hc : (a.c1 p * a.c1 d + a.c2 p * a.c2 d) ^ 2 ≤
        (a.c1 p * a.c1 p + a.c2 p * a.c2 p) * a.planar d := by
      unfold Axis.planar
      nlinarith [mul_self_nonneg (a.c1 p * a.c2 d - a.c2 p * a.c1 d)]
    calc _ ≤ (a.c1 p * a.c1 p + a.c2 p * a.c2 p) * a.planar d := hc
      _ ≤ r * r * a.planar d := mul_le_mul_of_nonneg_right hp.2 (a.planar_nonneg d)
      _ = r ^ 2 * a.planar d := by ring
  linarith

theorem cylinderSupport_mem {eps r hl : ℝ} (he : 0 ≤ eps) (hl0 : 0 ≤ hl) (a : Axis)
    (d : V3 ℝ) : cylinderSet r hl a (cylinderSupport eps r hl a d) := by
  rw [cylinderSet_iff]
  have hh : |if a.c0 d < 0 then -hl else hl| ≤ hl := by split <;> simp [abs_of_nonneg hl0]
  unfold cylinderSupport
  by_cases hc : eps < a.c1 d * a.c1 d + a.c2 d * a.c2 d
  · simp only [hc, if_true, Axis.c0_mk, Axis.c1_mk, Axis.c2_mk]
    refine ⟨hh, ?_⟩
    have hp : 0 < a.planar d := lt_of_le_of_lt he hc
    have hs := Real.mul_self_sqrt hp.le
    have hs0 : Real.sqrt (a.planar d) ≠ 0 := (Real.sqrt_pos.mpr hp).ne'
    have : a.c1 d * (r / Real.sqrt (a.planar d)) * (a.c1 d * (r / Real.sqrt (a.planar d))) +
        a.c2 d * (r / Real.sqrt (a.planar d)) * (a.c2 d * (r / Real.sqrt (a.planar d))) = r * r := by
      have h1 : a.c1 d * (r / Real.sqrt (a.planar d)) * (a.c1 d * (r / Real.sqrt (a.planar d))) +
        a.c2 d * (r / Real.sqrt (a.planar d)) * (a.c2 d * (r / Real.sqrt (a.planar d))) =
        a.planar d * (r * r) / (Real.sqrt (a.planar d) * Real.sqrt (a.planar d)) := by
        unfold Axis.planar
        field_simp
      rw [h1, hs, mul_div_cancel_left₀ _ hp.ne']
    exact this.le
  · simp only [hc, if_false, Axis.c0_mk, Axis.c1_mk, Axis.c2_mk]
    exact ⟨hh, by linarith⟩

theorem sign_mul' (a h : ℝ) : (if a < 0 then -h else h) * a = |a| * h := by
  split
  · rename_i ha
    rw [abs_of_neg ha]; ring
  · rename_i ha
    rw [abs_of_nonneg (not_lt.mp ha)]; ring

/-- The support point reaches the extent when the direction is not nearly parallel to the axis. -/
theorem cylinderSupport_dot {eps r hl : ℝ} (he : 0 ≤ eps) (a : Axis) (d : V3 ℝ)
    (hd : eps < a.planar d ∨ a.planar d = 0) :
    dot (cylinderSupport eps r hl a d) d = |a.c0 d| * hl + r * Real.sqrt (a.planar d) := by
  rw [a.dot_eq]
  unfold cylinderSupport
  by_cases hc : eps < a.planar d
  · have hc' : eps < a.c1 d * a.c1 d + a.c2 d * a.c2 d := hc
    simp only [hc', if_true, Axis.c0_mk, Axis.c1_mk, Axis.c2_mk, sign_mul']
    have hp : 0 < a.planar d := lt_of_le_of_lt he hc
    have hs := Real.mul_self_sqrt hp.le
    have hs0 : Real.sqrt (a.planar d) ≠ 0 := (Real.sqrt_pos.mpr hp).ne'
    have h1 : a.c1 d * (r / Real.sqrt (a.planar d)) * a.c1 d + a.c2 d * (r / Real.sqrt (a.planar d)) * a.c2 d =
        r * Real.sqrt (a.planar d) := by
      have h2 : a.c1 d * (r / Real.sqrt (a.planar d)) * a.c1 d + a.c2 d * (r / Real.sqrt (a.planar d)) * a.c2 d =
        r * a.planar d / Real.sqrt (a.planar d) := by
        unfold Axis.planar
        field_simp
      rw [h2]
      nth_rewrite 1 [← hs]
      field_simp
    have h3 : a.c1 d * (r / Real.sqrt (a.c1 d * a.c1 d + a.c2 d * a.c2 d)) * a.c1 d +
        a.c2 d * (r / Real.sqrt (a.c1 d * a.c1 d + a.c2 d * a.c2 d)) * a.c2 d =
        r * Real.sqrt (a.planar d) := h1
    linarith
  · have h0 : a.planar d = 0 := by
      rcases hd with h | h
      · exact absurd h hc
      · exact h
    have hc' : ¬ eps < a.c1 d * a.c1 d + a.c2 d * a.c2 d := hc
    have h1 : a.c1 d = 0 := by
      unfold Axis.planar at h0
      nlinarith [mul_self_nonneg (a.c1 d), mul_self_nonneg (a.c2 d)]
    simp only [hc', if_false, Axis.c0_mk, Axis.c1_mk, Axis.c2_mk, sign_mul']
    rw [h0, Real.sqrt_zero, h1]
    ring

/-- In any direction the support point misses the extent by at most `2 r √ε`. -/
theorem cylinderSupport_slack {eps r hl : ℝ} (he : 0 ≤ eps) (hr : 0 ≤ r) (a : Axis) (d : V3 ℝ) :
    |a.c0 d| * hl + r * Real.sqrt (a.planar d) ≤
      dot (cylinderSupport eps r hl a d) d + 2 * r * Real.sqrt eps := by
  by_cases hc : eps < a.planar d
  · rw [cylinderSupport_dot he a d (Or.inl hc)]
    have := mul_nonneg (mul_nonneg (by norm_num : (0:ℝ) ≤ 2) hr) (Real.sqrt_nonneg eps)
    linarith
  · rw [a.dot_eq]
    unfold cylinderSupport
    have hc' : ¬ eps < a.c1 d * a.c1 d + a.c2 d * a.c2 d := hc
    simp only [hc', if_false, Axis.c0_mk, Axis.c1_mk, Axis.c2_mk, sign_mul']
    have h1 : Real.sqrt (a.planar d) ≤ Real.sqrt eps := Real.sqrt_le_sqrt (not_lt.mp hc)
    have h2 : |a.c1 d| ≤ Real.sqrt eps := by
      apply Real.le_sqrt_of_sq_le
      rw [sq_abs]
      have : a.planar d ≤ eps := not_lt.mp hc
      unfold Axis.planar at this
      nlinarith [mul_self_nonneg (a.c2 d)]
    have h3 := neg_abs_le (a.c1 d)
    have h4 : r * Real.sqrt (a.planar d) ≤ r * Real.sqrt eps := mul_le_mul_of_nonneg_left h1 hr
    have h5 : r * (-Real.sqrt eps) ≤ r * a.c1 d := mul_le_mul_of_nonneg_left (by linarith) hr
    linarith

/-- The axis of the cylinder is exactly along the world axis `e`, or deviates from it by more than the
tolerance of the code. -/
def ClearOf (eps : ℝ) (a : Axis) (orn : Quat ℝ) (e : V3 ℝ) : Prop :=
  let c := dot (Quat.rotate orn a.vec) e
  c * c = 1 ∨ c * c < 1 - eps

theorem planar_eq {orn : Quat ℝ} (hq : orn.lengthSqr = 1) (a : Axis) {e : V3 ℝ} (he : lengthSqr e = 1) :
    a.planar (Quat.rotate orn.conjugate e) =
      1 - dot (Quat.rotate orn a.vec) e * dot (Quat.rotate orn a.vec) e := by
  have h1 : lengthSqr (Quat.rotate orn.conjugate e) = 1 := rotate_unit (conjugate_unit hq) he
  rw [dot_rotate hq, dot_comm, a.dot_vec]
  rw [lengthSqr, a.dot_eq] at h1
  unfold Axis.planar
  linarith

theorem clear_planar {eps : ℝ} {orn : Quat ℝ} (hq : orn.lengthSqr = 1) {a : Axis} {e : V3 ℝ}
    (he : lengthSqr e = 1) (h : ClearOf eps a orn e) :
    eps < a.planar (Quat.rotate orn.conjugate e) ∨ a.planar (Quat.rotate orn.conjugate e) = 0 := by
  rw [planar_eq hq a he]
  rcases h with h | h
  · right; linarith
  · left; linarith

theorem cylinderAabb_eq (eps r hl : ℝ) (a : Axis) (pos : V3 ℝ) (orn : Quat ℝ) (hq : orn.lengthSqr = 1) :
    cylinderAabb eps r hl a pos orn =
      ⟨pos - ⟨dot (cylinderSupport eps r hl a (Quat.rotate orn.conjugate ex)) (Quat.rotate orn.conjugate ex),
          dot (cylinderSupport eps r hl a (Quat.rotate orn.conjugate ey)) (Quat.rotate orn.conjugate ey),
          dot (cylinderSupport eps r hl a (Quat.rotate orn.conjugate ez)) (Quat.rotate orn.conjugate ez)⟩,
       pos + ⟨dot (cylinderSupport eps r hl a (Quat.rotate orn.conjugate ex)) (Quat.rotate orn.conjugate ex),
          dot (cylinderSupport eps r hl a (Quat.rotate orn.conjugate ey)) (Quat.rotate orn.conjugate ey),
          dot (cylinderSupport eps r hl a (Quat.rotate orn.conjugate ez)) (Quat.rotate orn.conjugate ez)⟩⟩ := by
  rw [← dot_rotate hq, ← dot_rotate hq, ← dot_rotate hq, ← x_eq_dot, ← y_eq_dot, ← z_eq_dot]
  rfl

/-- The full statement for cylinders: whatever the orientation, the box contains the cylinder. -/
def CylinderFull (eps : ℝ) : Prop :=
  ∀ (r hl : ℝ) (a : Axis) (pos : V3 ℝ) (orn : Quat ℝ), 0 ≤ r → 0 ≤ hl → orn.lengthSqr = 1 →
    (cylinderAabb eps r hl a pos orn).Encloses (Placed (cylinderSet r hl a) pos orn)

/-- **C67, cylinders.** The box contains the cylinder and touches it on all six sides, as long as the axis
is not within the tolerance of a world axis without being parallel to it. -/
theorem cylinder_aabb_partial (eps r hl : ℝ) (he : 0 ≤ eps) (hr : 0 ≤ r) (hl0 : 0 ≤ hl) (a : Axis)
    (pos : V3 ℝ) (orn : Quat ℝ) (hq : orn.lengthSqr = 1) (cx : ClearOf eps a orn ⟨1, 0, 0⟩)
    (cy : ClearOf eps a orn ⟨0, 1, 0⟩) (cz : ClearOf eps a orn ⟨0, 0, 1⟩) :
    (cylinderAabb eps r hl a pos orn).Encloses (Placed (cylinderSet r hl a) pos orn) ∧
      (cylinderAabb eps r hl a pos orn).Touches (Placed (cylinderSet r hl a) pos orn) := by
  rw [cylinderAabb_eq eps r hl a pos orn hq]
  have px := clear_planar hq ex_unit cx
  have py := clear_planar hq ey_unit cy
  have pz := clear_planar hq ez_unit cz
  refine ⟨symmetric_box _ (cylinderSet_neg r hl a) pos orn hq _ ?_ ?_ ?_,
    symmetric_touch _ (cylinderSet_neg r hl a) pos orn hq _ ?_ ?_ ?_⟩
  · intro p hp; rw [cylinderSupport_dot he a _ px]; exact cylinder_le hr hp _
  · intro p hp; rw [cylinderSupport_dot he a _ py]; exact cylinder_le hr hp _
  · intro p hp; rw [cylinderSupport_dot he a _ pz]; exact cylinder_le hr hp _
  · exact ⟨_, cylinderSupport_mem he hl0 a _, rfl⟩
  · exact ⟨_, cylinderSupport_mem he hl0 a _, rfl⟩
  · exact ⟨_, cylinderSupport_mem he hl0 a _, rfl⟩

/-- Whatever the orientation, no point of a cylinder sticks out of its box by more than `2 r √ε`. -/
theorem cylinder_aabb_slack (eps r hl : ℝ) (he : 0 ≤ eps) (hr : 0 ≤ r) (a : Axis)
    (pos : V3 ℝ) (orn : Quat ℝ) (hq : orn.lengthSqr = 1) :
    let b := cylinderAabb eps r hl a pos orn
    let s := 2 * r * Real.sqrt eps
    (AABB.mk (b.min - ⟨s, s, s⟩) (b.max + ⟨s, s, s⟩)).Encloses (Placed (cylinderSet r hl a) pos orn) := by
  intro b s
  have h : ∀ d p, cylinderSet r hl a p → dot p d ≤ dot (cylinderSupport eps r hl a d) d + s :=
    fun d p hp => le_trans (cylinder_le hr hp d) (cylinderSupport_slack he hr a d)
  have hb := symmetric_box _ (cylinderSet_neg r hl a) pos orn hq
    ⟨dot (cylinderSupport eps r hl a (Quat.rotate orn.conjugate ex)) (Quat.rotate orn.conjugate ex) + s,
      dot (cylinderSupport eps r hl a (Quat.rotate orn.conjugate ey)) (Quat.rotate orn.conjugate ey) + s,
      dot (cylinderSupport eps r hl a (Quat.rotate orn.conjugate ez)) (Quat.rotate orn.conjugate ez) + s⟩
    (h _) (h _) (h _)
  have hbe : b = _ := cylinderAabb_eq eps r hl a pos orn hq
  rw [hbe]
  intro w hw
  have := hb w hw
  simp only [AABB.Has, sub_x, sub_y, sub_z, add_x, add_y, add_z] at *
  refine ⟨⟨?_, ?_⟩, ⟨?_, ?_⟩, ⟨?_, ?_⟩⟩ <;> linarith [this.1.1, this.1.2, this.2.1.1, this.2.1.2, this.2.2.1,
    this.2.2.2]

/-! ## Boxes moved to another space -/

theorem box_of_has {b : AABB} {v : V3 ℝ} (h : b.Has v) :
    boxSet (smul (1/2) (b.max - b.min)) (v - smul (1/2) (b.min + b.max)) := by
  obtain ⟨⟨h1, h2⟩, ⟨h3, h4⟩, h5, h6⟩ := h
  refine ⟨?_, ?_, ?_⟩ <;> rw [abs_le] <;>
    simp only [sub_x, sub_y, sub_z, smul_x, smul_y, smul_z, add_x, add_y, add_z] <;> constructor <;> linarith

theorem transformed_box (b : AABB) (pos : V3 ℝ) (orn : Quat ℝ) (hq : orn.lengthSqr = 1) {v : V3 ℝ}
    (h : b.Has v) :
    let c := pos + Quat.rotate orn (smul (1/2) (b.min + b.max))
    let hh := smul (1/2) (b.max - b.min)
    let m : V3 ℝ := ⟨dot (supportBox hh (Quat.rotate orn.conjugate ex)) (Quat.rotate orn.conjugate ex),
      dot (supportBox hh (Quat.rotate orn.conjugate ey)) (Quat.rotate orn.conjugate ey),
      dot (supportBox hh (Quat.rotate orn.conjugate ez)) (Quat.rotate orn.conjugate ez)⟩
    (AABB.mk (c - m) (c + m)).Has (pos + Quat.rotate orn v) := by
  intro c hh m
  have hb := symmetric_box _ (boxSet_neg hh) c orn hq m
    (fun p hp => by simp only [m, supportBox_dot]; exact box_le_extent hp _)
    (fun p hp => by simp only [m, supportBox_dot]; exact box_le_extent hp _)
    (fun p hp => by simp only [m, supportBox_dot]; exact box_le_extent hp _)
  have := hb _ ⟨_, box_of_has h, rfl⟩
  have he : c + Quat.rotate orn (v - smul (1/2) (b.min + b.max)) = pos + Quat.rotate orn v := by
    rw [rotate_sub]
    ext <;> simp [c]
  rwa [he] at this

/-- **C67.** A box moved to world space contains the world positions of all points of the box. -/
theorem aabb_to_world_encloses (b : AABB) (pos : V3 ℝ) (orn : Quat ℝ) (hq : orn.lengthSqr = 1) :
    (aabbToWorld b pos orn).Encloses (Placed b.Has pos orn) := by
  rintro w ⟨v, hv, rfl⟩
  exact transformed_box b pos orn hq hv

/-- **C67.** A box moved to object space contains the object space positions of all points of the box. -/
theorem aabb_to_object_encloses (b : AABB) (pos : V3 ℝ) (orn : Quat ℝ) (hq : orn.lengthSqr = 1) :
    ∀ w, b.Has (pos + Quat.rotate orn w) → (aabbToObject b pos orn).Has w := by
  intro w hw
  have h := transformed_box b (-Quat.rotate orn.conjugate pos) orn.conjugate (conjugate_unit hq) hw
  have hcc : orn.conjugate.conjugate = orn := by ext <;> simp [Quat.conjugate]
  rw [hcc] at h
  have e1 : -Quat.rotate orn.conjugate pos + Quat.rotate orn.conjugate (pos + Quat.rotate orn w) = w := by
    rw [rotate_add, (rotate_conjugate orn hq w).1]
    ext <;> simp
  have e2 : -Quat.rotate orn.conjugate pos + Quat.rotate orn.conjugate (smul (1/2) (b.min + b.max)) =
      toObjectSpace (smul (1/2) (b.min + b.max)) pos orn := by
    simp only [toObjectSpace, rotate_sub]
    ext <;> simp <;> ring
  rw [e1, e2] at h
  exact h

/-! ## Point clouds -/

theorem AABB.has_convex {b : AABB} {p q : V3 ℝ} (hp : b.Has p) (hq : b.Has q) {t : ℝ} (h0 : 0 ≤ t)
    (h1 : t ≤ 1) : b.Has (p + smul t (q - p)) := by
  have key : ∀ lo hi x y : ℝ, lo ≤ x → x ≤ hi → lo ≤ y → y ≤ hi →
      lo ≤ x + t * (y - x) ∧ x + t * (y - x) ≤ hi := by
    intro lo hi x y a1 a2 a3 a4
    constructor <;> nlinarith
  exact ⟨key _ _ _ _ hp.1.1 hp.1.2 hq.1.1 hq.1.2, key _ _ _ _ hp.2.1.1 hp.2.1.2 hq.2.1.1 hq.2.1.2,
    key _ _ _ _ hp.2.2.1 hp.2.2.2 hq.2.2.1 hq.2.2.2⟩

/-- `b` is included in `c`. -/
def AABB.Le (b c : AABB) : Prop :=
  (c.min.x ≤ b.min.x ∧ b.max.x ≤ c.max.x) ∧ (c.min.y ≤ b.min.y ∧ b.max.y ≤ c.max.y) ∧
    (c.min.z ≤ b.min.z ∧ b.max.z ≤ c.max.z)

theorem AABB.Le.refl (b : AABB) : b.Le b := ⟨⟨le_refl _, le_refl _⟩, ⟨le_refl _, le_refl _⟩, le_refl _, le_refl _⟩

theorem AABB.Le.trans {b c d : AABB} (h : b.Le c) (h' : c.Le d) : b.Le d :=
  ⟨⟨le_trans h'.1.1 h.1.1, le_trans h.1.2 h'.1.2⟩, ⟨le_trans h'.2.1.1 h.2.1.1, le_trans h.2.1.2 h'.2.1.2⟩,
    le_trans h'.2.2.1 h.2.2.1, le_trans h.2.2.2 h'.2.2.2⟩

theorem AABB.Le.has {b c : AABB} (h : b.Le c) {w : V3 ℝ} (hw : b.Has w) : c.Has w :=
  ⟨⟨le_trans h.1.1 hw.1.1, le_trans hw.1.2 h.1.2⟩, ⟨le_trans h.2.1.1 hw.2.1.1, le_trans hw.2.1.2 h.2.1.2⟩,
    le_trans h.2.2.1 hw.2.2.1, le_trans hw.2.2.2 h.2.2.2⟩

theorem grow_has (b : AABB) (p : V3 ℝ) : (AABB.mk (vmin b.min p) (vmax b.max p)).Has p :=
  ⟨⟨min_le_right _ _, le_max_right _ _⟩, ⟨min_le_right _ _, le_max_right _ _⟩, min_le_right _ _,
    le_max_right _ _⟩

theorem grow_le (b : AABB) (p : V3 ℝ) : b.Le ⟨vmin b.min p, vmax b.max p⟩ :=
  ⟨⟨min_le_left _ _, le_max_left _ _⟩, ⟨min_le_left _ _, le_max_left _ _⟩, min_le_left _ _,
    le_max_left _ _⟩

theorem cloud_fold_le (pts : List (V3 ℝ)) (b : AABB) :
    b.Le (pts.foldl (fun b p => ⟨vmin b.min p, vmax b.max p⟩) b) := by
  induction pts generalizing b with
  | nil => exact AABB.Le.refl b
  | cons p rest ih => exact AABB.Le.trans (grow_le b p) (ih _)

theorem cloud_fold_has (pts : List (V3 ℝ)) (b : AABB) (p : V3 ℝ) (hp : p ∈ pts) :
    (pts.foldl (fun b p => (⟨vmin b.min p, vmax b.max p⟩ : AABB)) b).Has p := by
  induction pts generalizing b with
  | nil => exact absurd hp (by simp)
  | cons q rest ih =>
    rcases List.mem_cons.mp hp with rfl | h
    · exact (cloud_fold_le rest _).has (grow_has b p)
    · exact ih _ h

theorem cloudAabb_eq (big : ℝ) (pts : List (V3 ℝ)) (pos : V3 ℝ) (orn : Quat ℝ) :
    cloudAabb big pts pos orn = cloudAabb0 big (pts.map fun p => pos + Quat.rotate orn p) := by
  unfold cloudAabb cloudAabb0
  rw [List.foldl_map]
  rfl

/-- Every bound of the box of a cloud is attained by one of its points, or is still the initial one. -/
theorem cloud_fold_bound (pts : List (V3 ℝ)) (b : AABB) :
    let c := pts.foldl (fun b p => (⟨vmin b.min p, vmax b.max p⟩ : AABB)) b
    (c.min.x = b.min.x ∨ ∃ p ∈ pts, p.x = c.min.x) ∧ (c.max.x = b.max.x ∨ ∃ p ∈ pts, p.x = c.max.x) ∧
    (c.min.y = b.min.y ∨ ∃ p ∈ pts, p.y = c.min.y) ∧ (c.max.y = b.max.y ∨ ∃ p ∈ pts, p.y = c.max.y) ∧
    (c.min.z = b.min.z ∨ ∃ p ∈ pts, p.z = c.min.z) ∧ (c.max.z = b.max.z ∨ ∃ p ∈ pts, p.z = c.max.z) := by
  induction pts generalizing b with
  | nil => exact ⟨.inl rfl, .inl rfl, .inl rfl, .inl rfl, .inl rfl, .inl rfl⟩
  | cons p rest ih =>
    intro c
    obtain ⟨h1, h2, h3, h4, h5, h6⟩ := ih ⟨vmin b.min p, vmax b.max p⟩
    have key : ∀ (f : V3 ℝ → ℝ) (o u g : ℝ), (g = u ∨ ∃ q ∈ rest, f q = g) → (u = o ∨ u = f p) →
        (g = o ∨ ∃ q ∈ p :: rest, f q = g) := by
      intro f o u g h hm
      rcases h with h | ⟨q, hq, e⟩
      · rcases hm with hm | hm
        · exact .inl (h.trans hm)
        · exact .inr ⟨p, List.mem_cons_self, (h.trans hm).symm⟩
      · exact .inr ⟨q, List.mem_cons_of_mem _ hq, e⟩
    exact ⟨key (·.x) _ _ _ h1 (min_choice _ _), key (·.x) _ _ _ h2 (max_choice _ _),
      key (·.y) _ _ _ h3 (min_choice _ _), key (·.y) _ _ _ h4 (max_choice _ _),
      key (·.z) _ _ _ h5 (min_choice _ _), key (·.z) _ _ _ h6 (max_choice _ _)⟩

theorem cloud_touch (big : ℝ) (pts : List (V3 ℝ)) (hne : pts ≠ [])
    (hb : ∀ p ∈ pts, |p.x| ≤ big ∧ |p.y| ≤ big ∧ |p.z| ≤ big) :
    (cloudAabb0 big pts).Touches (· ∈ pts) := by
  obtain ⟨p, rest, rfl⟩ := List.exists_cons_of_ne_nil hne
  have key : ∀ (f : V3 ℝ → ℝ) (o g : ℝ), (∀ q ∈ p :: rest, o ≤ f q ∨ f q ≤ o) →
      (g = o → f p = g) → (g = o ∨ ∃ q ∈ p :: rest, f q = g) → ∃ q, q ∈ p :: rest ∧ f q = g := by
    intro f o g _ hg h
    rcases h with h | ⟨q, hq, e⟩
    · exact ⟨p, List.mem_cons_self, hg h⟩
    · exact ⟨q, hq, e⟩
  have hh := cloud_fold_bound (p :: rest) ⟨⟨big, big, big⟩, ⟨-big, -big, -big⟩⟩
  have hm := cloud_fold_has (p :: rest) ⟨⟨big, big, big⟩, ⟨-big, -big, -big⟩⟩ p List.mem_cons_self
  obtain ⟨bx, by', bz⟩ := hb p List.mem_cons_self
  rw [abs_le] at bx by' bz
  obtain ⟨h1, h2, h3, h4, h5, h6⟩ := hh
  obtain ⟨⟨m1, m2⟩, ⟨m3, m4⟩, m5, m6⟩ := hm
  refine ⟨key (·.x) _ _ (fun q _ => le_total _ _) (fun e => ?_) h1,
    key (·.x) _ _ (fun q _ => le_total _ _) (fun e => ?_) h2,
    key (·.y) _ _ (fun q _ => le_total _ _) (fun e => ?_) h3,
    key (·.y) _ _ (fun q _ => le_total _ _) (fun e => ?_) h4,
    key (·.z) _ _ (fun q _ => le_total _ _) (fun e => ?_) h5,
    key (·.z) _ _ (fun q _ => le_total _ _) (fun e => ?_) h6⟩
  · exact le_antisymm (by rw [e]; exact bx.2) m1
  · exact le_antisymm m2 (by rw [e]; exact bx.1)
  · exact le_antisymm (by rw [e]; exact by'.2) m3
  · exact le_antisymm m4 (by rw [e]; exact by'.1)
  · exact le_antisymm (by rw [e]; exact bz.2) m5
  · exact le_antisymm m6 (by rw [e]; exact bz.1)

/-- **C67, polyhedra.** The box of a placed point cloud contains the convex hull of its points and
touches it on all six sides. -/
theorem cloud_aabb_spec (big : ℝ) (pts : List (V3 ℝ)) (pos : V3 ℝ) (orn : Quat ℝ) :
    (cloudAabb big pts pos orn).Encloses (Placed (Hull pts) pos orn) ∧
      (pts ≠ [] → (∀ p ∈ pts, |(pos + Quat.rotate orn p).x| ≤ big ∧ |(pos + Quat.rotate orn p).y| ≤ big ∧
        |(pos + Quat.rotate orn p).z| ≤ big) →
        (cloudAabb big pts pos orn).Touches (Placed (Hull pts) pos orn)) := by
  rw [cloudAabb_eq]
  constructor
  · rintro w ⟨p, hp, rfl⟩
    induction hp with
    | @vertex p h => exact cloud_fold_has _ _ _ (List.mem_map.mpr ⟨p, h, rfl⟩)
    | @between p q t _ _ h0 h1 ih1 ih2 =>
      have := AABB.has_convex ih1 ih2 h0 h1
      have e : pos + Quat.rotate orn p + smul t (pos + Quat.rotate orn q - (pos + Quat.rotate orn p)) =
          pos + Quat.rotate orn (p + smul t (q - p)) := by
        rw [rotate_add, rotate_smul, rotate_sub]
        ext <;> simp <;> ring
      rwa [e] at this
  · intro hne hb
    have ht := cloud_touch big (pts.map fun p => pos + Quat.rotate orn p) (by simpa using hne) (by
      intro w hw
      obtain ⟨p, hp, rfl⟩ := List.mem_map.mp hw
      exact hb p hp)
    have conv : ∀ (P : V3 ℝ → Prop), (∃ w, w ∈ (pts.map fun p => pos + Quat.rotate orn p) ∧ P w) →
        ∃ w, Placed (Hull pts) pos orn w ∧ P w := by
      rintro P ⟨w, hw, hP⟩
      obtain ⟨p, hp, rfl⟩ := List.mem_map.mp hw
      exact ⟨_, ⟨p, Hull.vertex hp, rfl⟩, hP⟩
    obtain ⟨t1, t2, t3, t4, t5, t6⟩ := ht
    exact ⟨conv _ t1, conv _ t2, conv _ t3, conv _ t4, conv _ t5, conv _ t6⟩

/-- **C67, polyhedra.** The box kept up to date from the rotated vertices is the same box: it contains the
placed polyhedron. -/
theorem rotated_cloud_encloses (big : ℝ) (pts : List (V3 ℝ)) (pos : V3 ℝ) (orn : Quat ℝ) :
    (rotatedCloudAabb big (pts.map (Quat.rotate orn)) pos).Encloses (Placed (Hull pts) pos orn) := by
  rintro w ⟨p, hp, rfl⟩
  have h0 := (cloud_aabb_spec big pts 0 orn).1 _ ⟨p, hp, rfl⟩
  rw [cloudAabb_eq] at h0
  have e : (pts.map fun p => (0 : V3 ℝ) + Quat.rotate orn p) = pts.map (Quat.rotate orn) := by
    apply List.map_congr_left
    intro p _
    ext <;> simp
  rw [e] at h0
  simp only [AABB.Has, rotatedCloudAabb, add_x, add_y, add_z, zero_x, zero_y, zero_z, zero_add] at *
  refine ⟨⟨?_, ?_⟩, ⟨?_, ?_⟩, ⟨?_, ?_⟩⟩ <;> linarith [h0.1.1, h0.1.2, h0.2.1.1, h0.2.1.2, h0.2.2.1, h0.2.2.2]

/-! ## Compounds -/

/-- The points of a part of a compound, in the space of the part. -/
def Part.set : Part → Shape
  | .sphere r => ballSet r
  | .cylinder r hl a => cylinderSet r hl a
  | .capsule r hl a => capsuleSet r hl a
  | .box h => boxSet h
  | .polyhedron pts => Hull pts

/-- Radii, lengths and extents are not negative; cylinders satisfy the condition of
`cylinder_aabb_partial` in the space of the compound. -/
def Node.Valid (eps : ℝ) (n : Node) : Prop :=
  n.orn.lengthSqr = 1 ∧ match n.part with
  | .sphere r => 0 ≤ r
  | .cylinder r hl a => 0 ≤ r ∧ 0 ≤ hl ∧ ClearOf eps a n.orn ⟨1, 0, 0⟩ ∧ ClearOf eps a n.orn ⟨0, 1, 0⟩ ∧
      ClearOf eps a n.orn ⟨0, 0, 1⟩
  | .capsule r hl _ => 0 ≤ r ∧ 0 ≤ hl
  | .box h => 0 ≤ h.x ∧ 0 ≤ h.y ∧ 0 ≤ h.z
  | .polyhedron _ => True

theorem node_encloses {eps : ℝ} (he : 0 ≤ eps) (big : ℝ) (n : Node) (hv : n.Valid eps) :
    (n.part.aabb eps big n.pos n.orn).Encloses (Placed n.part.set n.pos n.orn) := by
  obtain ⟨part, pos, orn⟩ := n
  obtain ⟨hq, hv⟩ := hv
  cases part with
  | sphere r => exact (sphere_aabb_spec r hv pos orn hq).1
  | cylinder r hl a =>
    exact (cylinder_aabb_partial eps r hl he hv.1 hv.2.1 a pos orn hq hv.2.2.1 hv.2.2.2.1 hv.2.2.2.2).1
  | capsule r hl a => exact (capsule_aabb_spec r hl hv.1 hv.2 a pos orn hq).1
  | box h => exact (box_aabb_spec h pos orn hq hv.1 hv.2.1 hv.2.2).1
  | polyhedron pts => exact (cloud_aabb_spec big pts pos orn).1

theorem enclosing_left (b c : AABB) : b.Le (enclosing b c) :=
  ⟨⟨min_le_left _ _, le_max_left _ _⟩, ⟨min_le_left _ _, le_max_left _ _⟩, min_le_left _ _,
    le_max_left _ _⟩

theorem enclosing_right (b c : AABB) : c.Le (enclosing b c) :=
  ⟨⟨min_le_right _ _, le_max_right _ _⟩, ⟨min_le_right _ _, le_max_right _ _⟩, min_le_right _ _,
    le_max_right _ _⟩

theorem compound_fold (f : Node → AABB) (nodes : List Node) (b : AABB) :
    b.Le (nodes.foldl (fun b m => enclosing b (f m)) b) ∧
      ∀ m ∈ nodes, (f m).Le (nodes.foldl (fun b m => enclosing b (f m)) b) := by
  induction nodes generalizing b with
  | nil => exact ⟨AABB.Le.refl b, by simp⟩
  | cons n rest ih =>
    obtain ⟨h1, h2⟩ := ih (enclosing b (f n))
    refine ⟨AABB.Le.trans (enclosing_left _ _) h1, ?_⟩
    intro m hm
    rcases List.mem_cons.mp hm with rfl | hm
    · exact AABB.Le.trans (enclosing_right _ _) h1
    · exact h2 m hm

/-- **C67, compounds.** The box of a compound of any number of shapes contains every point of every one of
them, and there is a box exactly when the compound is not empty. -/
theorem compound_aabb_encloses (eps big : ℝ) (he : 0 ≤ eps) (nodes : List Node)
    (hv : ∀ n ∈ nodes, n.Valid eps) (pos : V3 ℝ) (orn : Quat ℝ) (hq : orn.lengthSqr = 1) :
    (nodes ≠ [] ↔ (compoundAabb eps big nodes pos orn).isSome) ∧
    ∀ b, compoundAabb eps big nodes pos orn = some b →
      ∀ n ∈ nodes, b.Encloses (Placed (Placed n.part.set n.pos n.orn) pos orn) := by
  constructor
  · cases nodes <;> simp [compoundAabb]
  intro b hb n hn
  cases nodes with
  | nil => exact absurd hn (by simp)
  | cons m rest =>
    simp only [compoundAabb, Option.some.injEq] at hb
    have hf := compound_fold (fun m => aabbToWorld (m.part.aabb eps big m.pos m.orn) pos orn) rest
      (aabbToWorld (m.part.aabb eps big m.pos m.orn) pos orn)
    rw [hb] at hf
    have hle : (aabbToWorld (n.part.aabb eps big n.pos n.orn) pos orn).Le b := by
      rcases List.mem_cons.mp hn with rfl | h
      · exact hf.1
      · exact hf.2 n h
    rintro w ⟨v, hv', rfl⟩
    exact hle.has (aabb_to_world_encloses _ pos orn hq _ ⟨v, node_encloses he big n (hv n hn) v hv', rfl⟩)

end Edyn.Geom
