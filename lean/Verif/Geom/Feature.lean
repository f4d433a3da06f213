import Verif.Geom.BoxFeature

/-!
# Features of cylinders and triangles (C75)

`src/edyn/shapes/cylinder_shape.cpp`, `src/edyn/math/triangle.cpp`.  Scalars are exact reals.
-/

namespace Edyn.Geom

open Edyn.Math V3

/-! ## Model -/

/-- `cylinder_feature`, `include/edyn/shapes/cylinder_shape.hpp` 11-18. -/
inductive CylFeat
  | face | sideEdge | capEdge
deriving DecidableEq

/-- `cylinder_shape::support_feature`, `cylinder_shape.cpp` 14-50; the index is `none` where it is not
written. -/
noncomputable def cylFeature (r hl : ℝ) (a : Axis) (d : V3 ℝ) (tol : ℝ) : CylFeat × Option ℕ :=
  let ortho := a.c1 d * a.c1 d + a.c2 d * a.c2 d
  let cap := 4 * r * r * ortho
  if cap < tol * tol then (.face, some (if 0 < a.c0 d then 0 else 1))
  else if |2 * hl * a.c0 d| < tol then (.sideEdge, none)
  else (.capEdge, some (if 0 < a.c0 d then 0 else 1))

/-- `cylinder_shape::support_feature` of a placed cylinder, `cylinder_shape.cpp` 52-57. -/
noncomputable def cylFeatureAt (r hl : ℝ) (a : Axis) (orn : Quat ℝ) (d : V3 ℝ) (tol : ℝ) : CylFeat × Option ℕ :=
  cylFeature r hl a (Quat.rotate orn.conjugate d) tol

/-- `triangle_feature`, `include/edyn/math/triangle.hpp` 15-19. -/
inductive TriFeat
  | vertex | edge | face
deriving DecidableEq

/-- The state of the loop of `get_triangle_support_feature`. -/
structure TriState where
  feat : TriFeat
  index : ℕ
  proj : ℝ

/-- One round of the loop, `triangle.cpp` 44-81, for `i > 0`. -/
noncomputable def triStep (tol : ℝ) (i : ℕ) (pi : ℝ) (s : TriState) : TriState :=
  if |pi - s.proj| < tol then
    match s.feat with
    | .vertex =>
      if i = 2 then { s with feat := .edge, index := if s.index = 0 then 2 else 1 }
      else { feat := .edge, index := 0, proj := max pi s.proj }
    | .edge => { s with feat := .face, proj := max pi s.proj }
    | .face => s
  else if s.proj < pi then ⟨.vertex, i, pi⟩
  else s

/-- `get_triangle_support_feature`, `triangle.cpp` 36-83.  The first vertex always replaces the lowest scalar
the loop starts with. -/
noncomputable def triFeature (v : Fin 3 → V3 ℝ) (axisPos d : V3 ℝ) (tol : ℝ) : TriState :=
  triStep tol 2 (dot (v 2 - axisPos) d) (triStep tol 1 (dot (v 1 - axisPos) d) ⟨.vertex, 0, dot (v 0 - axisPos) d⟩)

/-- `clip_triangle_separating_axis`, `triangle.cpp` 136-204; `adj` gives the normals of the adjacent faces. -/
noncomputable def triClip (sep : V3 ℝ) (adj : Fin 3 → V3 ℝ) (v : Fin 3 → V3 ℝ) (n : V3 ℝ) (k : TriFeat) (i : Fin 3) :
    V3 ℝ :=
  match k with
  | .vertex =>
    let e0 := i
    let e1 := i + 2
    let en0 := cross (v (e0 + 1) - v e0) (adj e0)
    let en1 := cross (v (e1 + 1) - v e1) (adj e1)
    if dot sep en1 < dot sep en0 then
      if ¬ dot n en0 < 0 then n else if 0 < dot sep en0 then adj e0 else sep
    else
      if ¬ dot n en1 < 0 then n else if 0 < dot sep en1 then adj e1 else sep
  | .edge =>
    let en := cross (v (i + 1) - v i) (adj i)
    if ¬ dot n en < 0 then n else if 0 < dot sep en then adj i else sep
  | .face => n

/-! ## Cylinders -/

/-- The part of the cylinder a feature stands for in a direction: all of a cap; the lines of the side which are
furthest across the axis; the points of a cap which are furthest. -/
def CylPart (r hl : ℝ) (a : Axis) (d : V3 ℝ) : CylFeat × Option ℕ → V3 ℝ → Prop
  | (.face, i) => fun p => cylinderSet r hl a p ∧ dot p a.vec = if i = some 0 then hl else -hl
  | (.sideEdge, _) => fun p => cylinderSet r hl a p ∧ ∀ q, cylinderSet r hl a q →
      dot (q - smul (dot q a.vec) a.vec) d ≤ dot (p - smul (dot p a.vec) a.vec) d
  | (.capEdge, i) => fun p => (cylinderSet r hl a p ∧ dot p a.vec = if i = some 0 then hl else -hl) ∧
      ∀ q, cylinderSet r hl a q → dot q a.vec = (if i = some 0 then hl else -hl) → dot q d ≤ dot p d

theorem rim_exists (r c1 c2 : ℝ) : ∃ u1 u2 : ℝ, u1 * u1 + u2 * u2 = r * r ∧
    u1 * c1 + u2 * c2 = r * Real.sqrt (c1 * c1 + c2 * c2) := by
  by_cases h : c1 * c1 + c2 * c2 = 0
  · have h1 : c1 = 0 := by nlinarith [mul_self_nonneg c1, mul_self_nonneg c2]
    have h2 : c2 = 0 := by nlinarith [mul_self_nonneg c1, mul_self_nonneg c2]
    refine ⟨r, 0, by ring, ?_⟩
    rw [h, h1, h2, Real.sqrt_zero]; ring
  · have hp : 0 < c1 * c1 + c2 * c2 := lt_of_le_of_ne (by nlinarith [mul_self_nonneg c1, mul_self_nonneg c2]) (Ne.symm h)
    have hs := Real.sqrt_pos.mpr hp
    have hq := Real.mul_self_sqrt hp.le
    generalize Real.sqrt (c1 * c1 + c2 * c2) = s at hs hq ⊢
    refine ⟨r * c1 / s, r * c2 / s, ?_, ?_⟩
    · have : r * c1 / s * (r * c1 / s) + r * c2 / s * (r * c2 / s) = r * r * (c1 * c1 + c2 * c2) / (s * s) := by
        field_simp
      rw [this, ← hq]; field_simp
    · have : r * c1 / s * c1 + r * c2 / s * c2 = r * (c1 * c1 + c2 * c2) / s := by field_simp
      rw [this, ← hq]; field_simp

theorem across_le {r : ℝ} (hr : 0 ≤ r) {x y c1 c2 : ℝ} (h : x * x + y * y ≤ r * r) :
    |x * c1 + y * c2| ≤ r * Real.sqrt (c1 * c1 + c2 * c2) := by
  have hn : 0 ≤ c1 * c1 + c2 * c2 := by nlinarith [mul_self_nonneg c1, mul_self_nonneg c2]
  apply abs_le_of_sq_le_sq _ (mul_nonneg hr (Real.sqrt_nonneg _))
  rw [mul_pow, Real.sq_sqrt hn]
  have hc : (x * c1 + y * c2) ^ 2 ≤ (x * x + y * y) * (c1 * c1 + c2 * c2) := by
    nlinarith [mul_self_nonneg (x * c2 - y * c1)]
  calc _ ≤ _ := hc
    _ ≤ r * r * (c1 * c1 + c2 * c2) := mul_le_mul_of_nonneg_right h hn
    _ = _ := by ring

/-- **C75, the support feature of a cylinder.** All points of the part the feature stands for are within the
tolerance of the largest projection, one of them has it, and the points of a cap edge all have it.  The
feature is a cap exactly when all points of a cap are within the tolerance of each other along the direction, and
it is the side exactly when that is not so and the ends of the side lines are within the tolerance. -/
theorem cylinder_feature_spec (r hl : ℝ) (hr : 0 ≤ r) (hh : 0 ≤ hl) (a : Axis) (d : V3 ℝ) (tol : ℝ) (ht : 0 < tol) :
    (∃ m, IsProjection (cylinderSet r hl a) d m ∧ (∃ p, CylPart r hl a d (cylFeature r hl a d tol) p ∧ dot p d = m) ∧
      ∀ p, CylPart r hl a d (cylFeature r hl a d tol) p → m - tol < dot p d ∧
        ((cylFeature r hl a d tol).1 = .capEdge → dot p d = m)) ∧
    ((cylFeature r hl a d tol).1 = .face ↔ ∀ p q, CylPart r hl a d (.face, some 0) p → CylPart r hl a d (.face, some 0) q →
      dot p d - dot q d < tol) ∧
    ((cylFeature r hl a d tol).1 = .sideEdge ↔ (cylFeature r hl a d tol).1 ≠ .face ∧
      |dot (smul hl a.vec) d - dot (smul (-hl) a.vec) d| < tol) := by
  obtain ⟨u1, u2, hu, hd⟩ := rim_exists r (a.c1 d) (a.c2 d)
  have hac := fun x y (h : x * x + y * y ≤ r * r) => @across_le r hr x y (a.c1 d) (a.c2 d) h
  have hcap : 4 * r * r * (a.c1 d * a.c1 d + a.c2 d * a.c2 d) < tol * tol ↔
      2 * (r * Real.sqrt (a.c1 d * a.c1 d + a.c2 d * a.c2 d)) < tol := by
    have hn : 0 ≤ a.c1 d * a.c1 d + a.c2 d * a.c2 d := a.planar_nonneg d
    have hs := Real.mul_self_sqrt hn
    have h0 := Real.sqrt_nonneg (a.c1 d * a.c1 d + a.c2 d * a.c2 d)
    generalize Real.sqrt (a.c1 d * a.c1 d + a.c2 d * a.c2 d) = s at hs h0 ⊢
    rw [← hs]
    have e : 4 * r * r * (s * s) = (2 * (r * s)) * (2 * (r * s)) := by ring
    rw [e]
    have hp : 0 ≤ 2 * (r * s) := by positivity
    constructor
    · intro h; nlinarith
    · intro h; nlinarith
  have hw0 : 0 ≤ r * Real.sqrt (a.c1 d * a.c1 d + a.c2 d * a.c2 d) := mul_nonneg hr (Real.sqrt_nonneg _)
  generalize hwd : r * Real.sqrt (a.c1 d * a.c1 d + a.c2 d * a.c2 d) = w at hd hac hcap hw0
  have rim : ∀ t, |t| ≤ hl → cylinderSet r hl a (a.mk t u1 u2) ∧ dot (a.mk t u1 u2) a.vec = t ∧
      dot (a.mk t u1 u2) d = t * a.c0 d + w := by
    intro t h
    refine ⟨?_, ?_, ?_⟩
    · rw [cylinderSet_iff]; simp only [Axis.c0_mk, Axis.c1_mk, Axis.c2_mk]; exact ⟨h, hu.le⟩
    · rw [a.dot_vec, Axis.c0_mk]
    · rw [a.dot_eq]; simp only [Axis.c0_mk, Axis.c1_mk, Axis.c2_mk]; linarith
  have anti : ∀ t, |t| ≤ hl → cylinderSet r hl a (a.mk t (-u1) (-u2)) ∧ dot (a.mk t (-u1) (-u2)) a.vec = t ∧
      dot (a.mk t (-u1) (-u2)) d = t * a.c0 d - w := by
    intro t h
    refine ⟨?_, ?_, ?_⟩
    · rw [cylinderSet_iff]; simp only [Axis.c0_mk, Axis.c1_mk, Axis.c2_mk]; exact ⟨h, by linarith⟩
    · rw [a.dot_vec, Axis.c0_mk]
    · rw [a.dot_eq]; simp only [Axis.c0_mk, Axis.c1_mk, Axis.c2_mk]; linarith
  have pt : ∀ p, cylinderSet r hl a p → |a.c0 p| ≤ hl ∧ |dot p d - a.c0 p * a.c0 d| ≤ w := by
    intro p hp
    rw [cylinderSet_iff] at hp
    refine ⟨hp.1, ?_⟩
    rw [a.dot_eq]
    have := hac _ _ hp.2
    rwa [show a.c0 p * a.c0 d + a.c1 p * a.c1 d + a.c2 p * a.c2 d - a.c0 p * a.c0 d =
      a.c1 p * a.c1 d + a.c2 p * a.c2 d by ring]
  have habs : |hl| ≤ hl := (abs_of_nonneg hh).le
  have habs' : |-hl| ≤ hl := by rw [abs_neg]; exact habs
  -- the height of the cap the index gives
  set σ : ℝ := if 0 < a.c0 d then hl else -hl with hσ
  have σ1 : |σ| ≤ hl := by rw [hσ]; split_ifs <;> assumption
  have σ2 : σ * a.c0 d = |a.c0 d| * hl := by
    rw [hσ]
    split_ifs with h
    · rw [abs_of_pos h]; ring
    · rw [abs_of_nonpos (not_lt.mp h)]; ring
  have σi : (if (some (if 0 < a.c0 d then 0 else 1) : Option ℕ) = some 0 then hl else -hl) = σ := by
    rw [hσ]
    by_cases h : 0 < a.c0 d
    · simp [h]
    · simp [h]
  have hE : cylFeature r hl a d tol = if 2 * w < tol then (.face, some (if 0 < a.c0 d then 0 else 1))
      else if |2 * hl * a.c0 d| < tol then (.sideEdge, none)
      else (.capEdge, some (if 0 < a.c0 d then 0 else 1)) := by
    unfold cylFeature
    simp only [hcap]
  generalize (some (if 0 < a.c0 d then 0 else 1) : Option ℕ) = idx at hE σi
  rw [hE]
  clear hE
  have hproj : IsProjection (cylinderSet r hl a) d (|a.c0 d| * hl + w) := by
    refine ⟨⟨_, (rim σ σ1).1, by rw [(rim σ σ1).2.2, σ2]⟩, fun p hp => ?_⟩
    have h1 := (pt p hp).2
    rw [abs_le] at h1
    have h2 := mul_le_abs (a := a.c0 d) (pt p hp).1
    linarith
  have hface : ((if 2 * w < tol then ((.face, idx) : CylFeat × Option ℕ)
      else if |2 * hl * a.c0 d| < tol then (.sideEdge, none) else (.capEdge, idx)).1 = .face ↔ 2 * w < tol) := by
    split_ifs <;> simp_all
  have hends : dot (smul hl a.vec) d - dot (smul (-hl) a.vec) d = 2 * hl * a.c0 d := by
    rw [dot_smul_left, dot_smul_left, dot_comm, a.dot_vec]; ring
  refine ⟨⟨|a.c0 d| * hl + w, hproj, ?_, ?_⟩, ?_, ?_⟩
  · split_ifs with h1 h2
    · refine ⟨a.mk σ u1 u2, ?_, by rw [(rim σ σ1).2.2, σ2]⟩
      simp only [CylPart]
      exact ⟨(rim σ σ1).1, by rw [(rim σ σ1).2.1, σi]⟩
    · refine ⟨a.mk σ u1 u2, ?_, by rw [(rim σ σ1).2.2, σ2]⟩
      simp only [CylPart]
      refine ⟨(rim σ σ1).1, fun q hq => ?_⟩
      have h3 := (pt q hq).2
      rw [abs_le] at h3
      rw [dot_sub_left, dot_sub_left, dot_smul_left, dot_smul_left, (rim σ σ1).2.1, (rim σ σ1).2.2, a.dot_vec,
        dot_comm a.vec d, a.dot_vec]
      linarith
    · refine ⟨a.mk σ u1 u2, ?_, by rw [(rim σ σ1).2.2, σ2]⟩
      simp only [CylPart]
      refine ⟨⟨(rim σ σ1).1, by rw [(rim σ σ1).2.1, σi]⟩, fun q hq hqa => ?_⟩
      rw [(rim σ σ1).2.2, σ2]
      exact hproj.2 q hq
  · intro p hp
    split_ifs at hp ⊢ with h1 h2
    · simp only [CylPart] at hp
      refine ⟨?_, by simp⟩
      have h3 := (pt p hp.1).2
      rw [abs_le] at h3
      have h4 := hp.2
      rw [σi, a.dot_vec] at h4
      rw [h4, σ2] at h3
      linarith
    · simp only [CylPart] at hp
      refine ⟨?_, by simp⟩
      have h3 := hp.2 _ (rim 0 (by simpa using hh)).1
      rw [dot_sub_left, dot_sub_left, dot_smul_left, dot_smul_left, (rim 0 (by simpa using hh)).2.1,
        (rim 0 (by simpa using hh)).2.2, a.dot_vec, dot_comm a.vec d, a.dot_vec] at h3
      have h4 := (pt p hp.1).1
      have h5 : |a.c0 p * a.c0 d| ≤ hl * |a.c0 d| := by
        rw [abs_mul]; exact mul_le_mul_of_nonneg_right h4 (abs_nonneg _)
      rw [abs_mul, abs_of_nonneg (by linarith : (0 : ℝ) ≤ 2 * hl)] at h2
      rw [abs_le] at h5
      linarith
    · simp only [CylPart] at hp
      have h3 := hp.2 _ (rim σ σ1).1 (by rw [(rim σ σ1).2.1, σi])
      rw [(rim σ σ1).2.2, σ2] at h3
      have h4 := hproj.2 p hp.1.1
      exact ⟨by linarith, fun _ => le_antisymm h4 h3⟩
  · rw [hface]
    constructor
    · intro h p q hp hq
      simp only [CylPart, if_true] at hp hq
      have h3 := (pt p hp.1).2
      have h4 := (pt q hq.1).2
      have h5 := hp.2
      have h6 := hq.2
      rw [a.dot_vec] at h5 h6
      rw [h5, abs_le] at h3
      rw [h6, abs_le] at h4
      linarith
    · intro h
      have h3 := h (a.mk hl u1 u2) (a.mk hl (-u1) (-u2))
        (by simp only [CylPart, if_true]; exact ⟨(rim hl habs).1, (rim hl habs).2.1⟩)
        (by simp only [CylPart, if_true]; exact ⟨(anti hl habs).1, (anti hl habs).2.1⟩)
      rw [(rim hl habs).2.2, (anti hl habs).2.2] at h3
      linarith
  · rw [hends, Ne, hface]
    split_ifs <;> simp_all

/-- Not vacuous: an upright cylinder, seen from above, from the side and from a slant. -/
example : (cylFeature 1 2 .y ⟨0, 1, 0⟩ (1 / 100)).1 = .face ∧ (cylFeature 1 2 .y ⟨1, 0, 0⟩ (1 / 100)).1 = .sideEdge ∧
    cylFeature 1 2 .y ⟨3 / 5, 4 / 5, 0⟩ (1 / 100) = (.capEdge, some 0) := by
  refine ⟨?_, ?_, ?_⟩ <;> norm_num [cylFeature, Axis.c0, Axis.c1, Axis.c2]

/-- **C75, the support feature of a placed cylinder.** The points of the part of the placed cylinder which the
feature stands for are within the tolerance of the largest projection of the placed cylinder on the direction,
one of them has it, and the feature is a cap exactly when the points of a cap are within the tolerance of each
other along the direction. -/
theorem cylinder_feature_at (r hl : ℝ) (hr : 0 ≤ r) (hh : 0 ≤ hl) (a : Axis) (pos : V3 ℝ) (orn : Quat ℝ)
    (ho : orn.lengthSqr = 1) (d : V3 ℝ) (tol : ℝ) (ht : 0 < tol) :
    let part := fun k => Placed (CylPart r hl a (Quat.rotate orn.conjugate d) k) pos orn
    (∃ m, IsProjection (Placed (cylinderSet r hl a) pos orn) d m ∧
      (∃ p, part (cylFeatureAt r hl a orn d tol) p ∧ dot p d = m) ∧
      ∀ p, part (cylFeatureAt r hl a orn d tol) p → m - tol < dot p d ∧
        ((cylFeatureAt r hl a orn d tol).1 = .capEdge → dot p d = m)) ∧
    ((cylFeatureAt r hl a orn d tol).1 = .face ↔ ∀ p q, part (.face, some 0) p → part (.face, some 0) q →
      dot p d - dot q d < tol) := by
  intro part
  obtain ⟨⟨m, ⟨⟨p0, hp0, e0⟩, hm⟩, ⟨p1, hp1, e1⟩, hall⟩, hf, -⟩ :=
    cylinder_feature_spec r hl hr hh a (Quat.rotate orn.conjugate d) tol ht
  have e : ∀ p, dot (pos + Quat.rotate orn p) d = dot pos d + dot p (Quat.rotate orn.conjugate d) := fun p => by
    rw [dot_add_left, dot_rotate ho]
  refine ⟨⟨dot pos d + m, ⟨⟨_, ⟨p0, hp0, rfl⟩, by rw [e, e0]⟩, ?_⟩, ⟨_, ⟨p1, hp1, rfl⟩, by rw [e, e1]⟩, ?_⟩, ?_⟩
  · rintro w ⟨q, hq, rfl⟩
    rw [e]; linarith [hm q hq]
  · rintro w ⟨q, hq, rfl⟩
    rw [e]
    have := hall q hq
    exact ⟨by linarith [this.1], fun h => by rw [this.2 h]⟩
  · refine hf.trans ⟨?_, ?_⟩
    · rintro h _ _ ⟨p, hp, rfl⟩ ⟨q, hq, rfl⟩
      rw [e, e]; linarith [h p q hp hq]
    · intro h p q hp hq
      have := h _ _ ⟨p, hp, rfl⟩ ⟨q, hq, rfl⟩
      rw [e, e] at this; linarith

/-- Not vacuous: a turned cylinder, seen along its axis. -/
example : (cylFeatureAt 1 2 .y ⟨3 / 5, 0, 0, 4 / 5⟩ ⟨0, 7 / 25, 24 / 25⟩ (1 / 100)).1 = .face := by
  norm_num [cylFeatureAt, cylFeature, Axis.c0, Axis.c1, Axis.c2, Quat.rotate, Quat.conjugate, dot, cross]

/-! ## Triangles -/

/-- The vertices of a feature of a triangle. -/
def TriPart : TriFeat → ℕ → Fin 3 → Prop
  | .vertex, i => fun k => k.val = i
  | .edge, i => fun k => k.val = i ∨ k.val = (i + 1) % 3
  | .face, _ => fun _ => True

/-- The full statement for triangles: the projection is the largest one of a vertex, and the feature consists
of the vertices within the tolerance of it. -/
def TriFeatureFull : Prop :=
  ∀ (v : Fin 3 → V3 ℝ) (o d : V3 ℝ) (tol : ℝ), 0 < tol →
    (∀ k, dot (v k - o) d ≤ (triFeature v o d tol).proj) ∧ (∃ k, dot (v k - o) d = (triFeature v o d tol).proj) ∧
    ∀ k, TriPart (triFeature v o d tol).feat (triFeature v o d tol).index k ↔
      (triFeature v o d tol).proj - tol < dot (v k - o) d

/-- **C75, the support feature of a triangle, partial.** The projection is one of a vertex and less than the
tolerance below the largest one; every vertex of the feature is less than twice the tolerance below the largest
projection.  If any two vertices have projections which are equal or differ by at least twice the tolerance, the
projection is the largest one and the feature consists of the vertices which have it.  Missing: see
`tri_feature_refuted` and `tri_feature_far`. -/
theorem tri_feature_partial (v : Fin 3 → V3 ℝ) (o d : V3 ℝ) (tol : ℝ) (ht : 0 < tol) :
    (∃ k, dot (v k - o) d = (triFeature v o d tol).proj) ∧
    (∀ k, dot (v k - o) d < (triFeature v o d tol).proj + tol) ∧
    (∀ k, TriPart (triFeature v o d tol).feat (triFeature v o d tol).index k → ∀ j,
      dot (v j - o) d - 2 * tol < dot (v k - o) d) ∧
    ((∀ j k, dot (v j - o) d = dot (v k - o) d ∨ 2 * tol ≤ |dot (v j - o) d - dot (v k - o) d|) →
      ∀ k, dot (v k - o) d ≤ (triFeature v o d tol).proj ∧
        (TriPart (triFeature v o d tol).feat (triFeature v o d tol).index k ↔
          dot (v k - o) d = (triFeature v o d tol).proj)) := by
  have all3 : ∀ P : Fin 3 → Prop, (∀ a, P a) ↔ P 0 ∧ P 1 ∧ P 2 := fun P => Fin.forall_fin_succ.trans (by
    simp [Fin.forall_fin_succ])
  have ex3 : ∀ P : Fin 3 → Prop, (∃ a, P a) ↔ P 0 ∨ P 1 ∨ P 2 := fun P => Fin.exists_fin_succ.trans (by
    simp [Fin.exists_fin_succ])
  simp only [all3, ex3]
  unfold triFeature
  generalize dot (v 0 - o) d = a
  generalize dot (v 1 - o) d = b
  generalize dot (v 2 - o) d = c
  clear all3 ex3
  have e1 : triStep tol 1 b ⟨.vertex, 0, a⟩ = if |b - a| < tol then ⟨.edge, 0, max b a⟩ else
      if a < b then ⟨.vertex, 1, b⟩ else ⟨.vertex, 0, a⟩ := rfl
  rw [e1]
  by_cases h1 : |b - a| < tol
  · rw [if_pos h1]
    have e2 : triStep tol 2 c ⟨.edge, 0, max b a⟩ = if |c - max b a| < tol then ⟨.face, 0, max c (max b a)⟩ else
        if max b a < c then ⟨.vertex, 2, c⟩ else ⟨.edge, 0, max b a⟩ := rfl
    rw [e2]
    clear e1 e2
    rcases le_total a b with hab | hab
    · rw [max_eq_left hab]
      split_ifs with h2 h3 <;> simp [TriPart, le_abs] <;> (try and_intros) <;> grind [abs_lt]
    · rw [max_eq_right hab]
      split_ifs with h2 h3 <;> simp [TriPart, le_abs] <;> (try and_intros) <;> grind [abs_lt]
  · rw [if_neg h1]
    by_cases h2 : a < b
    · rw [if_pos h2]
      have e2 : triStep tol 2 c ⟨.vertex, 1, b⟩ = if |c - b| < tol then ⟨.edge, 1, b⟩ else
          if b < c then ⟨.vertex, 2, c⟩ else ⟨.vertex, 1, b⟩ := rfl
      rw [e2]
      split_ifs with h3 h4 <;> simp [TriPart, le_abs] <;> (try and_intros) <;> grind [abs_lt]
    · rw [if_neg h2]
      have e2 : triStep tol 2 c ⟨.vertex, 0, a⟩ = if |c - a| < tol then ⟨.edge, 2, a⟩ else
          if a < c then ⟨.vertex, 2, c⟩ else ⟨.vertex, 0, a⟩ := rfl
      rw [e2]
      split_ifs with h3 h4 <;> simp [TriPart, le_abs] <;> (try and_intros) <;> grind [abs_lt]

theorem vec3_two {α : Type} (a b c : α) : ![a, b, c] 2 = c := rfl

/-- The third vertex is a little further than the first one: the projection is not the largest one. -/
theorem tri_feature_refuted : ¬ TriFeatureFull := by
  intro h
  have := (h ![⟨0, 0, 0⟩, ⟨0, -9, 0⟩, ⟨1, 1 / 2, 0⟩] 0 ⟨0, 1, 0⟩ 1 one_pos).1 2
  have e : triFeature ![⟨0, 0, 0⟩, ⟨0, -9, 0⟩, ⟨1, 1 / 2, 0⟩] 0 ⟨0, 1, 0⟩ 1 = ⟨.edge, 2, 0⟩ := by
    norm_num [triFeature, triStep, dot, vec3_two, abs_of_pos, abs_of_neg]
  rw [e] at this
  norm_num [dot, vec3_two] at this

/-- The whole triangle is the feature although one vertex is further than the tolerance below another one. -/
theorem tri_feature_far : ∃ v : Fin 3 → V3 ℝ, (triFeature v 0 ⟨0, 1, 0⟩ 1).feat = .face ∧
    dot (v 0) ⟨0, 1, 0⟩ + 1 < dot (v 2) ⟨0, 1, 0⟩ := by
  refine ⟨![⟨0, 0, 0⟩, ⟨1, 3 / 4, 0⟩, ⟨2, 3 / 2, 0⟩], ?_, by norm_num [dot, vec3_two]⟩
  norm_num [triFeature, triStep, dot, vec3_two, abs_of_pos]

/-- Not vacuous: a triangle with an edge across the direction. -/
example : (triFeature ![⟨0, 1, 0⟩, ⟨1, 1, 0⟩, ⟨0, -5, 0⟩] 0 ⟨0, 1, 0⟩ 1).feat = .edge := by
  norm_num [triFeature, triStep, dot, vec3_two, abs_of_neg]

/-- **C75, clipping the separating axis of a triangle.** The axis is kept, or replaced by the normal of the
triangle or of the face on the other side of an edge of the feature.  A kept axis is not beyond the face on
the other side of any edge of the feature.  At an edge the axis which is returned is never beyond the face
on the other side, unless the edge is concave, in which case it is the normal.  At a vertex between convex
edges an axis beyond one of them is replaced by the normal on the other side of the edge it is most beyond. -/
theorem tri_clip_spec (sep : V3 ℝ) (adj v : Fin 3 → V3 ℝ) (n : V3 ℝ) (k : TriFeat) (i : Fin 3) :
    let r := triClip sep adj v n k i
    let beyond := fun (e : Fin 3) (x : V3 ℝ) => 0 < dot x (cross (v (e + 1) - v e) (adj e))
    let concave := fun (e : Fin 3) => 0 ≤ dot n (cross (v (e + 1) - v e) (adj e))
    (r = sep ∨ r = n ∨ (k = .vertex ∧ r = adj (i + 2)) ∨ (k ≠ .face ∧ r = adj i)) ∧
    (k = .face → r = n) ∧
    (k = .edge → if concave i then r = n else ¬ beyond i r ∧ (¬ beyond i sep → r = sep)) ∧
    (k = .vertex → ¬ concave i → ¬ concave (i + 2) → (¬ beyond i sep → ¬ beyond (i + 2) sep → r = sep) ∧
      (beyond i sep ∨ beyond (i + 2) sep → ∃ e, (e = i ∨ e = i + 2) ∧ r = adj e ∧ beyond e sep ∧
        ∀ f, f = i ∨ f = i + 2 → dot sep (cross (v (f + 1) - v f) (adj f)) ≤
          dot sep (cross (v (e + 1) - v e) (adj e)))) := by
  have perp : ∀ x y : V3 ℝ, dot y (cross x y) = 0 := by intro x y; simp [dot, cross]; ring
  cases k
  · simp only [triClip, perp]
    generalize h0 : dot sep (cross (v (i + 1) - v i) (adj i)) = s0
    generalize h2 : dot sep (cross (v (i + 2 + 1) - v (i + 2)) (adj (i + 2))) = s1
    generalize dot n (cross (v (i + 1) - v i) (adj i)) = n0
    generalize dot n (cross (v (i + 2 + 1) - v (i + 2)) (adj (i + 2))) = n1
    refine ⟨by split_ifs <;> simp_all, by simp, by simp, fun _ c0 c1 => ⟨fun b0 b1 => ?_, fun hb => ?_⟩⟩
    · split_ifs <;> simp_all <;> grind
    · by_cases h : s1 < s0
      · refine ⟨i, .inl rfl, ?_, ?_, ?_⟩
        · grind
        · grind
        · rintro f (rfl | rfl) <;> linarith
      · refine ⟨i + 2, .inr rfl, ?_, ?_, ?_⟩
        · grind
        · grind
        · rintro f (rfl | rfl) <;> linarith
  · simp only [triClip]
    have p1 := perp (v (i + 1) - v i) (adj i)
    split_ifs with h1 h2 h3 <;> simp_all <;> exact absurd h1 (not_lt.mpr (by assumption))
  · simp [triClip]

end Edyn.Geom
