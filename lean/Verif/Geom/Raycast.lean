import Verif.Geom.Triangle

/-!
# Casting a segment against a shape (C70): specification, spheres, planes, boxes

`src/edyn/collision/raycast.cpp`.  Scalars are exact reals; `eps` is `EDYN_EPSILON`, `big` is `EDYN_SCALAR_MAX` and
`tiny` the constant `1e-18` of `normalize`.
-/

namespace Edyn.Geom

open Edyn.Math V3

/-! ## Results -/

/-- `shape_raycast_result`, `raycast.hpp` 104-122, of a hit.  Simplification: the details about the feature are
left out.  A normal which is not determined (read before it is written, zero divided by zero) is `none`. -/
structure RayHit where
  fraction : ℝ
  normal : Option (V3 ℝ)

/-- The result of a function which may fail an assertion (`none`) or hit nothing (`some none`, the default
fraction `EDYN_SCALAR_MAX`). -/
abbrev RayRes := Option (Option RayHit)

/-! ## Specification -/

/-- The parameter is the one of the first point of the segment which belongs to the shape. -/
def FirstHit (S : V3 ℝ → Prop) (p0 p1 : V3 ℝ) (t : ℝ) : Prop :=
  0 ≤ t ∧ t ≤ 1 ∧ S (along p0 p1 t) ∧ ∀ s, 0 ≤ s → s < t → ¬ S (along p0 p1 s)

/-- No point of the segment belongs to the shape. -/
def Misses (S : V3 ℝ → Prop) (p0 p1 : V3 ℝ) : Prop := ∀ t, 0 ≤ t → t ≤ 1 → ¬ S (along p0 p1 t)

/-- A unit vector such that all of the (convex) shape lies on the other side of the plane through the point. -/
def Outward (S : V3 ℝ → Prop) (p n : V3 ℝ) : Prop := lengthSqr n = 1 ∧ ∀ q, S q → dot n (q - p) ≤ 0

/-- The result is exactly what the property demands. -/
structure RayExact (S : V3 ℝ → Prop) (p0 p1 : V3 ℝ) (r : RayRes) : Prop where
  hit : ∀ h, r = some (some h) → FirstHit S p0 p1 h.fraction
  normal : ∀ h, r = some (some h) → ¬ S p0 → ∃ n, h.normal = some n ∧ Outward S (along p0 p1 h.fraction) n
  miss : r = some none → Misses S p0 p1
  ok : r ≠ none

/-! ## Lemmas about placed shapes -/

theorem placed_iff (S : Shape) (pos : V3 ℝ) {orn : Quat ℝ} (ho : orn.lengthSqr = 1) (w : V3 ℝ) :
    Placed S pos orn w ↔ S (toObjectSpace w pos orn) := by
  constructor
  · rintro ⟨p, hp, rfl⟩
    have : toObjectSpace (pos + Quat.rotate orn p) pos orn = p := by
      unfold toObjectSpace
      have e : pos + Quat.rotate orn p - pos = Quat.rotate orn p := by ext <;> simp
      rw [e, (rotate_conjugate orn ho p).1]
    rwa [this]
  · intro h
    refine ⟨_, h, ?_⟩
    unfold toObjectSpace
    rw [(rotate_conjugate orn ho _).2]
    ext <;> simp

theorem toObject_along (p0 p1 pos : V3 ℝ) (orn : Quat ℝ) (t : ℝ) :
    toObjectSpace (along p0 p1 t) pos orn = along (toObjectSpace p0 pos orn) (toObjectSpace p1 pos orn) t := by
  unfold toObjectSpace along
  rw [← rotate_sub, ← rotate_smul, ← rotate_add]
  congr 1
  ext <;> simp <;> ring

theorem toObject_sub (p q pos : V3 ℝ) (orn : Quat ℝ) :
    toObjectSpace p pos orn - toObjectSpace q pos orn = Quat.rotate orn.conjugate (p - q) := by
  unfold toObjectSpace
  rw [← rotate_sub]
  congr 1
  ext <;> simp

/-- Casting in object space is casting in the world. -/
theorem firstHit_placed {S : Shape} {pos : V3 ℝ} {orn : Quat ℝ} (ho : orn.lengthSqr = 1) {p0 p1 : V3 ℝ} {t : ℝ} :
    FirstHit (Placed S pos orn) p0 p1 t ↔
      FirstHit S (toObjectSpace p0 pos orn) (toObjectSpace p1 pos orn) t := by
  unfold FirstHit
  simp only [placed_iff S pos ho, toObject_along]

theorem misses_placed {S : Shape} {pos : V3 ℝ} {orn : Quat ℝ} (ho : orn.lengthSqr = 1) {p0 p1 : V3 ℝ} :
    Misses (Placed S pos orn) p0 p1 ↔ Misses S (toObjectSpace p0 pos orn) (toObjectSpace p1 pos orn) := by
  unfold Misses
  simp only [placed_iff S pos ho, toObject_along]

theorem outward_placed {S : Shape} {pos : V3 ℝ} {orn : Quat ℝ} (ho : orn.lengthSqr = 1) {p n : V3 ℝ}
    (h : Outward S (toObjectSpace p pos orn) n) : Outward (Placed S pos orn) p (Quat.rotate orn n) := by
  refine ⟨rotate_unit ho h.1, ?_⟩
  intro q hq
  rw [placed_iff S pos ho] at hq
  have := h.2 _ hq
  rw [toObject_sub] at this
  rw [dot_rotate ho]
  exact this

/-! ## Spheres -/

/-- `intersect_ray_sphere`, `geom.cpp` 1276-1305; `none` is the return value `false`. -/
noncomputable def raySphere (p0 p1 pos : V3 ℝ) (r : ℝ) : Option ℝ :=
  let d := p1 - p0
  let m := p0 - pos
  let a := dot d d
  let b := dot m d
  let c := dot m m - r * r
  if 0 < c ∧ 0 < b then none else
  if b * b - a * c < 0 then none else
  some (max 0 ((-b - Real.sqrt (b * b - a * c)) / a))

/-- `normalize`, `vector3.hpp` 230-235. -/
noncomputable def normalizeV (tiny : ℝ) (v : V3 ℝ) : Option (V3 ℝ) :=
  if tiny < Real.sqrt (lengthSqr v) then some (smul (1 / Real.sqrt (lengthSqr v)) v) else none

/-- `shape_raycast` of a sphere, `raycast.cpp` 182-195. -/
noncomputable def sphereRay (tiny r : ℝ) (pos p0 p1 : V3 ℝ) : RayRes :=
  match raySphere p0 p1 pos r with
  | none => some none
  | some t => (normalizeV tiny (along p0 p1 t - pos)).map fun n => some ⟨t, some n⟩

/-- The full statement for spheres. -/
def SphereRayFull (tiny : ℝ) : Prop :=
  ∀ (r : ℝ) (pos p0 p1 : V3 ℝ) (orn : Quat ℝ), tiny < r → orn.lengthSqr = 1 → p0 ≠ p1 →
    RayExact (Placed (ballSet r) pos orn) p0 p1 (sphereRay tiny r pos p0 p1)

theorem placed_ball (r : ℝ) (pos : V3 ℝ) {orn : Quat ℝ} (ho : orn.lengthSqr = 1) (w : V3 ℝ) :
    Placed (ballSet r) pos orn w ↔ lengthSqr (w - pos) ≤ r * r := by
  rw [placed_iff _ _ ho]
  unfold ballSet toObjectSpace
  rw [rotate_length _ (conjugate_unit ho)]

theorem lengthSqr_sub_pos {p q : V3 ℝ} (h : p ≠ q) : 0 < lengthSqr (q - p) := by
  refine lt_of_le_of_ne (lengthSqr_nonneg _) (fun h0 => h ?_)
  have := lengthSqr_eq_zero h0.symm
  have hx := congrArg V3.x this
  have hy := congrArg V3.y this
  have hz := congrArg V3.z this
  simp at hx hy hz
  ext <;> linarith

/-- The points of the ray in the ball, from the quadratic equation. -/
theorem raySphere_spec (p0 p1 pos : V3 ℝ) (r : ℝ) (hp : p0 ≠ p1) :
    (raySphere p0 p1 pos r = none → ∀ t, 0 ≤ t → r * r < lengthSqr (along p0 p1 t - pos)) ∧
    (∀ t, raySphere p0 p1 pos r = some t → 0 ≤ t ∧ lengthSqr (along p0 p1 t - pos) ≤ r * r ∧
      (r * r < lengthSqr (p0 - pos) → lengthSqr (along p0 p1 t - pos) = r * r) ∧
      ∀ s, 0 ≤ s → s < t → r * r < lengthSqr (along p0 p1 s - pos)) := by
  have ha : 0 < dot (p1 - p0) (p1 - p0) := lengthSqr_sub_pos hp
  unfold raySphere
  simp only
  have hlen : ∀ t, lengthSqr (along p0 p1 t - pos) - r * r = dot (p1 - p0) (p1 - p0) * t * t
      + 2 * dot (p0 - pos) (p1 - p0) * t + (dot (p0 - pos) (p0 - pos) - r * r) := by
    intro t; simp [lengthSqr, dot, along]; ring
  have hc' : lengthSqr (p0 - pos) - r * r = dot (p0 - pos) (p0 - pos) - r * r := rfl
  generalize dot (p1 - p0) (p1 - p0) = a at *
  generalize dot (p0 - pos) (p1 - p0) = b at *
  generalize dot (p0 - pos) (p0 - pos) - r * r = c at *
  have hsq : ∀ t, a * (lengthSqr (along p0 p1 t - pos) - r * r) = (a * t + b) * (a * t + b) - (b * b - a * c) := by
    intro t; rw [hlen]; ring
  by_cases h1 : 0 < c ∧ 0 < b
  · rw [if_pos h1]
    refine ⟨fun _ t ht => ?_, fun t h => absurd h (by simp)⟩
    have := hlen t
    have h2 := mul_nonneg (mul_nonneg ha.le ht) ht
    have h3 := mul_nonneg h1.2.le ht
    linarith [h1.1]
  rw [if_neg h1]
  by_cases h2 : b * b - a * c < 0
  · rw [if_pos h2]
    refine ⟨fun _ t _ => ?_, fun t h => absurd h (by simp)⟩
    have := hsq t
    have h3 := mul_self_nonneg (a * t + b)
    by_contra hc
    have : a * (lengthSqr (along p0 p1 t - pos) - r * r) ≤ 0 :=
      mul_nonpos_of_nonneg_of_nonpos ha.le (by linarith)
    linarith
  rw [if_neg h2]
  refine ⟨fun h => absurd h (by simp), ?_⟩
  intro t ht
  rw [Option.some_inj] at ht
  set D := b * b - a * c with hD
  have hD0 : 0 ≤ D := not_lt.1 h2
  have hs0 : 0 ≤ Real.sqrt D := Real.sqrt_nonneg _
  have hsS : Real.sqrt D * Real.sqrt D = D := Real.mul_self_sqrt hD0
  set S := Real.sqrt D with hS
  set t0 := (-b - S) / a with ht0
  have hat0 : a * t0 = -b - S := by rw [ht0]; field_simp
  have inside : ∀ u, (a * u + b) * (a * u + b) ≤ D → lengthSqr (along p0 p1 u - pos) ≤ r * r := by
    intro u hu
    have := hsq u
    by_contra hcon
    have : 0 < a * (lengthSqr (along p0 p1 u - pos) - r * r) := mul_pos ha (by linarith)
    linarith
  have outside : ∀ u, D < (a * u + b) * (a * u + b) → r * r < lengthSqr (along p0 p1 u - pos) := by
    intro u hu
    have := hsq u
    by_contra hcon
    have : a * (lengthSqr (along p0 p1 u - pos) - r * r) ≤ 0 :=
      mul_nonpos_of_nonneg_of_nonpos ha.le (by linarith)
    linarith
  rcases le_total 0 t0 with h0 | h0
  · rw [max_eq_right h0] at ht
    subst ht
    refine ⟨h0, inside _ (by rw [hat0]; nlinarith), fun _ => ?_, ?_⟩
    · have := hsq t0
      rw [hat0] at this
      have e : a * (lengthSqr (along p0 p1 t0 - pos) - r * r) = 0 := by rw [this]; nlinarith
      rcases mul_eq_zero.1 e with h | h
      · exact absurd h ha.ne'
      · linarith
    · intro s _ hlt
      apply outside
      have : a * s < a * t0 := by nlinarith
      nlinarith
  · rw [max_eq_left h0] at ht
    subst ht
    have hcle : c ≤ 0 ∨ t0 = 0 := by
      by_contra hcon
      push Not at hcon
      have hb : b ≤ 0 := by
        by_contra hb; exact h1 ⟨hcon.1, by linarith⟩
      have hlt0 : t0 < 0 := lt_of_le_of_ne h0 hcon.2
      have hac : 0 < a * c := mul_pos ha hcon.1
      have : a * t0 < 0 := by nlinarith
      have hSb : -b < S := by linarith
      nlinarith
    have hin : lengthSqr (along p0 p1 0 - pos) ≤ r * r := by
      rcases hcle with h | h
      · have := hlen 0
        simp at this
        linarith
      · apply inside
        rw [← h, hat0]; nlinarith
    refine ⟨le_refl _, hin, fun hp0 => ?_, ?_⟩
    · have : along p0 p1 0 = p0 := by ext <;> simp [along]
      rw [this] at hin
      linarith
    · intro s h h'
      linarith

/-- The direction from the centre is the outward normal of a ball. -/
theorem ball_outward {r tiny : ℝ} (ht : 0 ≤ tiny) (hr : tiny < r) {pos : V3 ℝ} {orn : Quat ℝ}
    (ho : orn.lengthSqr = 1) {x : V3 ℝ} (hx : lengthSqr (x - pos) = r * r) :
    ∃ n, normalizeV tiny (x - pos) = some n ∧ Outward (Placed (ballSet r) pos orn) x n := by
  have hr0 : 0 < r := lt_of_le_of_lt ht hr
  have hs : Real.sqrt (lengthSqr (x - pos)) = r := by rw [hx]; exact Real.sqrt_mul_self hr0.le
  refine ⟨smul (1 / r) (x - pos), ?_, ?_, ?_⟩
  · unfold normalizeV
    rw [hs, if_pos hr]
  · have : lengthSqr (smul (1 / r) (x - pos)) = 1 / r * (1 / r) * lengthSqr (x - pos) := by
      simp [lengthSqr, dot]; ring
    rw [this, hx]; field_simp
  · intro q hq
    rw [placed_ball r pos ho] at hq
    have e : dot (smul (1 / r) (x - pos)) (q - x)
        = 1 / r * (dot (x - pos) (q - pos) - lengthSqr (x - pos)) := by
      simp [lengthSqr, dot]; ring
    rw [e, hx]
    have hc := dot_sq_le (x - pos) (q - pos)
    rw [hx] at hc
    have hle : dot (x - pos) (q - pos) ≤ r * r := by
      by_contra hcon
      push Not at hcon
      have h0 := lengthSqr_nonneg (q - pos)
      have h2 : r * r * lengthSqr (q - pos) ≤ r * r * (r * r) := mul_le_mul_of_nonneg_left hq (by positivity)
      have h3 : 0 < r * r := by positivity
      nlinarith
    exact mul_nonpos_of_nonneg_of_nonpos (by positivity) (by linarith)

/-- **C70, spheres.** Proved: a hit within the segment is the first point of the ball, with the outward normal if
the segment starts outside; nothing is missed; a fraction above one means that the segment ends before the ball;
the assertion fails only if the segment starts at the centre.  Missing: the fraction is not limited to one
(`sphere_ray_refuted`) and segments which start at the centre (`sphere_ray_center`). -/
theorem sphere_ray_partial (tiny : ℝ) (ht : 0 ≤ tiny) (r : ℝ) (pos p0 p1 : V3 ℝ) (orn : Quat ℝ) (hr : tiny < r)
    (ho : orn.lengthSqr = 1) (hp : p0 ≠ p1) :
    (∀ h, sphereRay tiny r pos p0 p1 = some (some h) → h.fraction ≤ 1 →
      FirstHit (Placed (ballSet r) pos orn) p0 p1 h.fraction) ∧
    (∀ h, sphereRay tiny r pos p0 p1 = some (some h) → ¬ Placed (ballSet r) pos orn p0 →
      ∃ n, h.normal = some n ∧ Outward (Placed (ballSet r) pos orn) (along p0 p1 h.fraction) n) ∧
    (∀ h, sphereRay tiny r pos p0 p1 = some (some h) → 1 < h.fraction → Misses (Placed (ballSet r) pos orn) p0 p1) ∧
    (sphereRay tiny r pos p0 p1 = some none → Misses (Placed (ballSet r) pos orn) p0 p1) ∧
    (sphereRay tiny r pos p0 p1 = none → Real.sqrt (lengthSqr (p0 - pos)) ≤ tiny) := by
  have hr0 : 0 < r := lt_of_le_of_lt ht hr
  obtain ⟨hn, hs⟩ := raySphere_spec p0 p1 pos r hp
  unfold sphereRay
  simp only [FirstHit, Misses, placed_ball r pos ho, not_le]
  cases hray : raySphere p0 p1 pos r with
  | none =>
    refine ⟨by simp, by simp, by simp, fun _ t h0 _ => hn hray t h0, by simp⟩
  | some t =>
    obtain ⟨h0, hin, hout, hfirst⟩ := hs t hray
    simp only [Option.map_eq_some_iff, Option.some_inj, Option.map_eq_none_iff]
    refine ⟨?_, ?_, ?_, ?_, ?_⟩
    · rintro h ⟨n, -, rfl⟩ h1
      exact ⟨h0, h1, hin, hfirst⟩
    · rintro h ⟨n, hn', rfl⟩ hp0
      obtain ⟨n', e1, e2⟩ := ball_outward ht hr ho (hout hp0)
      rw [e1, Option.some_inj] at hn'
      subst hn'
      exact ⟨_, rfl, e2⟩
    · rintro h ⟨n, -, rfl⟩ h1 s hs0 hs1
      exact hfirst s hs0 (by simp only at h1; linarith)
    · rintro ⟨n, -, h⟩
      simp at h
    · intro hnone
      rcases lt_or_ge (r * r) (lengthSqr (p0 - pos)) with h | h
      · obtain ⟨n', e1, -⟩ := ball_outward ht hr ho (hout h)
        rw [e1] at hnone
        simp at hnone
      · have ht0 : t = 0 := by
          by_contra hne
          have := hfirst 0 (le_refl _) (lt_of_le_of_ne h0 (Ne.symm hne))
          have e : along p0 p1 0 = p0 := by ext <;> simp [along]
          rw [e] at this
          linarith
        subst ht0
        have e : along p0 p1 0 = p0 := by ext <;> simp [along]
        rw [e] at hnone
        unfold normalizeV at hnone
        split at hnone
        · simp at hnone
        · rename_i h'; exact not_lt.1 h'

theorem quat_one_unit : (⟨0, 0, 0, 1⟩ : Quat ℝ).lengthSqr = 1 := by simp [Quat.lengthSqr]

/-- **Finding.** A segment which ends before a sphere is reported to hit it, with a fraction above one. -/
theorem sphere_ray_refuted : ¬ SphereRayFull (1 / 100) := by
  intro h
  have h1 := h 1 ⟨0, 0, 0⟩ ⟨-3, 0, 0⟩ ⟨-2, 0, 0⟩ ⟨0, 0, 0, 1⟩ (by norm_num) quat_one_unit
    (by simp [V3.ext_iff])
  have e : raySphere ⟨-3, 0, 0⟩ ⟨-2, 0, 0⟩ ⟨0, 0, 0⟩ 1 = some 2 := by
    unfold raySphere
    simp only
    rw [if_neg (by simp [dot]; norm_num), if_neg (by simp [dot]; norm_num)]
    have : Real.sqrt 1 = 1 := Real.sqrt_one
    simp [dot]; norm_num
  obtain ⟨n, hn, -⟩ := ball_outward (tiny := 1 / 100) (r := 1) (pos := ⟨0, 0, 0⟩) (x := ⟨-1, 0, 0⟩) (by norm_num)
    (by norm_num) quat_one_unit (by simp [lengthSqr, dot])
  have e2 : sphereRay (1 / 100) 1 ⟨0, 0, 0⟩ ⟨-3, 0, 0⟩ ⟨-2, 0, 0⟩ = some (some ⟨2, some n⟩) := by
    unfold sphereRay
    rw [e]
    have : along ⟨-3, 0, 0⟩ ⟨-2, 0, 0⟩ 2 = (⟨-1, 0, 0⟩ : V3 ℝ) := by ext <;> simp [along]; norm_num
    simp only [this, hn, Option.map_some]
  have := (h1.hit _ e2).2.1
  norm_num at this

/-- **Finding.** A segment which starts at the centre of a sphere fails an assertion. -/
theorem sphere_ray_center (tiny r : ℝ) (ht : 0 ≤ tiny) (hr : 0 < r) (pos p1 : V3 ℝ) (hp : pos ≠ p1) :
    sphereRay tiny r pos pos p1 = none := by
  obtain ⟨hn, hs⟩ := raySphere_spec pos p1 pos r hp
  have e0 : along pos p1 0 = pos := by ext <;> simp [along]
  have e1 : lengthSqr (pos - pos) = 0 := by simp [lengthSqr, dot]
  unfold sphereRay
  cases hray : raySphere pos p1 pos r with
  | none =>
    have := hn hray 0 (le_refl _)
    rw [e0, e1] at this
    nlinarith
  | some t =>
    obtain ⟨h0, hin, hout, hfirst⟩ := hs t hray
    have ht0 : t = 0 := by
      by_contra hne
      have := hfirst 0 (le_refl _) (lt_of_le_of_ne h0 (Ne.symm hne))
      rw [e0, e1] at this
      nlinarith
    subst ht0
    simp only
    unfold normalizeV
    rw [e0, e1, Real.sqrt_zero, if_neg (not_lt.2 ht)]
    rfl

/-! ## Planes -/

/-- `shape_raycast` of a plane, `raycast.cpp` 356-378. -/
noncomputable def planeRay (eps : ℝ) (n : V3 ℝ) (c : ℝ) (p0 p1 : V3 ℝ) : RayRes :=
  let d := dot (p1 - p0) n
  let e := dot (smul c n - p0) n
  if |d| < eps then (if |e| < eps then some (some ⟨0, some n⟩) else some none)
  else some (some ⟨e / d, some n⟩)

/-- The points of a plane. -/
def planeSet (n : V3 ℝ) (c : ℝ) : V3 ℝ → Prop := fun p => dot n p = c

/-- The full statement for planes: the first common point of the segment and the plane. -/
def PlaneRayFull (eps : ℝ) : Prop :=
  ∀ (n : V3 ℝ) (c : ℝ) (p0 p1 : V3 ℝ), lengthSqr n = 1 →
    (∀ h, planeRay eps n c p0 p1 = some (some h) → FirstHit (planeSet n c) p0 p1 h.fraction) ∧
    (planeRay eps n c p0 p1 = some none → Misses (planeSet n c) p0 p1)

/-- **C70, planes.** Proved: if the segment is not parallel to the plane (or exactly parallel and not within the
tolerance), a hit within the segment is the only common point and the normal is the one of the plane; otherwise
there is none.  Missing: the fraction is not limited to the segment (`plane_ray_refuted`). -/
theorem plane_ray_partial (eps : ℝ) (he : 0 < eps) (n : V3 ℝ) (c : ℝ) (p0 p1 : V3 ℝ) (hn : lengthSqr n = 1)
    (hd : eps ≤ |dot (p1 - p0) n| ∧ 0 < |dot (p1 - p0) n| ∨ dot (p1 - p0) n = 0 ∧ eps ≤ |c - dot n p0|) :
    (∀ h, planeRay eps n c p0 p1 = some (some h) → h.normal = some n ∧
      (0 ≤ h.fraction → h.fraction ≤ 1 → FirstHit (planeSet n c) p0 p1 h.fraction) ∧
      (h.fraction < 0 ∨ 1 < h.fraction → Misses (planeSet n c) p0 p1)) ∧
    (planeRay eps n c p0 p1 = some none → Misses (planeSet n c) p0 p1) ∧ planeRay eps n c p0 p1 ≠ none := by
  have he' : dot (smul c n - p0) n = c - dot n p0 := by
    have : dot (smul c n - p0) n = c * lengthSqr n - dot n p0 := by simp [dot, lengthSqr]; ring
    rw [this, hn, mul_one]
  have hal : ∀ t, dot n (along p0 p1 t) = dot n p0 + t * dot (p1 - p0) n := by
    intro t; simp [dot, along]; ring
  unfold planeRay
  simp only [he', Misses, FirstHit, planeSet, hal]
  rcases hd with ⟨hd, hd0⟩ | ⟨hd, hc⟩
  · rw [if_neg (not_lt.2 hd)]
    have hne : dot (p1 - p0) n ≠ 0 := abs_pos.1 hd0
    have uniq : ∀ t, dot n p0 + t * dot (p1 - p0) n = c ↔ t = (c - dot n p0) / dot (p1 - p0) n := by
      intro t
      rw [eq_div_iff hne]
      constructor <;> intro h <;> linarith
    refine ⟨?_, by simp, by simp⟩
    intro h hh
    simp only [Option.some_inj] at hh
    subst hh
    refine ⟨rfl, fun h0 h1 => ⟨h0, h1, (uniq _).2 rfl, ?_⟩, ?_⟩
    · intro s _ hlt hs
      exact absurd ((uniq s).1 hs) hlt.ne
    · intro hr t h0 h1 hh
      rw [uniq] at hh
      rw [← hh] at hr
      rcases hr with h | h <;> linarith
  · have hlt : ¬ |c - dot n p0| < eps := not_lt.2 hc
    by_cases hz : |dot (p1 - p0) n| < eps
    · rw [if_pos hz, if_neg hlt]
      refine ⟨by simp, ?_, by simp⟩
      intro _ t _ _ h
      rw [hd, mul_zero, add_zero] at h
      rw [h, sub_self, abs_zero] at hlt
      rw [hd, abs_zero] at hz
      exact hlt hz
    · rw [hd, abs_zero] at hz
      exact absurd he hz

/-- **Finding.** A segment which ends before a plane is reported to hit it. -/
theorem plane_ray_refuted (eps : ℝ) (he : eps ≤ 1) : ¬ PlaneRayFull eps := by
  intro h
  have h1 := (h ⟨0, 1, 0⟩ 0 ⟨0, 3, 0⟩ ⟨0, 2, 0⟩ (by simp [lengthSqr, dot])).1 ⟨3, some ⟨0, 1, 0⟩⟩ (by
    unfold planeRay
    simp only
    rw [if_neg (by simp [dot]; norm_num; exact he)]
    simp [dot]; norm_num)
  have := h1.2.1
  norm_num at this

/-- **Finding.** A segment which moves away from a plane is reported to hit it, at a negative fraction. -/
theorem plane_ray_behind (eps : ℝ) (he : eps ≤ 1) :
    planeRay eps ⟨0, 1, 0⟩ 0 ⟨0, 3, 0⟩ ⟨0, 4, 0⟩ = some (some ⟨-3, some ⟨0, 1, 0⟩⟩) ∧
      Misses (planeSet ⟨0, 1, 0⟩ 0) ⟨0, 3, 0⟩ ⟨0, 4, 0⟩ := by
  refine ⟨?_, ?_⟩
  · unfold planeRay
    simp only
    rw [if_neg (by simp [dot]; norm_num; exact he)]
    simp [dot]; norm_num
  · intro t h0 h1 h
    simp [planeSet, along, dot] at h
    linarith

/-- A segment through a plane. -/
example : planeRay (1 / 100) ⟨0, 1, 0⟩ 1 ⟨0, 3, 0⟩ ⟨0, -1, 0⟩ = some (some ⟨1 / 2, some ⟨0, 1, 0⟩⟩) := by
  unfold planeRay
  simp only
  rw [if_neg (by simp [dot]; norm_num)]
  simp [dot]; norm_num

/-! ## Boxes -/

/-- The range of parameters and the index of the entered face (`none`: `SIZE_MAX`). -/
structure BoxState where
  tmin : ℝ
  tmax : ℝ
  face : Option ℕ

/-- One axis of the loop in `shape_raycast` of a box, `raycast.cpp` 69-100; `none`: no intersection. -/
noncomputable def boxAxis (eps : ℝ) (i : ℕ) (h p d : ℝ) (st : BoxState) : Option BoxState :=
  if |d| < eps then (if h < |p| then none else some st) else
  let u := (-h - p) * (1 / d)
  let v := (h - p) * (1 / d)
  let t1 := if v < u then v else u
  let t2 := if v < u then u else v
  let face := if st.tmin < t1 then some (i * 2 + (if 0 < p then 0 else 1)) else st.face
  let tmin := max st.tmin t1
  let tmax := min st.tmax t2
  if tmax < tmin then none else some ⟨tmin, tmax, face⟩

/-- `get_face_normal` of a box, `box_shape.cpp` 185-196; `none`: the assertion fails. -/
def boxFaceNormal : Option ℕ → Option (V3 ℝ)
  | some 0 => some ⟨1, 0, 0⟩
  | some 1 => some ⟨-1, 0, 0⟩
  | some 2 => some ⟨0, 1, 0⟩
  | some 3 => some ⟨0, -1, 0⟩
  | some 4 => some ⟨0, 0, 1⟩
  | some 5 => some ⟨0, 0, -1⟩
  | _ => none

/-- The loop over the three axes in object space. -/
noncomputable def boxLoop (eps big : ℝ) (h p d : V3 ℝ) : Option BoxState :=
  (boxAxis eps 0 h.x p.x d.x ⟨-big, big, none⟩).bind fun s1 =>
  (boxAxis eps 1 h.y p.y d.y s1).bind fun s2 => boxAxis eps 2 h.z p.z d.z s2

/-- `shape_raycast` of a box, `raycast.cpp` 58-109. -/
noncomputable def boxRay (eps big : ℝ) (h pos : V3 ℝ) (orn : Quat ℝ) (q0 q1 : V3 ℝ) : RayRes :=
  let p0 := toObjectSpace q0 pos orn
  let p1 := toObjectSpace q1 pos orn
  match boxLoop eps big h p0 (p1 - p0) with
  | none => some none
  | some st => (boxFaceNormal st.face).map fun n => some ⟨st.tmin, some (Quat.rotate orn n)⟩

/-- The full statement for boxes. -/
def BoxRayFull (eps big : ℝ) : Prop :=
  ∀ (h pos : V3 ℝ) (orn : Quat ℝ) (q0 q1 : V3 ℝ), 0 < h.x → 0 < h.y → 0 < h.z → orn.lengthSqr = 1 →
    RayExact (Placed (boxSet h) pos orn) q0 q1 (boxRay eps big h pos orn q0 q1)

/-- The coordinate of the segment at a parameter is in the range of the box. -/
def slabIn (h p d t : ℝ) : Prop := |p + t * d| ≤ h

/-- What a state of the loop means: the parameters between the limits are those of the axes seen so far, and the
entered face is the one at the lower limit, on the side the ray comes from. -/
structure BoxInv (big : ℝ) (axes : List (ℕ × ℝ × ℝ × ℝ)) (st : BoxState) : Prop where
  range : ∀ t, (st.tmin ≤ t ∧ t ≤ st.tmax) ↔
    ((-big ≤ t ∧ t ≤ big) ∧ ∀ a ∈ axes, slabIn a.2.1 a.2.2.1 a.2.2.2 t)
  lower : -big ≤ st.tmin
  le : st.tmin ≤ st.tmax
  face : -big < st.tmin → ∃ a ∈ axes, st.face = some (a.1 * 2 + (if 0 < a.2.2.1 then 0 else 1)) ∧
    ((0 < a.2.2.2 ∧ a.2.2.1 + st.tmin * a.2.2.2 = -a.2.1) ∨ (a.2.2.2 < 0 ∧ a.2.2.1 + st.tmin * a.2.2.2 = a.2.1))

theorem slab_iff {h p d : ℝ} (hh0 : 0 ≤ h) (hd : d ≠ 0) (t : ℝ) :
    slabIn h p d t ↔
      ((if (h - p) * (1 / d) < (-h - p) * (1 / d) then (h - p) * (1 / d) else (-h - p) * (1 / d)) ≤ t ∧
        t ≤ (if (h - p) * (1 / d) < (-h - p) * (1 / d) then (-h - p) * (1 / d) else (h - p) * (1 / d))) := by
  unfold slabIn
  rw [abs_le]
  have e1 : (h - p) * (1 / d) = (h - p) / d := by ring
  have e2 : (-h - p) * (1 / d) = (-h - p) / d := by ring
  rw [e1, e2]
  rcases lt_or_gt_of_ne hd with hneg | hpos
  · have m1 : (h - p) / d ≤ t ↔ t * d ≤ h - p := div_le_iff_of_neg hneg
    have m2 : t ≤ (-h - p) / d ↔ -h - p ≤ t * d := le_div_iff_of_neg hneg
    have m3 : (-h - p) / d ≤ t ↔ t * d ≤ -h - p := div_le_iff_of_neg hneg
    have m4 : t ≤ (h - p) / d ↔ h - p ≤ t * d := le_div_iff_of_neg hneg
    split
    · rw [m1, m2]; constructor <;> rintro ⟨a, b⟩ <;> constructor <;> linarith
    · rename_i hh
      rw [m3, m4]
      rw [not_lt, div_le_div_right_of_neg hneg] at hh
      constructor
      · rintro ⟨a, b⟩; constructor <;> linarith
      · rintro ⟨a, b⟩; constructor <;> linarith
  · have m1 : (h - p) / d ≤ t ↔ h - p ≤ t * d := div_le_iff₀ hpos
    have m2 : t ≤ (-h - p) / d ↔ t * d ≤ -h - p := le_div_iff₀ hpos
    have m3 : (-h - p) / d ≤ t ↔ -h - p ≤ t * d := div_le_iff₀ hpos
    have m4 : t ≤ (h - p) / d ↔ t * d ≤ h - p := le_div_iff₀ hpos
    split
    · rename_i hh
      rw [m1, m2]
      rw [div_lt_div_iff_of_pos_right hpos] at hh
      constructor
      · rintro ⟨a, b⟩; constructor <;> linarith
      · rintro ⟨a, b⟩; constructor <;> linarith
    · rw [m3, m4]; constructor <;> rintro ⟨a, b⟩ <;> constructor <;> linarith

/-- One axis keeps the meaning of the state; without a result no parameter is in all ranges. -/
theorem boxAxis_inv {eps big : ℝ} (he : 0 < eps) {i : ℕ} {h p d : ℝ} (hh : 0 ≤ h) (hd : d = 0 ∨ eps ≤ |d|)
    {axes : List (ℕ × ℝ × ℝ × ℝ)} {st : BoxState} (hi : BoxInv big axes st) :
    (∀ st', boxAxis eps i h p d st = some st' → BoxInv big (axes ++ [(i, h, p, d)]) st') ∧
    (boxAxis eps i h p d st = none → ∀ t, -big ≤ t → t ≤ big →
      ¬ ∀ a ∈ axes ++ [(i, h, p, d)], slabIn a.2.1 a.2.2.1 a.2.2.2 t) := by
  unfold boxAxis
  rcases hd with rfl | hd
  · rw [if_pos (by simpa using he)]
    have hs : ∀ t, slabIn h p 0 t ↔ |p| ≤ h := by intro t; simp [slabIn]
    split
    · rename_i hc
      refine ⟨by simp, fun _ t _ _ hall => ?_⟩
      have := hall _ (List.mem_append_right _ (List.mem_singleton.2 rfl))
      rw [hs] at this
      linarith
    · rename_i hc
      refine ⟨?_, by simp⟩
      intro st' hst
      rw [Option.some_inj] at hst
      subst hst
      refine ⟨fun t => ?_, hi.lower, hi.le, fun hb => ?_⟩
      · rw [hi.range]
        simp only [List.mem_append, List.mem_singleton]
        constructor
        · rintro ⟨a, b⟩
          refine ⟨a, ?_⟩
          rintro x (hx | rfl)
          · exact b x hx
          · exact (hs t).2 (not_lt.1 hc)
        · rintro ⟨a, b⟩
          exact ⟨a, fun x hx => b x (.inl hx)⟩
      · obtain ⟨a, ha, r⟩ := hi.face hb
        exact ⟨a, List.mem_append_left _ ha, r⟩
  · rw [if_neg (not_lt.2 hd)]
    have hd0 : d ≠ 0 := by
      intro h0; rw [h0, abs_zero] at hd; linarith
    simp only
    have hs := fun t => slab_iff (p := p) hh hd0 t
    set t1 := (if (h - p) * (1 / d) < (-h - p) * (1 / d) then (h - p) * (1 / d) else (-h - p) * (1 / d)) with ht1
    set t2 := (if (h - p) * (1 / d) < (-h - p) * (1 / d) then (-h - p) * (1 / d) else (h - p) * (1 / d)) with ht2
    have rng : ∀ t, (max st.tmin t1 ≤ t ∧ t ≤ min st.tmax t2) ↔ ((-big ≤ t ∧ t ≤ big) ∧
        ∀ a ∈ axes ++ [(i, h, p, d)], slabIn a.2.1 a.2.2.1 a.2.2.2 t) := by
      intro t
      rw [max_le_iff, le_min_iff]
      have h1 := hi.range t
      have h2 := hs t
      constructor
      · rintro ⟨⟨a, b⟩, c, e⟩
        obtain ⟨f, g⟩ := h1.1 ⟨a, c⟩
        refine ⟨f, ?_⟩
        intro x hx
        rcases List.mem_append.1 hx with hx | hx
        · exact g x hx
        · rw [List.mem_singleton] at hx
          subst hx
          exact h2.2 ⟨b, e⟩
      · rintro ⟨a, b⟩
        obtain ⟨c1, c2⟩ := h1.2 ⟨a, fun x hx => b x (List.mem_append_left _ hx)⟩
        obtain ⟨c3, c4⟩ := h2.1 (b (i, h, p, d) (List.mem_append_right _ (List.mem_singleton.2 rfl)))
        exact ⟨⟨c1, c3⟩, c2, c4⟩
    split
    · rename_i hc
      refine ⟨by simp, fun _ t h1 h2 hall => ?_⟩
      obtain ⟨a, b⟩ := (rng t).2 ⟨⟨h1, h2⟩, hall⟩
      linarith
    · rename_i hc
      refine ⟨?_, by simp⟩
      intro st' hst
      rw [Option.some_inj] at hst
      subst hst
      refine ⟨rng, le_trans hi.lower (le_max_left _ _), not_lt.1 hc, fun hb => ?_⟩
      simp only at hb ⊢
      by_cases hlt : st.tmin < t1
      · refine ⟨(i, h, p, d), List.mem_append_right _ (List.mem_singleton.2 rfl), by rw [if_pos hlt], ?_⟩
        simp only
        rw [max_eq_right hlt.le]
        rcases lt_or_gt_of_ne hd0 with hneg | hpos
        · right
          refine ⟨hneg, ?_⟩
          have : t1 = (h - p) * (1 / d) := by
            rw [ht1]
            split
            · rfl
            · rename_i hc'
              have hx : (h - p) * (1 / d) ≤ (-h - p) * (1 / d) := by
                have : 1 / d < 0 := one_div_neg.2 hneg
                nlinarith
              exact le_antisymm (not_lt.1 hc') hx
          rw [this]; field_simp; ring
        · left
          refine ⟨hpos, ?_⟩
          have : t1 = (-h - p) * (1 / d) := by
            rw [ht1]
            split
            · rename_i hc'
              have : 0 < 1 / d := one_div_pos.2 hpos
              nlinarith
            · rfl
          rw [this]; field_simp; ring
      · rw [if_neg hlt]
        have e : max st.tmin t1 = st.tmin := max_eq_left (not_lt.1 hlt)
        rw [e] at hb ⊢
        obtain ⟨a, ha, r⟩ := hi.face hb
        exact ⟨a, List.mem_append_left _ ha, r⟩

/-- The axes of a box. -/
def boxAxes (h p d : V3 ℝ) : List (ℕ × ℝ × ℝ × ℝ) := [(0, h.x, p.x, d.x), (1, h.y, p.y, d.y), (2, h.z, p.z, d.z)]

theorem boxLoop_inv {eps big : ℝ} (he : 0 < eps) (hb : 0 ≤ big) {h p d : V3 ℝ} (hx : 0 ≤ h.x) (hy : 0 ≤ h.y)
    (hz : 0 ≤ h.z) (dx : d.x = 0 ∨ eps ≤ |d.x|) (dy : d.y = 0 ∨ eps ≤ |d.y|) (dz : d.z = 0 ∨ eps ≤ |d.z|) :
    (∀ st, boxLoop eps big h p d = some st → BoxInv big (boxAxes h p d) st) ∧
    (boxLoop eps big h p d = none → ∀ t, -big ≤ t → t ≤ big →
      ¬ ∀ a ∈ boxAxes h p d, slabIn a.2.1 a.2.2.1 a.2.2.2 t) := by
  have i0 : BoxInv big [] ⟨-big, big, none⟩ :=
    ⟨by simp, le_refl _, by simp only; linarith, fun h => absurd h (lt_irrefl _)⟩
  have s1 := boxAxis_inv he hx dx i0 (i := 0) (p := p.x)
  unfold boxLoop
  cases h1 : boxAxis eps 0 h.x p.x d.x ⟨-big, big, none⟩ with
  | none =>
    refine ⟨by simp, fun _ t ht1 ht2 hall => s1.2 h1 t ht1 ht2 ?_⟩
    intro a ha
    apply hall
    simp only [List.nil_append, List.mem_singleton] at ha
    subst ha
    simp [boxAxes]
  | some st1 =>
    have s2 := boxAxis_inv he hy dy (s1.1 _ h1) (i := 1) (p := p.y)
    simp only [Option.bind_some]
    cases h2 : boxAxis eps 1 h.y p.y d.y st1 with
    | none =>
      refine ⟨by simp, fun _ t ht1 ht2 hall => s2.2 h2 t ht1 ht2 ?_⟩
      intro a ha
      apply hall
      simp only [List.nil_append, List.mem_append, List.mem_singleton] at ha
      simp only [boxAxes, List.mem_cons, List.not_mem_nil, or_false]
      tauto
    | some st2 =>
      have s3 := boxAxis_inv he hz dz (s2.1 _ h2) (i := 2) (p := p.z)
      simpa [boxAxes] using s3

theorem box_slabs (h p0 p1 : V3 ℝ) (t : ℝ) :
    (∀ a ∈ boxAxes h p0 (p1 - p0), slabIn a.2.1 a.2.2.1 a.2.2.2 t) ↔ boxSet h (along p0 p1 t) := by
  simp [boxAxes, slabIn, boxSet, along]

/-- **C70, boxes.** Proved for segments whose direction has no component which is tiny but not zero in the space of
the box: a hit with a fraction between 0 and 1 is the first point in the box and, for a positive fraction, the
normal is the outward normal of the entered face; nothing is missed; if the fraction is negative the segment
starts inside or misses, if it is above one the segment ends before the box.  Missing: the fraction is not limited
to the segment (`box_ray_refuted`, `box_ray_inside`, `box_ray_behind`) and segments of length zero
(`box_ray_degenerate`). -/
theorem box_ray_partial (eps big : ℝ) (he : 0 < eps) (hb : 1 ≤ big) (h pos : V3 ℝ) (orn : Quat ℝ) (q0 q1 : V3 ℝ)
    (hx : 0 < h.x) (hy : 0 < h.y) (hz : 0 < h.z) (ho : orn.lengthSqr = 1)
    (hd : ∀ v ∈ [ex, ey, ez], dot (toObjectSpace q1 pos orn - toObjectSpace q0 pos orn) v = 0 ∨
      eps ≤ |dot (toObjectSpace q1 pos orn - toObjectSpace q0 pos orn) v|) :
    (∀ hit, boxRay eps big h pos orn q0 q1 = some (some hit) →
      (0 ≤ hit.fraction → hit.fraction ≤ 1 → FirstHit (Placed (boxSet h) pos orn) q0 q1 hit.fraction) ∧
      (¬ Placed (boxSet h) pos orn q0 → 0 ≤ hit.fraction →
        ∃ n, hit.normal = some n ∧ Outward (Placed (boxSet h) pos orn) (along q0 q1 hit.fraction) n) ∧
      (hit.fraction < 0 → ¬ Placed (boxSet h) pos orn q0 → Misses (Placed (boxSet h) pos orn) q0 q1) ∧
      (1 < hit.fraction → Misses (Placed (boxSet h) pos orn) q0 q1)) ∧
    (boxRay eps big h pos orn q0 q1 = some none → Misses (Placed (boxSet h) pos orn) q0 q1) := by
  simp only [firstHit_placed ho, misses_placed ho, placed_iff _ _ ho]
  unfold boxRay
  simp only
  set p0 := toObjectSpace q0 pos orn with hp0
  set p1 := toObjectSpace q1 pos orn with hp1
  have dx := hd ex (by simp)
  have dy := hd ey (by simp)
  have dz := hd ez (by simp)
  rw [← x_eq_dot] at dx
  rw [← y_eq_dot] at dy
  rw [← z_eq_dot] at dz
  obtain ⟨hsome, hnone⟩ := boxLoop_inv he (by linarith) hx.le hy.le hz.le dx dy dz (p := p0) (big := big)
  have hp00 : along p0 p1 0 = p0 := by ext <;> simp [along]
  cases hl : boxLoop eps big h p0 (p1 - p0) with
  | none =>
    refine ⟨by simp, fun _ t h0 h1 ht => ?_⟩
    exact hnone hl t (by linarith) (by linarith) ((box_slabs _ _ _ _).2 ht)
  | some st =>
    have inv := hsome st hl
    have rng : ∀ t, (st.tmin ≤ t ∧ t ≤ st.tmax) ↔ ((-big ≤ t ∧ t ≤ big) ∧ boxSet h (along p0 p1 t)) := by
      intro t; rw [inv.range, box_slabs]
    refine ⟨?_, ?_⟩
    · intro hit hh
      simp only [Option.map_eq_some_iff, Option.some_inj] at hh
      obtain ⟨n, hn, rfl⟩ := hh
      simp only
      refine ⟨?_, ?_, ?_, ?_⟩
      · intro h0 h1
        refine ⟨h0, h1, ((rng _).1 ⟨le_refl _, inv.le⟩).2, ?_⟩
        intro s hs0 hs1 hs
        have := (rng s).2 ⟨⟨by linarith, by linarith⟩, hs⟩
        linarith [this.1]
      · intro hout h0
        refine ⟨_, rfl, ?_⟩
        apply outward_placed ho
        rw [toObject_along]
        obtain ⟨a, ha, hf, hside⟩ := inv.face (by linarith)
        have hpos : 0 < st.tmin := by
          rcases h0.lt_or_eq with h' | h'
          · exact h'
          · exfalso
            apply hout
            have := ((rng 0).1 ⟨h'.symm.le, by rw [h']; exact inv.le⟩).2
            rwa [hp00] at this
        have hsign : (0 < a.2.2.2 → ¬ 0 < a.2.2.1) ∧ (a.2.2.2 < 0 → 0 < a.2.2.1) := by
          have hh : 0 < a.2.1 := by
            simp only [boxAxes, List.mem_cons, List.not_mem_nil, or_false] at ha
            rcases ha with rfl | rfl | rfl <;> assumption
          constructor
          · intro hd'
            rcases hside with ⟨_, e⟩ | ⟨e, _⟩
            · have := mul_pos hpos hd'; linarith
            · linarith
          · intro hd'
            rcases hside with ⟨e, _⟩ | ⟨_, e⟩
            · linarith
            · have := mul_neg_of_pos_of_neg hpos hd'; linarith
        change Outward (boxSet h) (along p0 p1 st.tmin) n
        simp only [boxAxes, List.mem_cons, List.not_mem_nil, or_false] at ha
        rcases hside with ⟨hd', e⟩ | ⟨hd', e⟩
        · rw [hf, if_neg (hsign.1 hd')] at hn
          rcases ha with rfl | rfl | rfl <;> simp [boxFaceNormal] at hn <;> subst hn <;>
            refine ⟨by simp [lengthSqr, dot], ?_⟩ <;> rintro q ⟨q1, q2, q3⟩ <;> rw [abs_le] at q1 q2 q3 <;>
            simp at e <;> simp [dot, along] <;> linarith
        · rw [hf, if_pos (hsign.2 hd')] at hn
          rcases ha with rfl | rfl | rfl <;> simp [boxFaceNormal] at hn <;> subst hn <;>
            refine ⟨by simp [lengthSqr, dot], ?_⟩ <;> rintro q ⟨q1, q2, q3⟩ <;> rw [abs_le] at q1 q2 q3 <;>
            simp at e <;> simp [dot, along] <;> linarith
      · intro hneg hout t h0 h1 ht
        have ht' := (rng t).2 ⟨⟨by linarith, by linarith⟩, ht⟩
        have := ((rng 0).1 ⟨hneg.le, by linarith [ht'.2]⟩).2
        rw [hp00] at this
        exact hout this
      · intro hbig t h0 h1 ht
        have ht' := (rng t).2 ⟨⟨by linarith, by linarith⟩, ht⟩
        linarith [ht'.1]
    · intro hh
      simp only [Option.map_eq_some_iff] at hh
      obtain ⟨n, -, e⟩ := hh
      simp at e

/-! ### Witnesses for boxes -/

/-- A segment parallel to the x axis, in front of, inside or behind a cube. -/
theorem box_ray_x (eps big : ℝ) (he : 0 < eps) (he2 : eps ≤ 1) (hb : 100 ≤ big) (x : ℝ) (hx : |x| ≤ 10) :
    boxRay eps big ⟨1, 1, 1⟩ ⟨0, 0, 0⟩ ⟨0, 0, 0, 1⟩ ⟨x, 0, 0⟩ ⟨x + 1, 0, 0⟩ =
      some (some ⟨-1 - x, some (if 0 < x then ⟨1, 0, 0⟩ else ⟨-1, 0, 0⟩)⟩) := by
  have e0 : ∀ v : V3 ℝ, toObjectSpace v ⟨0, 0, 0⟩ ⟨0, 0, 0, 1⟩ = v := by
    intro v; ext <;> simp [toObjectSpace, Quat.rotate, Quat.conjugate]
  have e1 : ∀ v : V3 ℝ, Quat.rotate ⟨0, 0, 0, 1⟩ v = v := by
    intro v; ext <;> simp [Quat.rotate]
  rw [abs_le] at hx
  unfold boxRay
  simp only [e0, e1]
  have h1 : boxAxis eps 0 1 x 1 ⟨-big, big, none⟩ = some ⟨-1 - x, 1 - x, some (if 0 < x then 0 else 1)⟩ := by
    unfold boxAxis
    simp only [abs_one, div_one, mul_one]
    have c : ¬ (1 - x < -1 - x) := by linarith
    simp only [if_neg c]
    rw [if_neg (by linarith), max_eq_right (by linarith), min_eq_right (by linarith), if_neg (by linarith),
      if_pos (by linarith)]
    simp
  have h2 : ∀ i st, boxAxis eps i 1 0 0 st = some st := by
    intro i st
    unfold boxAxis
    rw [if_pos (by simpa using he), if_neg (by simp)]
  have h3 : boxLoop eps big ⟨1, 1, 1⟩ ⟨x, 0, 0⟩ (⟨x + 1, 0, 0⟩ - ⟨x, 0, 0⟩)
      = some ⟨-1 - x, 1 - x, some (if 0 < x then 0 else 1)⟩ := by
    unfold boxLoop
    have : (⟨x + 1, 0, 0⟩ - ⟨x, 0, 0⟩ : V3 ℝ) = ⟨1, 0, 0⟩ := by ext <;> simp
    rw [this]
    simp only [h1, h2, Option.bind_some]
  rw [h3]
  simp only
  split <;> simp [boxFaceNormal]

/-- **Finding.** A segment which ends before a box is reported to hit it. -/
theorem box_ray_refuted (eps big : ℝ) (he : 0 < eps) (he2 : eps ≤ 1) (hb : 100 ≤ big) : ¬ BoxRayFull eps big := by
  intro h
  have h1 := h ⟨1, 1, 1⟩ ⟨0, 0, 0⟩ ⟨0, 0, 0, 1⟩ ⟨-5, 0, 0⟩ ⟨-5 + 1, 0, 0⟩ (by norm_num) (by norm_num) (by norm_num)
    quat_one_unit
  have := (h1.hit _ (box_ray_x eps big he he2 hb (-5) (by norm_num))).2.1
  norm_num at this

/-- **Finding.** A segment which starts inside a box is reported to hit it at a negative fraction. -/
theorem box_ray_inside (eps big : ℝ) (he : 0 < eps) (he2 : eps ≤ 1) (hb : 100 ≤ big) :
    ∃ hit, boxRay eps big ⟨1, 1, 1⟩ ⟨0, 0, 0⟩ ⟨0, 0, 0, 1⟩ ⟨0, 0, 0⟩ ⟨0 + 1, 0, 0⟩ = some (some hit) ∧
      hit.fraction = -1 ∧ boxSet ⟨1, 1, 1⟩ ⟨0, 0, 0⟩ :=
  ⟨_, box_ray_x eps big he he2 hb 0 (by norm_num), by norm_num, by simp [boxSet]⟩

/-- **Finding.** A segment which moves away from a box behind it is reported to hit it, with the normal of the
far face. -/
theorem box_ray_behind (eps big : ℝ) (he : 0 < eps) (he2 : eps ≤ 1) (hb : 100 ≤ big) :
    boxRay eps big ⟨1, 1, 1⟩ ⟨0, 0, 0⟩ ⟨0, 0, 0, 1⟩ ⟨5, 0, 0⟩ ⟨5 + 1, 0, 0⟩ = some (some ⟨-6, some ⟨1, 0, 0⟩⟩) ∧
      Misses (boxSet ⟨1, 1, 1⟩) ⟨5, 0, 0⟩ ⟨5 + 1, 0, 0⟩ := by
  constructor
  · rw [box_ray_x eps big he he2 hb 5 (by norm_num)]
    norm_num
  · rintro t h0 h1 ⟨h, -⟩
    simp [along] at h
    rw [abs_le] at h
    linarith

/-- **Finding.** A segment without length inside a box fails an assertion. -/
theorem box_ray_degenerate (eps big : ℝ) (he : 0 < eps) :
    boxRay eps big ⟨1, 1, 1⟩ ⟨0, 0, 0⟩ ⟨0, 0, 0, 1⟩ ⟨0, 0, 0⟩ ⟨0, 0, 0⟩ = none := by
  have e0 : ∀ v : V3 ℝ, toObjectSpace v ⟨0, 0, 0⟩ ⟨0, 0, 0, 1⟩ = v := by
    intro v; ext <;> simp [toObjectSpace, Quat.rotate, Quat.conjugate]
  have h2 : ∀ i st, boxAxis eps i 1 0 0 st = some st := by
    intro i st
    unfold boxAxis
    rw [if_pos (by simpa using he), if_neg (by simp)]
  unfold boxRay
  simp only [e0]
  have h3 : boxLoop eps big ⟨1, 1, 1⟩ ⟨0, 0, 0⟩ (⟨0, 0, 0⟩ - ⟨0, 0, 0⟩) = some ⟨-big, big, none⟩ := by
    unfold boxLoop
    simp [h2]
  rw [h3]
  rfl

/-- A segment which reaches a box meets the hypotheses and is reported at the first point. -/
example : boxRay (1 / 100) 1000 ⟨1, 1, 1⟩ ⟨0, 0, 0⟩ ⟨0, 0, 0, 1⟩ ⟨-3 / 2, 0, 0⟩ ⟨-3 / 2 + 1, 0, 0⟩ =
    some (some ⟨1 / 2, some ⟨-1, 0, 0⟩⟩) := by
  rw [box_ray_x (1 / 100) 1000 (by norm_num) (by norm_num) (by norm_num) (-3 / 2) (by norm_num [abs_le])]
  norm_num

end Edyn.Geom
