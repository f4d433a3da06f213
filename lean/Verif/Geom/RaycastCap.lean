import Verif.Geom.RaycastCyl

/-!
# Casting a segment against capsules (C70)

`shape_raycast` of a capsule (`src/edyn/collision/raycast.cpp` 197-257).
-/

namespace Edyn.Geom

open Edyn.Math V3

/-- `shape_raycast` of a capsule, `raycast.cpp` 197-257.  If the segment is parallel to the capsule, the normal is
computed from `u_in`, which is not assigned: the normal is `none` then (simplification: the assertion of `normalize`
is assumed to hold for the arbitrary value). -/
noncomputable def capRay (eps tiny r hl : ℝ) (w pos p0 p1 : V3 ℝ) : RayRes :=
  let v0 := pos + smul hl w
  let v1 := pos - smul hl w
  match rayCyl eps r hl w pos p0 p1 with
  | .far => some none
  | .parallel =>
    match raySphere p0 p1 (if dot (p0 - pos) (v1 - v0) < 0 then v0 else v1) r with
    | none => some none
    | some t => some (some ⟨t, none⟩)
  | .meets distSqr normal fin _ =>
    let x := along p0 p1 fin
    if 0 < dot (x - v0) (v1 - v0) ∧ dot (x - v1) (v1 - v0) < 0 then
      some (some ⟨fin, if distSqr = 0 then none else some (smul (1 / Real.sqrt distSqr) normal)⟩)
    else
      match raySphere p0 p1 (if dot (x - v0) (v1 - v0) < 0 then v0 else v1) r with
      | none => some none
      | some t => (normalizeV tiny (x - pos)).map fun n => some ⟨t, some n⟩

/-- The full statement for capsules. -/
def CapRayFull (eps tiny : ℝ) : Prop :=
  ∀ (r hl : ℝ) (a : Axis) (pos : V3 ℝ) (orn : Quat ℝ) (p0 p1 : V3 ℝ), orn.lengthSqr = 1 → tiny < r → tiny < hl →
    p0 ≠ p1 → RayExact (Placed (capsuleSet r hl a) pos orn) p0 p1
      (capRay eps tiny r hl (Quat.rotate orn a.vec) pos p0 p1)

theorem placed_capsule {r hl : ℝ} {a : Axis} {pos : V3 ℝ} {orn : Quat ℝ} (ho : orn.lengthSqr = 1) (x : V3 ℝ) :
    Placed (capsuleSet r hl a) pos orn x ↔
      ∃ s, |s| ≤ hl ∧ lengthSqr (x - pos - smul s (Quat.rotate orn a.vec)) ≤ r * r := by
  rw [placed_iff _ _ ho]
  unfold capsuleSet
  have h : ∀ s, lengthSqr (toObjectSpace x pos orn - smul s a.vec)
      = lengthSqr (x - pos - smul s (Quat.rotate orn a.vec)) := by
    intro s
    have e1 : ∀ u v : V3 ℝ, lengthSqr (u - smul s v) = lengthSqr u - 2 * s * dot u v + s * s * lengthSqr v := by
      intro u v; simp [lengthSqr, dot]; ring
    rw [e1, e1, dot_toObject ho, rotate_unit ho a.vec_unit, a.vec_unit]
    unfold toObjectSpace
    rw [rotate_length _ (conjugate_unit ho)]
  simp only [h]

/-- Convexity along the ray. -/
theorem capsule_convex {r hl : ℝ} {w pos p0 p1 : V3 ℝ} {a b : ℝ} (ha : a < 0) (hb : 0 ≤ b)
    (h1 : ∃ s, |s| ≤ hl ∧ lengthSqr (along p0 p1 a - pos - smul s w) ≤ r * r)
    (h2 : ∃ s, |s| ≤ hl ∧ lengthSqr (along p0 p1 b - pos - smul s w) ≤ r * r) :
    ∃ s, |s| ≤ hl ∧ lengthSqr (p0 - pos - smul s w) ≤ r * r := by
  obtain ⟨s1, hs1, k1⟩ := h1
  obtain ⟨s2, hs2, k2⟩ := h2
  have hba : 0 < b - a := by linarith
  set l := b / (b - a) with hl'
  set m := -a / (b - a) with hm'
  have hlm : l + m = 1 := by rw [hl', hm']; field_simp; ring
  have hl0 : 0 ≤ l := div_nonneg hb hba.le
  have hm0 : 0 ≤ m := div_nonneg (by linarith) hba.le
  have hz : l * a + m * b = 0 := by rw [hl', hm']; field_simp; ring
  refine ⟨l * s1 + m * s2, ?_, ?_⟩
  · rw [abs_le] at *
    constructor <;> nlinarith
  · have e : p0 - pos - smul (l * s1 + m * s2) w
        = smul l (along p0 p1 a - pos - smul s1 w) + smul m (along p0 p1 b - pos - smul s2 w) := by
      have hm : m = 1 - l := by linarith
      have hx : ∀ u v q x : ℝ, u - q - (l * s1 + m * s2) * x
          = l * (u + a * (v - u) - q - s1 * x) + m * (u + b * (v - u) - q - s2 * x) := by
        intro u v q x
        have h1 : l * (u + a * (v - u) - q - s1 * x) + m * (u + b * (v - u) - q - s2 * x)
            = (l + m) * (u - q) + (l * a + m * b) * (v - u) - (l * s1 + m * s2) * x := by ring
        rw [h1, hz, hlm]; ring
      ext <;> simp [along] <;> exact hx _ _ _ _
    rw [e]
    generalize along p0 p1 a - pos - smul s1 w = u at *
    generalize along p0 p1 b - pos - smul s2 w = v at *
    have e2 : lengthSqr (smul l u + smul m v) = l * (l + m) * lengthSqr u + m * (l + m) * lengthSqr v
        - l * m * lengthSqr (u - v) := by
      simp [lengthSqr, dot]; ring
    rw [e2, hlm]
    have := mul_nonneg (mul_nonneg hl0 hm0) (lengthSqr_nonneg (u - v))
    nlinarith

/-- The hemisphere at the end in direction `n` is entered before any other point of the capsule, if the segment is
beyond that end where it enters the infinite cylinder. -/
theorem capsule_hemisphere {r hl y0 k : ℝ} {n pos p0 p1 : V3 ℝ} {ρ : ℝ → ℝ} {f : ℝ} (hhl : 0 < hl)
    (hdist : ∀ t s, lengthSqr (along p0 p1 t - pos - smul s n) = ρ t + (y0 + t * k - s) * (y0 + t * k - s))
    (hout : ¬ ∃ s, |s| ≤ hl ∧ lengthSqr (p0 - pos - smul s n) ≤ r * r)
    (hf : hl < y0 + f * k) (hin : ∀ c, 0 ≤ c ∨ f ≤ c → ∀ t, c ≤ t → 0 ≤ t → ρ t ≤ r * r → f ≤ c → ρ c ≤ r * r)
    (hft : ∀ t, 0 ≤ t → ρ t ≤ r * r → f ≤ t)
    {t : ℝ} (ht : 0 ≤ t) (h : ∃ s, |s| ≤ hl ∧ lengthSqr (along p0 p1 t - pos - smul s n) ≤ r * r) :
    ∃ c, 0 ≤ c ∧ c ≤ t ∧ lengthSqr (along p0 p1 c - (pos + smul hl n)) ≤ r * r := by
  have hsub : ∀ c, along p0 p1 c - (pos + smul hl n) = along p0 p1 c - pos - smul hl n := by
    intro c; ext <;> simp <;> ring
  simp only [hsub]
  have h' := h
  obtain ⟨s, hs, hd⟩ := h'
  rw [hdist] at hd
  have hs' := abs_le.1 hs
  by_cases hy : hl ≤ y0 + t * k
  · refine ⟨t, ht, le_refl _, ?_⟩
    rw [hdist]
    nlinarith
  · have hρ : ρ t ≤ r * r := by nlinarith [mul_self_nonneg (y0 + t * k - s)]
    obtain ⟨c, c1, c2, c3⟩ := linear_crossing (hft t ht hρ) hf.le (not_le.1 hy).le
    have hρc := hin c (.inr c1) t c2 ht hρ c1
    have hc : lengthSqr (along p0 p1 c - pos - smul hl n) ≤ r * r := by
      rw [hdist, c3]; linarith
    by_cases hc0 : 0 ≤ c
    · exact ⟨c, hc0, c2, hc⟩
    · exfalso
      exact hout (capsule_convex (not_le.1 hc0) ht ⟨hl, by rw [abs_of_pos hhl], hc⟩ h)

/-- **C70, capsules.** Proved for segments which start outside, are not nearly (but may be exactly) parallel to the
axis, and do not enter the infinite cylinder exactly at the height of an end of the axis: a hit with a fraction
between 0 and 1 is the first point in the capsule, other fractions and misses mean that the segment misses it.
Missing: fractions outside of the segment are reported (`cap_ray_refuted`), normals (`cap_hemisphere_normal_wrong`,
`cap_parallel_normal_undefined`), segments which enter the infinite cylinder at the height of an end
(`cap_junction_missed`). -/
theorem cap_ray_partial (eps tiny : ℝ) (he : 0 ≤ eps) (ht : 0 ≤ tiny) (r hl : ℝ) (a : Axis) (pos : V3 ℝ)
    (orn : Quat ℝ) (p0 p1 : V3 ℝ) (ho : orn.lengthSqr = 1) (hp : p0 ≠ p1) (hhl : tiny < hl)
    (hout : ¬ Placed (capsuleSet r hl a) pos orn p0)
    (hpar : eps < 4 * (hl * hl) * lengthSqr (cross (Quat.rotate orn a.vec) (p1 - p0)) ∨
      cross (Quat.rotate orn a.vec) (p1 - p0) = 0)
    (hjun : ∀ t, ¬ (height pos (Quat.rotate orn a.vec) (along p0 p1 t) = hl ∧
      radial pos (Quat.rotate orn a.vec) (along p0 p1 t) = r * r) ∧
      ¬ (height pos (Quat.rotate orn a.vec) (along p0 p1 t) = -hl ∧
      radial pos (Quat.rotate orn a.vec) (along p0 p1 t) = r * r)) :
    (∀ h, capRay eps tiny r hl (Quat.rotate orn a.vec) pos p0 p1 = some (some h) →
      (0 ≤ h.fraction → h.fraction ≤ 1 → FirstHit (Placed (capsuleSet r hl a) pos orn) p0 p1 h.fraction) ∧
      (h.fraction < 0 ∨ 1 < h.fraction → Misses (Placed (capsuleSet r hl a) pos orn) p0 p1)) ∧
    (capRay eps tiny r hl (Quat.rotate orn a.vec) pos p0 p1 = some none →
      Misses (Placed (capsuleSet r hl a) pos orn) p0 p1) ∧
    capRay eps tiny r hl (Quat.rotate orn a.vec) pos p0 p1 ≠ none := by
  have hw : lengthSqr (Quat.rotate orn a.vec) = 1 := rotate_unit ho a.vec_unit
  set w := Quat.rotate orn a.vec with hwdef
  have hh0 : 0 < hl := by linarith
  have hS : ∀ x, Placed (capsuleSet r hl a) pos orn x ↔ ∃ s, |s| ≤ hl ∧ lengthSqr (x - pos - smul s w) ≤ r * r :=
    fun x => placed_capsule ho x
  obtain ⟨hfar, hmeets, hparallel⟩ := rayCyl_spec (r := r) he hh0 hw pos p0 p1
  have hdistw : ∀ x s, lengthSqr (x - pos - smul s w) = radial pos w x + (height pos w x - s) * (height pos w x - s) := by
    intro x s
    have : lengthSqr (x - pos - smul s w) = lengthSqr (x - pos) - 2 * s * dot (x - pos) w + s * s * lengthSqr w := by
      simp [lengthSqr, dot]; ring
    rw [this, hw]; unfold radial height; ring
  have hin : ∀ x, Placed (capsuleSet r hl a) pos orn x → radial pos w x ≤ r * r := by
    intro x h
    rw [hS] at h
    obtain ⟨s, -, h⟩ := h
    rw [hdistw] at h
    nlinarith [mul_self_nonneg (height pos w x - s)]
  -- what the sphere at the end in direction `n` says
  have hemi : ∀ n : V3 ℝ, (n = w ∨ n = -w) → ∀ f, hl < dot (along p0 p1 f - pos) n →
      (∀ c t, f ≤ c → c ≤ t → 0 ≤ t → radial pos w (along p0 p1 t) ≤ r * r → radial pos w (along p0 p1 c) ≤ r * r) →
      (∀ t, 0 ≤ t → radial pos w (along p0 p1 t) ≤ r * r → f ≤ t) →
      (raySphere p0 p1 (pos + smul hl n) r = none → Misses (Placed (capsuleSet r hl a) pos orn) p0 p1) ∧
      ∀ t, raySphere p0 p1 (pos + smul hl n) r = some t →
        (0 ≤ t → t ≤ 1 → FirstHit (Placed (capsuleSet r hl a) pos orn) p0 p1 t) ∧
        (t < 0 ∨ 1 < t → Misses (Placed (capsuleSet r hl a) pos orn) p0 p1) := by
    intro n hn f hf hconv hft
    have hSn : ∀ x, Placed (capsuleSet r hl a) pos orn x ↔ ∃ s, |s| ≤ hl ∧ lengthSqr (x - pos - smul s n) ≤ r * r := by
      intro x
      rw [hS]
      rcases hn with rfl | rfl
      · exact Iff.rfl
      · have e : ∀ s, smul (-s) (-w) = smul s w := by intro s; ext <;> simp
        constructor <;> rintro ⟨s, h1, h2⟩
        · exact ⟨-s, by rwa [abs_neg], by rwa [e]⟩
        · refine ⟨-s, by rwa [abs_neg], ?_⟩
          rw [← e, neg_neg]; exact h2
    have hdist : ∀ t s, lengthSqr (along p0 p1 t - pos - smul s n) = radial pos w (along p0 p1 t)
        + (dot (p0 - pos) n + t * dot (p1 - p0) n - s) * (dot (p0 - pos) n + t * dot (p1 - p0) n - s) := by
      intro t s
      have e1 : dot (p0 - pos) n + t * dot (p1 - p0) n = dot (along p0 p1 t - pos) n := by simp [along, dot]; ring
      rw [e1]
      rcases hn with rfl | rfl
      · exact hdistw _ _
      · have e2 : smul s (-w) = smul (-s) w := by ext <;> simp
        rw [e2, hdistw, dot_neg_right]; unfold height; ring
    have hf' : hl < dot (p0 - pos) n + f * dot (p1 - p0) n := by
      have e1 : dot (p0 - pos) n + f * dot (p1 - p0) n = dot (along p0 p1 f - pos) n := by simp [along, dot]; ring
      rw [e1]; exact hf
    have key : ∀ t, 0 ≤ t → Placed (capsuleSet r hl a) pos orn (along p0 p1 t) →
        ∃ c, 0 ≤ c ∧ c ≤ t ∧ lengthSqr (along p0 p1 c - (pos + smul hl n)) ≤ r * r := by
      intro t h0 h
      rw [hSn] at h
      refine capsule_hemisphere hh0 hdist (by rw [← hSn]; exact hout) hf' ?_ hft h0 h
      intro c _ t hct h0 h hfc
      exact hconv c t hfc hct h0 h
    have hball : ∀ x, lengthSqr (x - (pos + smul hl n)) ≤ r * r → Placed (capsuleSet r hl a) pos orn x := by
      intro x h
      rw [hSn]
      refine ⟨hl, by rw [abs_of_pos hh0], ?_⟩
      have : x - pos - smul hl n = x - (pos + smul hl n) := by ext <;> simp <;> ring
      rwa [this]
    obtain ⟨s1, s2⟩ := raySphere_spec p0 p1 (pos + smul hl n) r hp
    constructor
    · intro hnone t h0 _ h
      obtain ⟨c, c0, -, hc⟩ := key t h0 h
      linarith [s1 hnone c c0]
    · intro t hsome
      obtain ⟨t0, tin, -, tfirst⟩ := s2 t hsome
      refine ⟨fun _ h1 => ⟨t0, h1, hball _ tin, ?_⟩, ?_⟩
      · intro s h0 hs h
        obtain ⟨c, c0, ct, hc⟩ := key s h0 h
        linarith [tfirst c c0 (by linarith)]
      · rintro (h | h)
        · linarith
        · intro s h0 h1 hs
          obtain ⟨c, c0, ct, hc⟩ := key s h0 hs
          linarith [tfirst c c0 (by linarith)]
  have hcc : pos - smul hl w - (pos + smul hl w) = smul (-2 * hl) w := by ext <;> simp <;> ring
  have hneg : pos - smul hl w = pos + smul hl (-w) := by ext <;> simp <;> ring
  unfold capRay
  simp only
  cases hray : rayCyl eps r hl w pos p0 p1 with
  | far =>
    simp only
    refine ⟨by simp, fun _ t _ _ h => ?_, by simp⟩
    linarith [hfar hray t, hin _ h]
  | parallel =>
    simp only
    rw [hparallel] at hray
    have hcross : cross w (p1 - p0) = 0 := by
      rcases hpar with h | h
      · linarith
      · exact h
    -- the distance to the axis is constant
    have hA : dot (p1 - p0) (p1 - p0) = dot (p1 - p0) w * dot (p1 - p0) w := by
      have h1 := cross_unit_sq w (p1 - p0) hw
      rw [hcross] at h1
      have h0 : lengthSqr (0 : V3 ℝ) = 0 := by simp [lengthSqr, dot]
      rw [h0] at h1
      linarith
    have hdw : p1 - p0 = smul (dot (p1 - p0) w) w := by
      have hgen : ∀ (d : V3 ℝ) (k : ℝ), lengthSqr (d - smul k w) = dot d d - 2 * k * dot d w + k * k * lengthSqr w := by
        intro d k; simp [lengthSqr, dot]; ring
      have := hgen (p1 - p0) (dot (p1 - p0) w)
      rw [hA, hw] at this
      have h0 : lengthSqr (p1 - p0 - smul (dot (p1 - p0) w) w) = 0 := by rw [this]; ring
      have h1 := lengthSqr_eq_zero h0
      have hx := congrArg V3.x h1
      have hy' := congrArg V3.y h1
      have hz := congrArg V3.z h1
      simp only [V3.sub_x, V3.sub_y, V3.sub_z, V3.zero_x, V3.zero_y, V3.zero_z] at hx hy' hz
      ext
      · exact sub_eq_zero.1 hx
      · exact sub_eq_zero.1 hy'
      · exact sub_eq_zero.1 hz
    have hconst : ∀ t, radial pos w (along p0 p1 t) = radial pos w p0 := by
      intro t
      have e : along p0 p1 t - pos = (p0 - pos) + smul (t * dot (p1 - p0) w) w := by
        have h1 : along p0 p1 t = p0 + smul t (p1 - p0) := rfl
        rw [h1]
        generalize hk : dot (p1 - p0) w = k at *
        rw [hdw]; ext <;> simp <;> ring
      unfold radial
      rw [e]
      generalize t * dot (p1 - p0) w = c
      have h2 : lengthSqr (p0 - pos + smul c w) = lengthSqr (p0 - pos) + 2 * c * dot (p0 - pos) w
          + c * c * lengthSqr w := by simp [lengthSqr, dot]; ring
      have h3 : dot (p0 - pos + smul c w) w = dot (p0 - pos) w + c * lengthSqr w := by simp [lengthSqr, dot]; ring
      rw [h2, h3, hw]; ring
    obtain ⟨n, hn, hside, hv⟩ : ∃ n : V3 ℝ, (n = w ∨ n = -w) ∧ 0 ≤ dot (p0 - pos) n ∧
        (if dot (p0 - pos) (pos - smul hl w - (pos + smul hl w)) < 0 then pos + smul hl w else pos - smul hl w)
          = pos + smul hl n := by
      have hdot : dot (p0 - pos) (pos - smul hl w - (pos + smul hl w)) = -(2 * hl) * dot (p0 - pos) w := by
        rw [hcc, dot_smul_right]; ring
      rw [hdot]
      split
      · rename_i h
        exact ⟨w, .inl rfl, by nlinarith, rfl⟩
      · rename_i h
        exact ⟨-w, .inr rfl, by rw [dot_neg_right]; nlinarith, hneg⟩
    rw [hv]
    by_cases hR : radial pos w p0 ≤ r * r
    · have hy : hl < dot (along p0 p1 0 - pos) n := by
        rw [along_zero]
        by_contra hcon
        apply hout
        rw [hS]
        refine ⟨height pos w p0, ?_, ?_⟩
        · have : |height pos w p0| = |dot (p0 - pos) n| := by
            rcases hn with rfl | rfl
            · rfl
            · rw [dot_neg_right, abs_neg]; rfl
          rw [this, abs_of_nonneg hside]; exact not_lt.1 hcon
        · rw [hdistw]; linarith
      obtain ⟨g1, g2⟩ := hemi n hn 0 hy (fun c t _ _ _ _ => by rw [hconst]; exact hR) (fun t h _ => h)
      cases hsp : raySphere p0 p1 (pos + smul hl n) r with
      | none =>
        simp only
        exact ⟨by simp, fun _ => g1 hsp, by simp⟩
      | some t =>
        simp only
        refine ⟨?_, by simp, by simp⟩
        intro h hh
        simp only [Option.some_inj] at hh
        subst hh
        exact g2 t hsp
    · have hmiss : ∀ t, ¬ Placed (capsuleSet r hl a) pos orn (along p0 p1 t) := by
        intro t h
        have := hin _ h
        rw [hconst] at this
        exact hR this
      have hball : ∀ t, ¬ lengthSqr (along p0 p1 t - (pos + smul hl n)) ≤ r * r := by
        intro t h
        apply hmiss t
        rw [hS]
        rcases hn with rfl | rfl
        · refine ⟨hl, by rw [abs_of_pos hh0], ?_⟩
          have : along p0 p1 t - pos - smul hl w = along p0 p1 t - (pos + smul hl w) := by ext <;> simp <;> ring
          rwa [this]
        · refine ⟨-hl, by rw [abs_neg, abs_of_pos hh0], ?_⟩
          have : along p0 p1 t - pos - smul (-hl) w = along p0 p1 t - (pos + smul hl (-w)) := by
            ext <;> simp <;> ring
          rwa [this]
      obtain ⟨s1, s2⟩ := raySphere_spec p0 p1 (pos + smul hl n) r hp
      cases hsp : raySphere p0 p1 (pos + smul hl n) r with
      | none =>
        simp only
        exact ⟨by simp, fun _ t _ _ => hmiss t, by simp⟩
      | some t => exact absurd (s2 t hsp).2.1 (hball t)
  | meets ds nn fin fout =>
    obtain ⟨hrange, hfin, hle⟩ := hmeets ds nn fin fout hray
    simp only
    set y := height pos w (along p0 p1 fin) with hy
    have e1 : dot (along p0 p1 fin - (pos + smul hl w)) (pos - smul hl w - (pos + smul hl w)) = 2 * hl * (hl - y) := by
      have : dot (along p0 p1 fin - (pos + smul hl w)) (pos - smul hl w - (pos + smul hl w))
          = 2 * hl * (hl * lengthSqr w - dot (along p0 p1 fin - pos) w) := by
        simp [lengthSqr, dot]; ring
      rw [this, hw, mul_one]; rfl
    have e2 : dot (along p0 p1 fin - (pos - smul hl w)) (pos - smul hl w - (pos + smul hl w)) = -(2 * hl * (hl + y)) := by
      have : dot (along p0 p1 fin - (pos - smul hl w)) (pos - smul hl w - (pos + smul hl w))
          = -(2 * hl * (hl * lengthSqr w + dot (along p0 p1 fin - pos) w)) := by
        simp [lengthSqr, dot]; ring
      rw [this, hw, mul_one]; rfl
    rw [e1, e2]
    by_cases hb : 0 < 2 * hl * (hl - y) ∧ -(2 * hl * (hl + y)) < 0
    · rw [if_pos hb]
      have hyin : |y| ≤ hl := by
        obtain ⟨b1, b2⟩ := hb
        have h2 : 0 < 2 * hl := by linarith
        rw [abs_le]
        constructor
        · have : 0 < hl + y := by
            by_contra hcon
            have := mul_nonpos_of_nonneg_of_nonpos h2.le (not_lt.1 hcon)
            linarith
          linarith
        · have := pos_of_mul_pos_right b1 h2.le
          linarith
      have hfinS : Placed (capsuleSet r hl a) pos orn (along p0 p1 fin) := by
        rw [hS]
        exact ⟨y, hyin, by rw [hdistw, ← hy, hfin]; linarith⟩
      refine ⟨?_, by simp, by simp⟩
      intro h hh
      simp only [Option.some_inj] at hh
      subst hh
      simp only
      refine ⟨fun h0 h1 => ⟨h0, h1, hfinS, ?_⟩, ?_⟩
      · intro s _ hs h
        have := ((hrange s).1 (hin _ h)).1
        linarith
      · intro hr t h0 h1 h
        rcases hr with hr | hr
        · apply hout
          rw [hS] at *
          exact capsule_convex hr h0 hfinS h
        · have := ((hrange t).1 (hin _ h)).1
          linarith
    · rw [if_neg hb]
      obtain ⟨n, hn, hside, hv⟩ : ∃ n : V3 ℝ, (n = w ∨ n = -w) ∧ hl < dot (along p0 p1 fin - pos) n ∧
          (if 2 * hl * (hl - y) < 0 then pos + smul hl w else pos - smul hl w) = pos + smul hl n := by
        split
        · rename_i h
          refine ⟨w, .inl rfl, ?_, rfl⟩
          have : hl < y := by nlinarith
          exact this
        · rename_i h
          refine ⟨-w, .inr rfl, ?_, hneg⟩
          rw [dot_neg_right]
          have hle : y ≤ hl := by
            by_contra hcon
            apply h
            exact mul_neg_of_pos_of_neg (by linarith) (by linarith)
          have hne : y ≠ hl := fun h' => (hjun fin).1 ⟨h', hfin⟩
          have hne2 : y ≠ -hl := fun h' => (hjun fin).2 ⟨h', hfin⟩
          have hlt := lt_of_le_of_ne hle hne
          have : ¬ -(2 * hl * (hl + y)) < 0 := fun h' => hb ⟨mul_pos (by linarith) (by linarith), h'⟩
          have hy2 : y ≤ -hl := by
            by_contra hcon
            apply this
            have := mul_pos (by linarith : 0 < 2 * hl) (by linarith : 0 < hl + y)
            linarith
          have := lt_of_le_of_ne hy2 hne2
          have hyd : dot (along p0 p1 fin - pos) w = y := rfl
          rw [hyd]; linarith
      rw [hv]
      obtain ⟨g1, g2⟩ := hemi n hn fin hside
        (fun c t h1 h2 _ h => (hrange c).2 ⟨h1, by linarith [((hrange t).1 h).2]⟩)
        (fun t _ h => ((hrange t).1 h).1)
      have hnorm : ∃ m, normalizeV tiny (along p0 p1 fin - pos) = some m := by
        unfold normalizeV
        rw [if_pos]
        · exact ⟨_, rfl⟩
        · have hn1 : lengthSqr n = 1 := by
            rcases hn with rfl | rfl
            · exact hw
            · have : lengthSqr (-w) = lengthSqr w := by simp [lengthSqr, dot]
              rw [this, hw]
          have h1 := dot_sq_le (along p0 p1 fin - pos) n
          rw [hn1, mul_one] at h1
          apply lt_of_lt_of_le hhl
          apply Real.le_sqrt_of_sq_le
          nlinarith
      cases hsp : raySphere p0 p1 (pos + smul hl n) r with
      | none =>
        simp only
        exact ⟨by simp, fun _ => g1 hsp, by simp⟩
      | some t =>
        obtain ⟨m, hm⟩ := hnorm
        simp only [hm, Option.map_some]
        refine ⟨?_, by simp, by simp⟩
        intro h hh
        simp only [Option.some_inj] at hh
        subst hh
        exact g2 t hsp

/-! ## Witnesses

A capsule of radius 1 around the segment from -1 to 1 on the x axis. -/

theorem placed_id_capsule (x : V3 ℝ) : Placed (capsuleSet 1 1 Axis.x) ⟨0, 0, 0⟩ ⟨0, 0, 0, 1⟩ x ↔
    ∃ s, |s| ≤ 1 ∧ (x.x - s) * (x.x - s) + x.y * x.y + x.z * x.z ≤ 1 := by
  rw [placed_capsule quat_one_unit, cyl_w]
  have h : ∀ s, lengthSqr (x - ⟨0, 0, 0⟩ - smul s ⟨1, 0, 0⟩) = (x.x - s) * (x.x - s) + x.y * x.y + x.z * x.z := by
    intro s; simp [lengthSqr, dot]
  simp only [h, one_mul]

/-- A segment along the axis towards the capsule. -/
theorem cap_along_axis (eps tiny c : ℝ) (he : 0 ≤ eps) (hc : 0 < c) :
    capRay eps tiny 1 1 ⟨1, 0, 0⟩ ⟨0, 0, 0⟩ ⟨4, 0, 0⟩ ⟨4 - c, 0, 0⟩ = some (some ⟨2 / c, none⟩) := by
  have h1 : rayCyl eps 1 1 ⟨1, 0, 0⟩ ⟨0, 0, 0⟩ ⟨4, 0, 0⟩ ⟨4 - c, 0, 0⟩ = .parallel := by
    rw [(rayCyl_spec he one_pos (by simp [lengthSqr, dot]) _ _ _).2.2]
    simpa [lengthSqr, dot, cross] using he
  unfold capRay
  rw [h1]
  simp only
  have hc0 : (⟨0, 0, 0⟩ + smul 1 ⟨1, 0, 0⟩ : V3 ℝ) = ⟨1, 0, 0⟩ := by ext <;> simp
  rw [hc0, if_pos (by norm_num [dot])]
  have : raySphere ⟨4, 0, 0⟩ ⟨4 - c, 0, 0⟩ ⟨1, 0, 0⟩ 1 = some (2 / c) := by
    unfold raySphere
    simp only
    have hd : (⟨4 - c, 0, 0⟩ - ⟨4, 0, 0⟩ : V3 ℝ) = ⟨-c, 0, 0⟩ := by ext <;> simp
    have hm : (⟨4, 0, 0⟩ - ⟨1, 0, 0⟩ : V3 ℝ) = ⟨3, 0, 0⟩ := by ext <;> simp; norm_num
    rw [hd, hm]
    have e1 : dot (⟨-c, 0, 0⟩ : V3 ℝ) ⟨-c, 0, 0⟩ = c * c := by simp [dot]
    have e2 : dot (⟨3, 0, 0⟩ : V3 ℝ) ⟨-c, 0, 0⟩ = -3 * c := by simp [dot]
    have e3 : dot (⟨3, 0, 0⟩ : V3 ℝ) ⟨3, 0, 0⟩ = 9 := by norm_num [dot]
    rw [e1, e2, e3]
    have e4 : -3 * c * (-3 * c) - c * c * (9 - 1 * 1) = c * c := by ring
    rw [e4, if_neg (by rintro ⟨-, h⟩; linarith), if_neg (by nlinarith), Real.sqrt_mul_self hc.le]
    have e5 : (-(-3 * c) - c) / (c * c) = 2 / c := by field_simp; ring
    rw [e5, max_eq_right (by positivity)]
  rw [this]

/-- **Finding.** The full statement fails: a segment which ends before the capsule is reported to hit it. -/
theorem cap_ray_refuted (eps tiny : ℝ) (he : 0 ≤ eps) (ht2 : tiny < 1) : ¬ CapRayFull eps tiny := by
  intro h
  have h1 := h 1 1 .x ⟨0, 0, 0⟩ ⟨0, 0, 0, 1⟩ ⟨4, 0, 0⟩ ⟨4 - 1, 0, 0⟩ quat_one_unit ht2 ht2 (by norm_num [V3.ext_iff])
  rw [cyl_w] at h1
  have := (h1.hit _ (cap_along_axis eps tiny 1 he one_pos)).2.1
  norm_num at this

/-- **Finding.** The normal of a hit by a segment along the axis is computed from an unassigned value. -/
theorem cap_parallel_normal_undefined (eps tiny : ℝ) (he : 0 ≤ eps) :
    capRay eps tiny 1 1 ⟨1, 0, 0⟩ ⟨0, 0, 0⟩ ⟨4, 0, 0⟩ ⟨4 - 4, 0, 0⟩ = some (some ⟨2 / 4, none⟩) :=
  cap_along_axis eps tiny 4 he (by norm_num)

/-- **Finding.** The normal of a hit at a hemisphere is the direction from the centre of the capsule to another
point of the line. -/
theorem cap_hemisphere_normal_wrong (eps tiny : ℝ) (he : 0 ≤ eps) (he2 : eps < 1) (ht2 : tiny < 1) :
    ∃ n, capRay eps tiny 1 1 ⟨1, 0, 0⟩ ⟨0, 0, 0⟩ ⟨8 / 5, 3, 0⟩ ⟨8 / 5, -1, 0⟩ = some (some ⟨11 / 20, some n⟩) ∧
    FirstHit (Placed (capsuleSet 1 1 Axis.x) ⟨0, 0, 0⟩ ⟨0, 0, 0, 1⟩) ⟨8 / 5, 3, 0⟩ ⟨8 / 5, -1, 0⟩ (11 / 20) ∧
    ¬ Outward (Placed (capsuleSet 1 1 Axis.x) ⟨0, 0, 0⟩ ⟨0, 0, 0, 1⟩)
      (along ⟨8 / 5, 3, 0⟩ ⟨8 / 5, -1, 0⟩ (11 / 20)) n := by
  have hlen : 1 < Real.sqrt (lengthSqr (along ⟨8 / 5, 3, 0⟩ ⟨8 / 5, -1, 0⟩ (3 / 4 - 1 / 4) - ⟨0, 0, 0⟩ : V3 ℝ)) := by
    rw [Real.lt_sqrt (by norm_num)]
    norm_num [lengthSqr, dot, along]
  refine ⟨?_, ?_, ⟨by norm_num, by norm_num, ?_, ?_⟩, ?_⟩
  · exact smul (1 / Real.sqrt (lengthSqr (along ⟨8 / 5, 3, 0⟩ ⟨8 / 5, -1, 0⟩ (3 / 4 - 1 / 4) - ⟨0, 0, 0⟩ : V3 ℝ)))
      (along ⟨8 / 5, 3, 0⟩ ⟨8 / 5, -1, 0⟩ (3 / 4 - 1 / 4) - ⟨0, 0, 0⟩)
  · unfold capRay
    rw [rayCyl_perp eps he he2 (8 / 5) 0 (1 / 4) (by norm_num) (by norm_num) (by norm_num)]
    simp only
    rw [if_neg (by norm_num [dot, along]), if_pos (by norm_num [dot, along])]
    have : raySphere ⟨8 / 5, 3, 0⟩ ⟨8 / 5, -1, 0⟩ (⟨0, 0, 0⟩ + smul 1 ⟨1, 0, 0⟩) 1 = some (11 / 20) := by
      unfold raySphere
      simp only
      have hd : (⟨8 / 5, -1, 0⟩ - ⟨8 / 5, 3, 0⟩ : V3 ℝ) = ⟨0, -4, 0⟩ := by ext <;> norm_num
      have hm : (⟨8 / 5, 3, 0⟩ - (⟨0, 0, 0⟩ + smul 1 ⟨1, 0, 0⟩) : V3 ℝ) = ⟨3 / 5, 3, 0⟩ := by ext <;> norm_num
      rw [hd, hm, if_neg (by norm_num [dot]), if_neg (by norm_num [dot])]
      have hs : Real.sqrt (dot (⟨3 / 5, 3, 0⟩ : V3 ℝ) ⟨0, -4, 0⟩ * dot (⟨3 / 5, 3, 0⟩ : V3 ℝ) ⟨0, -4, 0⟩
          - dot (⟨0, -4, 0⟩ : V3 ℝ) ⟨0, -4, 0⟩ * (dot (⟨3 / 5, 3, 0⟩ : V3 ℝ) ⟨3 / 5, 3, 0⟩ - 1 * 1)) = 16 / 5 := by
        have e : dot (⟨3 / 5, 3, 0⟩ : V3 ℝ) ⟨0, -4, 0⟩ * dot (⟨3 / 5, 3, 0⟩ : V3 ℝ) ⟨0, -4, 0⟩
          - dot (⟨0, -4, 0⟩ : V3 ℝ) ⟨0, -4, 0⟩ * (dot (⟨3 / 5, 3, 0⟩ : V3 ℝ) ⟨3 / 5, 3, 0⟩ - 1 * 1)
            = (16 / 5) * (16 / 5) := by norm_num [dot]
        rw [e, Real.sqrt_mul_self (by norm_num)]
      rw [hs]
      norm_num [dot]
    rw [this]
    simp only
    unfold normalizeV
    rw [if_pos (by linarith)]
    rfl
  · rw [placed_id_capsule]
    exact ⟨1, by norm_num, by norm_num [along]⟩
  · intro s h0 hs h
    rw [placed_id_capsule] at h
    obtain ⟨u, hu, h⟩ := h
    have hu' := (abs_le.1 hu).2
    simp [along] at h
    have h1 : (3 / 5) * (3 / 5) ≤ (8 / 5 - u) * (8 / 5 - u) := by nlinarith
    have h2 : 4 / 5 < 3 + s * (-1 - 3) := by linarith
    nlinarith
  · rintro ⟨-, h⟩
    have h1 := h ⟨9 / 5, 3 / 5, 0⟩ (by rw [placed_id_capsule]; exact ⟨1, by norm_num, by norm_num⟩)
    rw [dot_smul_left] at h1
    have h2 : dot (along ⟨8 / 5, 3, 0⟩ ⟨8 / 5, -1, 0⟩ (3 / 4 - 1 / 4) - ⟨0, 0, 0⟩ : V3 ℝ)
        (⟨9 / 5, 3 / 5, 0⟩ - along ⟨8 / 5, 3, 0⟩ ⟨8 / 5, -1, 0⟩ (11 / 20)) = 3 / 25 := by
      norm_num [dot, along]
    rw [h2] at h1
    have := mul_pos (one_div_pos.2 (by linarith : 0 < Real.sqrt (lengthSqr
      (along ⟨8 / 5, 3, 0⟩ ⟨8 / 5, -1, 0⟩ (3 / 4 - 1 / 4) - ⟨0, 0, 0⟩ : V3 ℝ)))) (by norm_num : (0 : ℝ) < 3 / 25)
    linarith

/-- **Finding.** A segment perpendicular to the axis, at the height of the end of the axis, is tested against the
other hemisphere and reported as a miss. -/
theorem cap_junction_missed (eps tiny : ℝ) (he : 0 ≤ eps) (he2 : eps < 1) :
    capRay eps tiny 1 1 ⟨1, 0, 0⟩ ⟨0, 0, 0⟩ ⟨1, 3, 0⟩ ⟨1, -1, 0⟩ = some none ∧
    FirstHit (Placed (capsuleSet 1 1 Axis.x) ⟨0, 0, 0⟩ ⟨0, 0, 0, 1⟩) ⟨1, 3, 0⟩ ⟨1, -1, 0⟩ (1 / 2) := by
  refine ⟨?_, by norm_num, by norm_num, ?_, ?_⟩
  · unfold capRay
    rw [rayCyl_perp eps he he2 1 0 (1 / 4) (by norm_num) (by norm_num) (by norm_num)]
    simp only
    rw [if_neg (by norm_num [dot, along]), if_neg (by norm_num [dot, along])]
    have : raySphere ⟨1, 3, 0⟩ ⟨1, -1, 0⟩ (⟨0, 0, 0⟩ - smul 1 ⟨1, 0, 0⟩) 1 = none := by
      unfold raySphere
      simp only
      rw [if_neg (by norm_num [dot]), if_pos (by norm_num [dot])]
    rw [this]
  · rw [placed_id_capsule]
    exact ⟨1, by norm_num, by norm_num [along]⟩
  · intro s h0 hs h
    rw [placed_id_capsule] at h
    obtain ⟨u, hu, h⟩ := h
    simp [along] at h
    nlinarith [mul_self_nonneg (1 - u)]

/-- The hypotheses of `cap_ray_partial` are met by the segment of `cap_hemisphere_normal_wrong`. -/
example : (¬ Placed (capsuleSet 1 1 Axis.x) ⟨0, 0, 0⟩ ⟨0, 0, 0, 1⟩ ⟨8 / 5, 3, 0⟩) ∧
    (1 / 100 : ℝ) < 4 * (1 * 1) * lengthSqr (cross (⟨1, 0, 0⟩ : V3 ℝ) (⟨8 / 5, -1, 0⟩ - ⟨8 / 5, 3, 0⟩)) ∧
    ∀ t, height ⟨0, 0, 0⟩ ⟨1, 0, 0⟩ (along ⟨8 / 5, 3, 0⟩ ⟨8 / 5, -1, 0⟩ t) = 8 / 5 := by
  refine ⟨?_, ?_, ?_⟩
  · rw [placed_id_capsule]
    rintro ⟨s, -, h⟩
    simp only at h
    nlinarith [mul_self_nonneg (8 / 5 - s)]
  · norm_num [lengthSqr, dot, cross]
  · intro t
    norm_num [height, along, dot]

end Edyn.Geom
