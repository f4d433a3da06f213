import Verif.Geom.RaycastPoly

/-!
# Casting a segment against cylinders (C70)

`intersect_ray_cylinder` (`src/edyn/math/geom.cpp` 1225-1274) and `shape_raycast` of a cylinder
(`src/edyn/collision/raycast.cpp` 111-180).
-/

namespace Edyn.Geom

open Edyn.Math V3

/-! ## Model -/

/-- `intersect_ray_cylinder_result`, `geom.hpp`, with the two fractions which are assigned if the ray meets the
infinite cylinder. -/
inductive RayCyl
  | parallel
  | far
  | meets (distSqr : ℝ) (normal : V3 ℝ) (fin fout : ℝ)

/-- `intersect_ray_cylinder`, `geom.cpp` 1225-1274; `w` is the direction of the axis
(`coordinate_axis_vector(axis, orn)`). -/
noncomputable def rayCyl (eps r hl : ℝ) (w pos p0 p1 : V3 ℝ) : RayCyl :=
  let c0 := pos + smul hl w
  let c1 := pos - smul hl w
  match closestLineLine eps c0 c1 p0 p1 with
  | none => .parallel
  | some (s, t) =>
    let normal := along p0 p1 t - along c0 c1 s
    let distSqr := lengthSqr normal
    if r * r < distSqr then .far else
    let d := p1 - p0
    let e := c1 - c0
    let delta := Real.sqrt ((r * r - distSqr) * dot e e / (dot d d * dot e e - dot d e * dot d e))
    .meets distSqr normal (t - delta) (t + delta)

/-- The end of the axis and the direction of the cap on the side of the start, `raycast.cpp` 121-126: the index of
the face, its centre and its normal; `none`: the assertion of `normalize` fails. -/
noncomputable def cylFace (tiny hl : ℝ) (w pos p0 : V3 ℝ) : Option (V3 ℝ × V3 ℝ) :=
  let v0 := pos + smul hl w
  let v1 := pos - smul hl w
  (normalizeV tiny (v1 - v0)).map fun u =>
    if dot (p0 - pos) (v1 - v0) < 0 then (v0, smul (-1) u) else (v1, u)

/-- `shape_raycast` of a cylinder, `raycast.cpp` 111-180.  A division by zero is `none`. -/
noncomputable def cylRay (eps tiny r hl : ℝ) (w pos p0 p1 : V3 ℝ) : RayRes :=
  match rayCyl eps r hl w pos p0 p1 with
  | .far => some none
  | .parallel =>
    (cylFace tiny hl w pos p0).bind fun (c, n) =>
    (closestLine eps p0 (p1 - p0) c).map fun q =>
      if r * r < q.distSqr then none else some ⟨q.t, some n⟩
  | .meets distSqr normal fin _ =>
    (cylFace tiny hl w pos p0).bind fun (c, n) =>
    (normalizeV tiny ((pos - smul hl w) - (pos + smul hl w))).bind fun u =>
    let x := along p0 p1 fin
    if 0 < dot (x - (pos + smul hl w)) u ∧ dot (x - (pos - smul hl w)) u < 0 then
      some (some ⟨fin, if distSqr = 0 then none else some (smul (1 / Real.sqrt distSqr) normal)⟩)
    else
      if dot (p1 - p0) n = 0 then none else
      let t := dot (c - p0) n / dot (p1 - p0) n
      if r * r < lengthSqr (along p0 p1 t - c) then some none else some (some ⟨t, some n⟩)

/-! ## Specification -/

/-- Height of a point along the axis, and the square of its distance to the axis. -/
noncomputable def height (pos w x : V3 ℝ) : ℝ := dot (x - pos) w
noncomputable def radial (pos w x : V3 ℝ) : ℝ := lengthSqr (x - pos) - dot (x - pos) w * dot (x - pos) w

/-- The full statement for cylinders. -/
def CylRayFull (eps tiny : ℝ) : Prop :=
  ∀ (r hl : ℝ) (a : Axis) (pos : V3 ℝ) (orn : Quat ℝ) (p0 p1 : V3 ℝ), orn.lengthSqr = 1 → tiny < r → tiny < 2 * hl →
    p0 ≠ p1 → RayExact (Placed (cylinderSet r hl a) pos orn) p0 p1
      (cylRay eps tiny r hl (Quat.rotate orn a.vec) pos p0 p1)

/-! ## Lemmas -/

theorem dot_toObject {orn : Quat ℝ} (ho : orn.lengthSqr = 1) (x pos v : V3 ℝ) :
    dot (toObjectSpace x pos orn) v = dot (x - pos) (Quat.rotate orn v) := by
  have h := dot_rotate ho v (x - pos)
  rw [dot_comm (x - pos), h, dot_comm v]
  rfl

theorem placed_cylinder {r hl : ℝ} {a : Axis} {pos : V3 ℝ} {orn : Quat ℝ} (ho : orn.lengthSqr = 1) (x : V3 ℝ) :
    Placed (cylinderSet r hl a) pos orn x ↔
      |height pos (Quat.rotate orn a.vec) x| ≤ hl ∧ radial pos (Quat.rotate orn a.vec) x ≤ r * r := by
  rw [placed_iff _ _ ho]
  unfold cylinderSet height radial
  rw [← dot_toObject ho]
  have h1 : lengthSqr (toObjectSpace x pos orn - smul (dot (toObjectSpace x pos orn) a.vec) a.vec)
      = lengthSqr (toObjectSpace x pos orn) + dot (toObjectSpace x pos orn) a.vec * dot (toObjectSpace x pos orn) a.vec
        * lengthSqr a.vec
        - 2 * (dot (toObjectSpace x pos orn) a.vec * dot (toObjectSpace x pos orn) a.vec) := by
    generalize toObjectSpace x pos orn = p
    simp [lengthSqr, dot]; ring
  have h2 : lengthSqr (toObjectSpace x pos orn) = lengthSqr (x - pos) := by
    unfold toObjectSpace
    rw [rotate_length _ (conjugate_unit ho)]
  rw [h1, Axis.vec_unit, h2]
  constructor <;> rintro ⟨u, v⟩ <;> exact ⟨u, by linarith⟩

theorem height_along (pos w p0 p1 : V3 ℝ) (t : ℝ) :
    height pos w (along p0 p1 t) = height pos w p0 + t * dot (p1 - p0) w := by
  simp [height, along, dot]; ring

theorem along_zero (p0 p1 : V3 ℝ) : along p0 p1 0 = p0 := by ext <;> simp [along]

theorem cross_unit_sq (w d : V3 ℝ) (hw : lengthSqr w = 1) :
    lengthSqr (cross w d) = dot d d - dot d w * dot d w := by
  have : lengthSqr (cross w d) = lengthSqr w * dot d d - dot d w * dot d w := by
    simp [lengthSqr, dot]; ring
  rw [this, hw, one_mul]

theorem quad_range {m A t R : ℝ} {ρ : ℝ → ℝ} (hA : 0 < A) (hm : m ≤ R) (h : ∀ u, ρ u = m + (u - t) * (u - t) * A) :
    (∀ u, ρ u ≤ R ↔ t - Real.sqrt ((R - m) / A) ≤ u ∧ u ≤ t + Real.sqrt ((R - m) / A)) ∧
    ρ (t - Real.sqrt ((R - m) / A)) = R ∧ t - Real.sqrt ((R - m) / A) ≤ t + Real.sqrt ((R - m) / A) := by
  have hδ0 : 0 ≤ Real.sqrt ((R - m) / A) := Real.sqrt_nonneg _
  have hδ2 : Real.sqrt ((R - m) / A) * Real.sqrt ((R - m) / A) = (R - m) / A :=
    Real.mul_self_sqrt (div_nonneg (by linarith) hA.le)
  have hδA : Real.sqrt ((R - m) / A) * Real.sqrt ((R - m) / A) * A = R - m := by rw [hδ2, div_mul_cancel₀ _ hA.ne']
  generalize Real.sqrt ((R - m) / A) = δ at *
  refine ⟨fun u => ?_, ?_, by linarith⟩
  · rw [h]
    constructor
    · intro h
      have h' : (u - t) * (u - t) * A ≤ δ * δ * A := by linarith
      have h2 : (u - t) * (u - t) ≤ δ * δ := le_of_mul_le_mul_right h' hA
      have := abs_le_of_sq_le_sq' (by nlinarith : (u - t) ^ 2 ≤ δ ^ 2) hδ0
      constructor <;> linarith [this.1, this.2]
    · rintro ⟨h1, h2⟩
      have : (u - t) * (u - t) ≤ δ * δ := by nlinarith
      have := mul_le_mul_of_nonneg_right this hA.le
      linarith
  · rw [h]
    have : (t - δ - t) * (t - δ - t) * A = δ * δ * A := by ring
    rw [this, hδA]; ring

/-- Where the ray is within the infinite cylinder. -/
theorem rayCyl_spec {eps r hl : ℝ} (he : 0 ≤ eps) (hhl : 0 < hl) {w : V3 ℝ} (hw : lengthSqr w = 1) (pos p0 p1 : V3 ℝ) :
    (rayCyl eps r hl w pos p0 p1 = .far → ∀ t, r * r < radial pos w (along p0 p1 t)) ∧
    (∀ ds n fin fout, rayCyl eps r hl w pos p0 p1 = .meets ds n fin fout →
      (∀ t, radial pos w (along p0 p1 t) ≤ r * r ↔ fin ≤ t ∧ t ≤ fout) ∧
      radial pos w (along p0 p1 fin) = r * r ∧ fin ≤ fout) ∧
    (rayCyl eps r hl w pos p0 p1 = .parallel ↔ 4 * (hl * hl) * lengthSqr (cross w (p1 - p0)) ≤ eps) := by
  unfold rayCyl
  simp only
  have hcc : pos - smul hl w - (pos + smul hl w) = smul (-2 * hl) w := by ext <;> simp <;> ring
  unfold closestLineLine
  simp only [hcc]
  set d := p1 - p0 with hd
  set k := dot d w with hk
  have e1 : dot (smul (-2 * hl) w) (smul (-2 * hl) w) = 4 * (hl * hl) := by
    have : dot (smul (-2 * hl) w) (smul (-2 * hl) w) = 4 * (hl * hl) * lengthSqr w := by simp [lengthSqr, dot]; ring
    rw [this, hw, mul_one]
  have e2 : dot (smul (-2 * hl) w) d = -2 * hl * k := by simp [dot, hk]; ring
  have e3 : dot d (smul (-2 * hl) w) = -2 * hl * k := by simp [dot, hk]; ring
  have hA := cross_unit_sq w d hw
  set A := dot d d - k * k with hAdef
  have hdet : dot (smul (-2 * hl) w) (smul (-2 * hl) w) * dot d d
      - dot (smul (-2 * hl) w) d * dot (smul (-2 * hl) w) d = 4 * (hl * hl) * A := by
    rw [e1, e2, hAdef]; ring
  have hden : dot d d * dot (smul (-2 * hl) w) (smul (-2 * hl) w) - dot d (smul (-2 * hl) w) * dot d (smul (-2 * hl) w)
      = 4 * (hl * hl) * A := by
    rw [e1, e3, hAdef]; ring
  have hA' : lengthSqr (cross w d) = A := hA
  rw [hdet, hA']
  by_cases hc : eps < 4 * (hl * hl) * A
  · rw [if_pos hc]
    simp only
    have hpos : 0 < 4 * (hl * hl) * A := lt_of_le_of_lt he hc
    have hA0 : 0 < A := by
      by_contra hcon
      have := mul_nonpos_of_nonneg_of_nonpos (by positivity : 0 ≤ 4 * (hl * hl)) (not_lt.1 hcon)
      linarith
    set q := pos + smul hl w - p0 with hq
    set s := (dot (smul (-2 * hl) w) d * dot d q - dot (smul (-2 * hl) w) q * dot d d) * (1 / (4 * (hl * hl) * A)) with hs
    set t := (dot (smul (-2 * hl) w) (smul (-2 * hl) w) * dot d q
      - dot (smul (-2 * hl) w) d * dot (smul (-2 * hl) w) q) * (1 / (4 * (hl * hl) * A)) with ht
    set n := along p0 p1 t - along (pos + smul hl w) (pos - smul hl w) s with hn
    have en : n = smul t d - q + smul (2 * hl * s) w := by
      rw [hn]; ext <;> simp [along, hq, hd] <;> ring
    -- the two normal equations
    have es : s = (-2 * hl * k * dot d q + 2 * hl * dot w q * dot d d) / (4 * (hl * hl) * A) := by
      rw [hs, e2]
      have : dot (smul (-2 * hl) w) q = -2 * hl * dot w q := by simp [dot]; ring
      rw [this]; ring
    have et : t = (4 * (hl * hl) * dot d q - 4 * (hl * hl) * k * dot w q) / (4 * (hl * hl) * A) := by
      rw [ht, e1, e2]
      have : dot (smul (-2 * hl) w) q = -2 * hl * dot w q := by simp [dot]; ring
      rw [this]; ring
    have nd : dot n d = 0 := by
      have : dot n d = t * dot d d - dot d q + 2 * hl * s * k := by
        rw [en]; simp [dot, hk]; ring
      rw [this, es, et]
      field_simp
      rw [hAdef]; ring
    have nw : dot n w = 0 := by
      have : dot n w = t * k - dot w q + 2 * hl * s * lengthSqr w := by
        rw [en]; simp [lengthSqr, dot, hk]; ring
      rw [this, hw, es, et]
      field_simp
      rw [hAdef]; ring
    have hrad : ∀ u, radial pos w (along p0 p1 u) = lengthSqr n + (u - t) * (u - t) * A := by
      intro u
      have hx : along p0 p1 u - pos = n + smul (hl - 2 * hl * s) w + smul (u - t) d := by
        rw [en]; ext <;> simp [along, hq, hd] <;> ring
      unfold radial
      rw [hx]
      set c := hl - 2 * hl * s
      have h1 : lengthSqr (n + smul c w + smul (u - t) d)
          = lengthSqr n + c * c * lengthSqr w + (u - t) * (u - t) * dot d d + 2 * c * dot n w
            + 2 * (u - t) * dot n d + 2 * c * (u - t) * k := by
        simp [lengthSqr, dot, hk]; ring
      have h2 : dot (n + smul c w + smul (u - t) d) w = dot n w + c * lengthSqr w + (u - t) * k := by
        simp [lengthSqr, dot, hk]; ring
      rw [h1, h2, nd, nw, hw, hAdef]; ring
    by_cases hf : r * r < lengthSqr n
    · rw [if_pos hf]
      refine ⟨fun _ u => ?_, by simp, ?_⟩
      · rw [hrad]
        have := mul_nonneg (mul_self_nonneg (u - t)) hA0.le
        linarith
      · simp only [reduceCtorEq, false_iff, not_le]; exact hc
    · rw [if_neg hf]
      refine ⟨by simp, ?_, ?_⟩
      · intro ds n' fin fout h
        rw [e1, e3] at h
        have hdd : dot d d * (4 * (hl * hl)) - -2 * hl * k * (-2 * hl * k) = 4 * (hl * hl) * A := by rw [hAdef]; ring
        rw [hdd] at h
        have hq2 : (r * r - lengthSqr n) * (4 * (hl * hl)) / (4 * (hl * hl) * A) = (r * r - lengthSqr n) / A := by
          field_simp
        rw [hq2] at h
        simp only [RayCyl.meets.injEq] at h
        obtain ⟨-, -, h3, h4⟩ := h
        subst h3; subst h4
        exact quad_range hA0 (not_lt.1 hf) hrad
      · simp only [reduceCtorEq, false_iff, not_le]; exact hc
  · rw [if_neg hc]
    refine ⟨by simp, by simp, ?_⟩
    simp only [true_iff]; exact not_lt.1 hc

/-- The cap on the side of the start: its normal is the direction of the axis or the opposite one, and the start is
not on the other side of the middle. -/
theorem cylFace_spec {tiny hl : ℝ} (ht : 0 ≤ tiny) (hhl : tiny < 2 * hl) {w : V3 ℝ} (hw : lengthSqr w = 1) (pos p0 : V3 ℝ) :
    normalizeV tiny (pos - smul hl w - (pos + smul hl w)) = some (-w) ∧
    ∃ n, (n = w ∨ n = -w) ∧ cylFace tiny hl w pos p0 = some (pos + smul hl n, n) ∧ 0 ≤ dot (p0 - pos) n := by
  have hcc : pos - smul hl w - (pos + smul hl w) = smul (-2 * hl) w := by ext <;> simp <;> ring
  have hh : 0 < 2 * hl := lt_of_le_of_lt ht hhl
  have hlen : Real.sqrt (lengthSqr (smul (-2 * hl) w)) = 2 * hl := by
    have : lengthSqr (smul (-2 * hl) w) = (2 * hl) * (2 * hl) * lengthSqr w := by simp [lengthSqr, dot]; ring
    rw [this, hw, mul_one, Real.sqrt_mul_self hh.le]
  have hnorm : normalizeV tiny (smul (-2 * hl) w) = some (-w) := by
    unfold normalizeV
    rw [hlen, if_pos hhl]
    congr 1
    have hne : hl ≠ 0 := by intro h; rw [h] at hh; linarith
    ext <;> simp <;> field_simp
  refine ⟨by rw [hcc]; exact hnorm, ?_⟩
  unfold cylFace
  simp only [hcc, hnorm, Option.map_some]
  have hdot : dot (p0 - pos) (smul (-2 * hl) w) = -(2 * hl) * dot (p0 - pos) w := by simp [dot]; ring
  rw [hdot]
  split
  · rename_i h
    refine ⟨w, .inl rfl, ?_, ?_⟩
    · congr 2
      ext <;> simp
    · by_contra hcon
      have : 0 < -(2 * hl) * dot (p0 - pos) w := by nlinarith
      linarith
  · rename_i h
    refine ⟨-w, .inr rfl, ?_, ?_⟩
    · congr 2
      ext <;> simp <;> ring
    · rw [dot_neg_right]
      by_contra hcon
      have : -(2 * hl) * dot (p0 - pos) w < 0 := by nlinarith
      exact h this

/-- A value between two values of a linear function is taken in between. -/
theorem linear_crossing {y k a b h : ℝ} (hab : a ≤ b) (h1 : h ≤ y + a * k) (h2 : y + b * k ≤ h) :
    ∃ c, a ≤ c ∧ c ≤ b ∧ y + c * k = h := by
  by_cases hk : k = 0
  · subst hk
    exact ⟨a, le_refl _, hab, by linarith⟩
  · refine ⟨(h - y) / k, ?_, ?_, by field_simp; ring⟩
    · rcases lt_or_gt_of_ne hk with hn | hp
      · rw [le_div_iff_of_neg hn]; linarith
      · rw [le_div_iff₀ hp]; nlinarith
    · rcases lt_or_gt_of_ne hk with hn | hp
      · rw [div_le_iff_of_neg hn]; linarith
      · rw [div_le_iff₀ hp]; nlinarith

/-- A value of a linear function between two values of bounded size is bounded. -/
theorem linear_between {y k a b h : ℝ} (ha : a < 0) (hb : 0 ≤ b) (h1 : |y + a * k| ≤ h) (h2 : |y + b * k| ≤ h) :
    |y + 0 * k| ≤ h := by
  rw [abs_le] at *
  have h3 : (b - a) * y = b * (y + a * k) - a * (y + b * k) := by ring
  constructor <;> nlinarith

/-! ## Theorem -/

/-- **C70, cylinders.** Proved for segments which start outside, are not nearly (but may be exactly) parallel to the
axis, and whose line does not pass through a rim: a hit with a fraction between 0 and 1 is the first point in the
cylinder, other fractions and misses mean that the segment misses it; the normal at a cap is the outward normal;
the result is undefined only for a segment perpendicular to the axis beyond the caps.  Missing: fractions outside
of the segment are reported (`cyl_ray_refuted`), the normal at the side (`cyl_side_normal_wrong`), lines through a
rim (`cyl_rim_missed`), segments perpendicular to the axis beyond the caps (`cyl_perpendicular_undefined`). -/
theorem cyl_ray_partial (eps tiny : ℝ) (he : 0 ≤ eps) (ht : 0 ≤ tiny) (r hl : ℝ) (a : Axis) (pos : V3 ℝ)
    (orn : Quat ℝ) (p0 p1 : V3 ℝ) (ho : orn.lengthSqr = 1) (hhl : tiny < 2 * hl)
    (hout : ¬ Placed (cylinderSet r hl a) pos orn p0)
    (hpar : eps < 4 * (hl * hl) * lengthSqr (cross (Quat.rotate orn a.vec) (p1 - p0)) ∨
      cross (Quat.rotate orn a.vec) (p1 - p0) = 0 ∧ eps < lengthSqr (p1 - p0))
    (hrim : ∀ t, ¬ (|height pos (Quat.rotate orn a.vec) (along p0 p1 t)| = hl ∧
      radial pos (Quat.rotate orn a.vec) (along p0 p1 t) = r * r)) :
    (∀ h, cylRay eps tiny r hl (Quat.rotate orn a.vec) pos p0 p1 = some (some h) →
      (0 ≤ h.fraction → h.fraction ≤ 1 → FirstHit (Placed (cylinderSet r hl a) pos orn) p0 p1 h.fraction) ∧
      (h.fraction < 0 ∨ 1 < h.fraction → Misses (Placed (cylinderSet r hl a) pos orn) p0 p1) ∧
      (|height pos (Quat.rotate orn a.vec) (along p0 p1 h.fraction)| = hl →
        ∃ n, h.normal = some n ∧ Outward (Placed (cylinderSet r hl a) pos orn) (along p0 p1 h.fraction) n)) ∧
    (cylRay eps tiny r hl (Quat.rotate orn a.vec) pos p0 p1 = some none →
      Misses (Placed (cylinderSet r hl a) pos orn) p0 p1) ∧
    (cylRay eps tiny r hl (Quat.rotate orn a.vec) pos p0 p1 = none →
      dot (p1 - p0) (Quat.rotate orn a.vec) = 0 ∧ hl ≤ |height pos (Quat.rotate orn a.vec) p0|) := by
  have hw : lengthSqr (Quat.rotate orn a.vec) = 1 := rotate_unit ho a.vec_unit
  set w := Quat.rotate orn a.vec with hwdef
  have hh0 : 0 < hl := by linarith
  have hS : ∀ x, Placed (cylinderSet r hl a) pos orn x ↔ |height pos w x| ≤ hl ∧ radial pos w x ≤ r * r :=
    fun x => placed_cylinder ho x
  obtain ⟨hfar, hmeets, hparallel⟩ := rayCyl_spec (r := r) he hh0 hw pos p0 p1
  obtain ⟨hu, n, hnw, hface, hside⟩ := cylFace_spec ht hhl hw pos p0
  have hn1 : lengthSqr n = 1 := by
    rcases hnw with rfl | rfl
    · exact hw
    · have : lengthSqr (-w) = lengthSqr w := by simp [lengthSqr, dot]
      rw [this, hw]
  -- heights along the normal of the cap
  set y0 := dot (p0 - pos) n with hy0
  set k := dot (p1 - p0) n with hk
  have hy : ∀ t, dot (along p0 p1 t - pos) n = y0 + t * k := by
    intro t; rw [hy0, hk]; simp [along, dot]; ring
  have habs : ∀ x, |height pos w x| = |dot (x - pos) n| := by
    intro x
    rcases hnw with rfl | rfl
    · rfl
    · rw [dot_neg_right, abs_neg]; rfl
  have hin : ∀ t, Placed (cylinderSet r hl a) pos orn (along p0 p1 t) ↔
      |y0 + t * k| ≤ hl ∧ radial pos w (along p0 p1 t) ≤ r * r := by
    intro t; rw [hS, habs, hy]
  have hout0 : ¬ (|y0 + 0 * k| ≤ hl ∧ radial pos w (along p0 p1 0) ≤ r * r) := by
    rw [← hin, along_zero]; exact hout
  have hcapR : ∀ t, y0 + t * k = hl → lengthSqr (along p0 p1 t - (pos + smul hl n)) = radial pos w (along p0 p1 t) := by
    intro t h
    rw [← hy] at h
    have e : radial pos w (along p0 p1 t) = lengthSqr (along p0 p1 t - pos)
        - dot (along p0 p1 t - pos) n * dot (along p0 p1 t - pos) n := by
      unfold radial
      rcases hnw with rfl | rfl
      · rfl
      · rw [dot_neg_right]; ring
    have : lengthSqr (along p0 p1 t - (pos + smul hl n)) = lengthSqr (along p0 p1 t - pos)
        - 2 * hl * dot (along p0 p1 t - pos) n + hl * hl * lengthSqr n := by
      simp [lengthSqr, dot]; ring
    rw [this, e, h, hn1]; ring
  have hcapN : ∀ t, y0 + t * k = hl → Outward (Placed (cylinderSet r hl a) pos orn) (along p0 p1 t) n := by
    intro t h
    refine ⟨hn1, fun q hq => ?_⟩
    rw [hS, habs] at hq
    have h1 := (abs_le.1 hq.1).2
    have : dot n (q - along p0 p1 t) = dot (q - pos) n - dot (along p0 p1 t - pos) n := by simp [dot]; ring
    rw [this, hy, h]; linarith
  unfold cylRay
  cases hray : rayCyl eps r hl w pos p0 p1 with
  | far =>
    simp only
    refine ⟨by simp, fun _ t _ _ h => ?_, by simp⟩
    rw [hS] at h
    linarith [hfar hray t, h.2]
  | parallel =>
    rw [hparallel] at hray
    obtain ⟨hcross, hlen⟩ : cross w (p1 - p0) = 0 ∧ eps < lengthSqr (p1 - p0) := by
      rcases hpar with h | h
      · linarith
      · exact h
    -- the direction is a multiple of the axis
    have hd : lengthSqr (p1 - p0) = k * k := by
      have h1 := cross_unit_sq w (p1 - p0) hw
      rw [hcross] at h1
      have h0 : lengthSqr (0 : V3 ℝ) = 0 := by simp [lengthSqr, dot]
      rw [h0] at h1
      have : dot (p1 - p0) w * dot (p1 - p0) w = k * k := by
        rw [hk]
        rcases hnw with rfl | rfl
        · rfl
        · rw [dot_neg_right]; ring
      have h2 : lengthSqr (p1 - p0) = dot (p1 - p0) (p1 - p0) := rfl
      linarith
    have hkn : k ≠ 0 := by
      intro h
      rw [hd, h] at hlen
      linarith
    have hdn : p1 - p0 = smul k n := by
      have : lengthSqr (p1 - p0 - smul k n) = lengthSqr (p1 - p0) - 2 * k * dot (p1 - p0) n + k * k * lengthSqr n := by
        simp [lengthSqr, dot]; ring
      rw [← hk, hd, hn1] at this
      have h0 : lengthSqr (p1 - p0 - smul k n) = 0 := by rw [this]; ring
      have h1 := lengthSqr_eq_zero h0
      have hx := congrArg V3.x h1
      have hy' := congrArg V3.y h1
      have hz := congrArg V3.z h1
      simp at hx hy' hz
      ext <;> simp <;> linarith
    have hconst : ∀ t, radial pos w (along p0 p1 t) = radial pos w p0 := by
      intro t
      have e : ∀ x, radial pos w x = lengthSqr (x - pos) - dot (x - pos) n * dot (x - pos) n := by
        intro x
        unfold radial
        rcases hnw with rfl | rfl
        · rfl
        · rw [dot_neg_right]; ring
      rw [e, e, hy]
      have : along p0 p1 t - pos = (p0 - pos) + smul (t * k) n := by
        have h1 : along p0 p1 t = p0 + smul t (p1 - p0) := rfl
        rw [h1, hdn]; ext <;> simp <;> ring
      rw [this]
      have h2 : lengthSqr (p0 - pos + smul (t * k) n) = lengthSqr (p0 - pos) + 2 * (t * k) * dot (p0 - pos) n
          + t * k * (t * k) * lengthSqr n := by simp [lengthSqr, dot]; ring
      rw [h2, hn1, ← hy0]; ring
    simp only [hface, Option.bind_some]
    have hcl : closestLine eps p0 (p1 - p0) (pos + smul hl n)
        = some ⟨lengthSqr (pos + smul hl n - (p0 + smul ((hl - y0) / k) (p1 - p0))), (hl - y0) / k,
            p0 + smul ((hl - y0) / k) (p1 - p0)⟩ := by
      unfold closestLine
      simp only
      rw [if_pos (show eps < dot (p1 - p0) (p1 - p0) from hlen)]
      have h1 : dot (pos + smul hl n - p0) (p1 - p0) = k * (hl - y0) := by
        rw [hdn]
        have : dot (pos + smul hl n - p0) (smul k n) = k * (hl * lengthSqr n - dot (p0 - pos) n) := by
          simp [lengthSqr, dot]; ring
        rw [this, hn1, ← hy0]; ring
      have h2 : dot (p1 - p0) (p1 - p0) = k * k := hd
      have h3 : k * (hl - y0) / (k * k) = (hl - y0) / k := by field_simp
      rw [h1, h2, h3]
    rw [hcl]
    simp only [Option.map_some]
    set tc := (hl - y0) / k with htc
    have hytc : y0 + tc * k = hl := by rw [htc, div_mul_cancel₀ _ hkn]; ring
    have hds : lengthSqr (pos + smul hl n - (p0 + smul tc (p1 - p0))) = radial pos w p0 := by
      rw [← hconst tc, ← hcapR tc hytc]
      have : along p0 p1 tc = p0 + smul tc (p1 - p0) := rfl
      rw [this]
      simp [lengthSqr, dot]; ring
    rw [hds]
    split
    · rename_i hc
      refine ⟨by simp, fun _ t _ _ h => ?_, by simp⟩
      rw [hS, hconst] at h
      linarith [h.2]
    · rename_i hc
      have hgt : hl < y0 := by
        by_contra hcon
        apply hout0
        rw [along_zero]
        refine ⟨?_, not_lt.1 hc⟩
        rw [abs_le]; constructor <;> linarith
      refine ⟨?_, by simp, by simp⟩
      intro h hh
      simp only [Option.some_inj] at hh
      subst hh
      simp only
      refine ⟨fun h0 h1 => ⟨h0, h1, ?_, ?_⟩, ?_, fun _ => ⟨_, rfl, hcapN tc hytc⟩⟩
      · rw [hin, hytc, hconst]
        exact ⟨by rw [abs_of_pos hh0], not_lt.1 hc⟩
      · intro s hs0 hs h
        rw [hin] at h
        have h2 := (abs_le.1 h.1).2
        have hk0 : k < 0 := by
          by_contra hcon
          have := mul_nonneg h0 (not_lt.1 hcon)
          linarith
        nlinarith
      · intro hr t h0 h1 h
        rw [hin] at h
        have h2 := (abs_le.1 h.1).2
        rcases hr with hr | hr
        · have hk0 : 0 < k := by
            by_contra hcon
            have := mul_nonneg_of_nonpos_of_nonpos hr.le (not_lt.1 hcon)
            linarith
          have := mul_nonneg h0 hk0.le
          linarith
        · have hk0 : k < 0 := by
            by_contra hcon
            have := mul_nonneg (by linarith : 0 ≤ tc) (not_lt.1 hcon)
            linarith
          nlinarith
  | meets ds nn fin fout =>
    obtain ⟨hrange, hfin, hle⟩ := hmeets ds nn fin fout hray
    simp only [hface, Option.bind_some, hu]
    have hbranch : (0 < dot (along p0 p1 fin - (pos + smul hl w)) (-w) ∧
        dot (along p0 p1 fin - (pos - smul hl w)) (-w) < 0) ↔ |y0 + fin * k| < hl := by
      have e1 : dot (along p0 p1 fin - (pos + smul hl w)) (-w) = hl * lengthSqr w - dot (along p0 p1 fin - pos) w := by
        simp [lengthSqr, dot]; ring
      have e2 : dot (along p0 p1 fin - (pos - smul hl w)) (-w) = -(hl * lengthSqr w) - dot (along p0 p1 fin - pos) w := by
        simp [lengthSqr, dot]; ring
      rw [e1, e2, hw, ← hy, ← habs]
      unfold height
      rw [abs_lt]
      constructor <;> rintro ⟨h1, h2⟩ <;> constructor <;> linarith
    have hcz : fin ≤ 0 → 0 ≤ fout → radial pos w (along p0 p1 0) ≤ r * r := fun h1 h2 => (hrange 0).2 ⟨h1, h2⟩
    by_cases hb : 0 < dot (along p0 p1 fin - (pos + smul hl w)) (-w) ∧
        dot (along p0 p1 fin - (pos - smul hl w)) (-w) < 0
    · rw [if_pos hb]
      rw [hbranch] at hb
      refine ⟨?_, by simp, by simp⟩
      intro h hh
      simp only [Option.some_inj] at hh
      subst hh
      simp only
      refine ⟨fun h0 h1 => ⟨h0, h1, ?_, ?_⟩, ?_, ?_⟩
      · rw [hin]; exact ⟨hb.le, hfin.le⟩
      · intro s _ hs h
        rw [hin, hrange] at h
        linarith [h.2.1]
      · intro hr t h0 h1 h
        rw [hin, hrange] at h
        rcases hr with hr | hr
        · -- the start lies between two points of the cylinder
          apply hout0
          refine ⟨?_, hcz hr.le (by linarith [h.2.2])⟩
          exact linear_between hr h0 hb.le h.1
        · linarith [h.2.1]
      · intro h
        rw [habs, hy] at h
        linarith
    · rw [if_neg hb]
      rw [hbranch, not_lt] at hb
      by_cases hk0 : dot (p1 - p0) n = 0
      · rw [if_pos hk0]
        refine ⟨by simp, by simp, fun _ => ⟨?_, ?_⟩⟩
        · rcases hnw with rfl | rfl
          · exact hk0
          · rw [dot_neg_right] at hk0; linarith
        · rw [habs]
          have : k = 0 := hk0
          rw [this, mul_zero, add_zero] at hb
          exact hb
      · rw [if_neg hk0]
        have hkne : k ≠ 0 := hk0
        have hnum : dot (pos + smul hl n - p0) n = hl - y0 := by
          have : dot (pos + smul hl n - p0) n = hl * lengthSqr n - dot (p0 - pos) n := by simp [lengthSqr, dot]; ring
          rw [this, hn1, ← hy0]; ring
        rw [hnum, ← hk]
        set tc := (hl - y0) / k with htc
        have hytc : y0 + tc * k = hl := by rw [htc, div_mul_cancel₀ _ hkne]; ring
        have huniq : ∀ c, y0 + c * k = hl → c = tc := by
          intro c hc
          rw [htc, eq_div_iff hkne]; linarith
        rw [hcapR tc hytc]
        split
        · -- the plane of the cap is crossed outside of the cap
          rename_i hc
          refine ⟨by simp, fun _ t h0 h1 h => ?_, by simp⟩
          rw [hin, hrange] at h
          obtain ⟨h2, h3, h4⟩ := h
          have h2' := abs_le.1 h2
          rcases le_abs.1 hb with hb' | hb'
          · obtain ⟨c, c1, c2, c3⟩ := linear_crossing h3 hb' h2'.2
            have := huniq c c3
            rw [← this] at hc
            have := (hrange c).2 ⟨c1, by linarith⟩
            linarith
          · -- the ray enters the infinite cylinder beyond the other cap
            have hlt : y0 + fin * k < y0 + t * k := by
              rcases lt_or_eq_of_le (by linarith : y0 + fin * k ≤ y0 + t * k) with h | h
              · exact h
              · exfalso
                apply hrim fin
                refine ⟨?_, hfin⟩
                rw [habs, hy]
                rw [abs_of_neg (by linarith)]
                linarith
            have hkpos : 0 < k := by
              by_contra hcon
              have := mul_le_mul_of_nonpos_right h3 (not_lt.1 hcon)
              linarith
            have hfin0 : fin < 0 := by
              by_contra hcon
              have := mul_nonneg (not_lt.1 hcon) hkpos.le
              linarith
            apply hout0
            refine ⟨?_, hcz hfin0.le (by linarith)⟩
            have := mul_nonneg h0 hkpos.le
            rw [abs_le]; constructor <;> linarith [h2'.2]
        · rename_i hc
          have hc' := not_lt.1 hc
          have first : ∀ s, 0 ≤ s → s < tc → ¬ Placed (cylinderSet r hl a) pos orn (along p0 p1 s) := by
            intro s hs0 hs h
            rw [hin, hrange] at h
            obtain ⟨h2, h3, h4⟩ := h
            have h2' := abs_le.1 h2
            rcases lt_or_ge hl y0 with hgt | hle'
            · have hkneg : k < 0 := by
                by_contra hcon
                have := mul_nonneg (by linarith : 0 ≤ tc) (not_lt.1 hcon)
                linarith
              nlinarith [h2'.2]
            · have hfin0 : 0 < fin := by
                by_contra hcon
                apply hout0
                refine ⟨?_, hcz (not_lt.1 hcon) (by linarith)⟩
                rw [zero_mul, add_zero, abs_le]; constructor <;> linarith
              have hkpos : 0 < k := by
                rcases lt_or_gt_of_ne hkne with h | h
                · have := mul_neg_of_pos_of_neg (by linarith : 0 < tc) h
                  linarith
                · exact h
              have a1 := mul_pos hfin0 hkpos
              have a2 : fin * k < tc * k := mul_lt_mul_of_pos_right (by linarith) hkpos
              have : |y0 + fin * k| < hl := by rw [abs_lt]; constructor <;> linarith
              linarith
          have hpt : Placed (cylinderSet r hl a) pos orn (along p0 p1 tc) := by
            rw [hin, hytc]
            exact ⟨by rw [abs_of_pos hh0], hc'⟩
          refine ⟨?_, by simp, by simp⟩
          intro h hh
          simp only [Option.some_inj] at hh
          subst hh
          simp only
          refine ⟨fun h0 h1 => ⟨h0, h1, hpt, first⟩, ?_, fun _ => ⟨_, rfl, hcapN tc hytc⟩⟩
          intro hr t h0 h1 h
          rcases hr with hr | hr
          · rw [hin, hrange] at h
            rw [hin, hrange] at hpt
            apply hout0
            refine ⟨?_, hcz (by linarith [hpt.2.1]) (by linarith [h.2.2])⟩
            exact linear_between hr h0 hpt.1 h.1
          · exact first t h0 (by linarith) h

/-! ## Witnesses for cylinders

A cylinder of radius 1 and length 2 along the x axis, at the origin. -/

theorem cyl_w : Quat.rotate (⟨0, 0, 0, 1⟩ : Quat ℝ) Axis.x.vec = ⟨1, 0, 0⟩ := by
  ext <;> simp [Quat.rotate, Axis.vec, ex]

theorem placed_id_cylinder (x : V3 ℝ) : Placed (cylinderSet 1 1 Axis.x) ⟨0, 0, 0⟩ ⟨0, 0, 0, 1⟩ x ↔
    |x.x| ≤ 1 ∧ x.y * x.y + x.z * x.z ≤ 1 := by
  rw [placed_cylinder quat_one_unit, cyl_w]
  have h1 : height ⟨0, 0, 0⟩ ⟨1, 0, 0⟩ x = x.x := by simp [height, dot]
  have h2 : radial ⟨0, 0, 0⟩ ⟨1, 0, 0⟩ x = x.y * x.y + x.z * x.z := by simp [radial, lengthSqr, dot]; ring
  rw [h1, h2, one_mul]

theorem cylFace_pos {tiny : ℝ} (ht : 0 ≤ tiny) (ht2 : tiny < 1) (p0 : V3 ℝ) (h : 0 < p0.x) :
    cylFace tiny 1 ⟨1, 0, 0⟩ ⟨0, 0, 0⟩ p0 = some (⟨1, 0, 0⟩, ⟨1, 0, 0⟩) := by
  obtain ⟨-, n, hn, h1, h2⟩ := cylFace_spec (hl := 1) ht (by linarith) (w := ⟨1, 0, 0⟩) (by simp [lengthSqr, dot]) ⟨0, 0, 0⟩ p0
  rw [h1]
  rcases hn with rfl | rfl
  · congr 2; ext <;> simp
  · simp [dot] at h2; linarith

/-- A segment along the axis, away from the cylinder, is reported to hit it, at a negative fraction. -/
theorem cyl_ray_behind (eps tiny : ℝ) (he : 0 ≤ eps) (he2 : eps < 1) (ht : 0 ≤ tiny) (ht2 : tiny < 1) :
    cylRay eps tiny 1 1 ⟨1, 0, 0⟩ ⟨0, 0, 0⟩ ⟨3, 0, 0⟩ ⟨4, 0, 0⟩ = some (some ⟨-2, some ⟨1, 0, 0⟩⟩) ∧
    Misses (Placed (cylinderSet 1 1 Axis.x) ⟨0, 0, 0⟩ ⟨0, 0, 0, 1⟩) ⟨3, 0, 0⟩ ⟨4, 0, 0⟩ := by
  constructor
  · have h1 : rayCyl eps 1 1 ⟨1, 0, 0⟩ ⟨0, 0, 0⟩ ⟨3, 0, 0⟩ ⟨4, 0, 0⟩ = .parallel := by
      rw [(rayCyl_spec he one_pos (by simp [lengthSqr, dot]) _ _ _).2.2]
      simpa [lengthSqr, dot, cross] using he
    unfold cylRay
    rw [h1]
    simp only [cylFace_pos ht ht2 ⟨3, 0, 0⟩ (by norm_num), Option.bind_some]
    unfold closestLine
    simp only
    have hd : (⟨4, 0, 0⟩ - ⟨3, 0, 0⟩ : V3 ℝ) = ⟨1, 0, 0⟩ := by ext <;> simp; norm_num
    rw [hd, if_pos (by simpa [dot] using he2)]
    norm_num [lengthSqr, dot]
  · intro t h0 h1 h
    rw [placed_id_cylinder] at h
    have := (abs_le.1 h.1).2
    simp [along] at this
    linarith

/-- **Finding.** The full statement fails: fractions outside of the segment are reported. -/
theorem cyl_ray_refuted (eps tiny : ℝ) (he : 0 ≤ eps) (he2 : eps < 1) (ht : 0 ≤ tiny) (ht2 : tiny < 1) :
    ¬ CylRayFull eps tiny := by
  intro h
  have h1 := h 1 1 .x ⟨0, 0, 0⟩ ⟨0, 0, 0, 1⟩ ⟨3, 0, 0⟩ ⟨4, 0, 0⟩ quat_one_unit ht2 (by linarith) (by simp [V3.ext_iff])
  rw [cyl_w] at h1
  have := (h1.hit _ (cyl_ray_behind eps tiny he he2 ht ht2).1).1
  norm_num at this

/-- A segment perpendicular to the axis. -/
theorem rayCyl_perp (eps : ℝ) (he : 0 ≤ eps) (he2 : eps < 1) (x z δ : ℝ) (hz : z * z ≤ 1) (hδ : 0 ≤ δ)
    (hzδ : 1 - z * z = 16 * δ * δ) :
    rayCyl eps 1 1 ⟨1, 0, 0⟩ ⟨0, 0, 0⟩ ⟨x, 3, z⟩ ⟨x, -1, z⟩ = .meets (z * z) ⟨0, 0, z⟩ (3 / 4 - δ) (3 / 4 + δ) := by
  unfold rayCyl closestLineLine
  simp only
  have hd : (⟨x, -1, z⟩ - ⟨x, 3, z⟩ : V3 ℝ) = ⟨0, -4, 0⟩ := by ext <;> simp; norm_num
  have hc0 : (⟨0, 0, 0⟩ + smul 1 ⟨1, 0, 0⟩ : V3 ℝ) = ⟨1, 0, 0⟩ := by ext <;> simp
  have hc1 : (⟨0, 0, 0⟩ - smul 1 ⟨1, 0, 0⟩ : V3 ℝ) = ⟨-1, 0, 0⟩ := by ext <;> simp
  have he' : (⟨-1, 0, 0⟩ - ⟨1, 0, 0⟩ : V3 ℝ) = ⟨-2, 0, 0⟩ := by ext <;> simp; norm_num
  have hq : (⟨1, 0, 0⟩ - ⟨x, 3, z⟩ : V3 ℝ) = ⟨1 - x, -3, -z⟩ := by ext <;> simp
  rw [hc0, hc1, hd, he', hq]
  have e1 : dot (⟨-2, 0, 0⟩ : V3 ℝ) ⟨-2, 0, 0⟩ = 4 := by norm_num [dot]
  have e2 : dot (⟨0, -4, 0⟩ : V3 ℝ) ⟨0, -4, 0⟩ = 16 := by norm_num [dot]
  have e3 : dot (⟨-2, 0, 0⟩ : V3 ℝ) ⟨0, -4, 0⟩ = 0 := by norm_num [dot]
  have e4 : dot (⟨0, -4, 0⟩ : V3 ℝ) ⟨1 - x, -3, -z⟩ = 12 := by norm_num [dot]
  have e5 : dot (⟨-2, 0, 0⟩ : V3 ℝ) ⟨1 - x, -3, -z⟩ = 2 * x - 2 := by simp [dot]; ring
  have e6 : dot (⟨0, -4, 0⟩ : V3 ℝ) ⟨-2, 0, 0⟩ = 0 := by norm_num [dot]
  rw [e1, e2, e3, e4, e5, e6, if_pos (by linarith)]
  simp only
  have hn : along ⟨x, 3, z⟩ ⟨x, -1, z⟩ ((4 * 12 - 0 * (2 * x - 2)) * (1 / (4 * 16 - 0 * 0))) -
      along ⟨1, 0, 0⟩ ⟨-1, 0, 0⟩ ((0 * 12 - (2 * x - 2) * 16) * (1 / (4 * 16 - 0 * 0))) = (⟨0, 0, z⟩ : V3 ℝ) := by
    ext <;> simp [along] <;> ring
  rw [hn]
  have hl : lengthSqr (⟨0, 0, z⟩ : V3 ℝ) = z * z := by simp [lengthSqr, dot]
  rw [hl, if_neg (by linarith)]
  have hs : Real.sqrt ((1 * 1 - z * z) * 4 / (16 * 4 - 0 * 0)) = δ := by
    have : (1 * 1 - z * z) * 4 / (16 * 4 - 0 * 0) = δ * δ := by rw [one_mul, hzδ]; ring
    rw [this, Real.sqrt_mul_self hδ]
  rw [hs]
  norm_num

/-- **Finding.** The normal of a hit at the side is the direction from the axis to the nearest point of the line,
not the normal of the cylinder at the point which is hit. -/
theorem cyl_side_normal_wrong (eps tiny : ℝ) (he : 0 ≤ eps) (he2 : eps < 1) (ht : 0 ≤ tiny) (ht2 : tiny < 1) :
    cylRay eps tiny 1 1 ⟨1, 0, 0⟩ ⟨0, 0, 0⟩ ⟨1 / 2, 3, 3 / 5⟩ ⟨1 / 2, -1, 3 / 5⟩ = some (some ⟨11 / 20, some ⟨0, 0, 1⟩⟩) ∧
    FirstHit (Placed (cylinderSet 1 1 Axis.x) ⟨0, 0, 0⟩ ⟨0, 0, 0, 1⟩) ⟨1 / 2, 3, 3 / 5⟩ ⟨1 / 2, -1, 3 / 5⟩ (11 / 20) ∧
    ¬ Outward (Placed (cylinderSet 1 1 Axis.x) ⟨0, 0, 0⟩ ⟨0, 0, 0, 1⟩)
      (along ⟨1 / 2, 3, 3 / 5⟩ ⟨1 / 2, -1, 3 / 5⟩ (11 / 20)) ⟨0, 0, 1⟩ := by
  refine ⟨?_, ⟨by norm_num, by norm_num, ?_, ?_⟩, ?_⟩
  · unfold cylRay
    rw [rayCyl_perp eps he he2 (1 / 2) (3 / 5) (1 / 5) (by norm_num) (by norm_num) (by norm_num)]
    have hu := (cylFace_spec (hl := 1) ht (by linarith) (w := ⟨1, 0, 0⟩) (by simp [lengthSqr, dot]) ⟨0, 0, 0⟩ ⟨1/2, 3, 3/5⟩).1
    simp only [cylFace_pos ht ht2 ⟨1 / 2, 3, 3 / 5⟩ (by norm_num), Option.bind_some, hu]
    rw [if_pos (by norm_num [dot, along])]
    have hs : Real.sqrt (3 / 5 * (3 / 5)) = 3 / 5 := Real.sqrt_mul_self (by norm_num)
    rw [hs]
    norm_num [V3.ext_iff]
  · rw [placed_id_cylinder]
    norm_num [along, abs_le]
  · intro s h0 hs h
    rw [placed_id_cylinder] at h
    have := h.2
    simp [along] at this
    nlinarith
  · rintro ⟨-, h⟩
    have := h ⟨0, 0, 1⟩ (by rw [placed_id_cylinder]; norm_num)
    norm_num [dot, along] at this

/-- **Finding.** If the line crosses the axis, the normal is zero divided by zero. -/
theorem cyl_axis_normal_undefined (eps tiny : ℝ) (he : 0 ≤ eps) (he2 : eps < 1) (ht : 0 ≤ tiny) (ht2 : tiny < 1) :
    cylRay eps tiny 1 1 ⟨1, 0, 0⟩ ⟨0, 0, 0⟩ ⟨1 / 2, 3, 0⟩ ⟨1 / 2, -1, 0⟩ = some (some ⟨1 / 2, none⟩) := by
  unfold cylRay
  rw [rayCyl_perp eps he he2 (1 / 2) 0 (1 / 4) (by norm_num) (by norm_num) (by norm_num)]
  have hu := (cylFace_spec (hl := 1) ht (by linarith) (w := ⟨1, 0, 0⟩) (by simp [lengthSqr, dot]) ⟨0, 0, 0⟩ ⟨1/2, 3, 0⟩).1
  simp only [cylFace_pos ht ht2 ⟨1 / 2, 3, 0⟩ (by norm_num), Option.bind_some, hu]
  rw [if_pos (by norm_num [dot, along])]
  norm_num

/-- **Finding.** A segment perpendicular to the axis, beyond the cap, divides by zero. -/
theorem cyl_perpendicular_undefined (eps tiny : ℝ) (he : 0 ≤ eps) (he2 : eps < 1) (ht : 0 ≤ tiny) (ht2 : tiny < 1) :
    cylRay eps tiny 1 1 ⟨1, 0, 0⟩ ⟨0, 0, 0⟩ ⟨2, 3, 0⟩ ⟨2, -1, 0⟩ = none ∧
    Misses (Placed (cylinderSet 1 1 Axis.x) ⟨0, 0, 0⟩ ⟨0, 0, 0, 1⟩) ⟨2, 3, 0⟩ ⟨2, -1, 0⟩ := by
  constructor
  · unfold cylRay
    rw [rayCyl_perp eps he he2 2 0 (1 / 4) (by norm_num) (by norm_num) (by norm_num)]
    have hu := (cylFace_spec (hl := 1) ht (by linarith) (w := ⟨1, 0, 0⟩) (by simp [lengthSqr, dot]) ⟨0, 0, 0⟩ ⟨2, 3, 0⟩).1
    simp only [cylFace_pos ht ht2 ⟨2, 3, 0⟩ (by norm_num), Option.bind_some, hu]
    rw [if_neg (by norm_num [dot, along]), if_pos (by norm_num [dot])]
  · intro t h0 h1 h
    rw [placed_id_cylinder] at h
    norm_num [along, abs_le] at h

/-- **Finding.** A segment which touches the rim of the far cap is reported as a miss. -/
theorem cyl_rim_missed (eps tiny : ℝ) (he : 0 ≤ eps) (he2 : eps < 1) (ht : 0 ≤ tiny) (ht2 : tiny < 1) :
    cylRay eps tiny 1 1 ⟨1, 0, 0⟩ ⟨0, 0, 0⟩ ⟨1, 3, 0⟩ ⟨-1, 1, 0⟩ = some none ∧
    FirstHit (Placed (cylinderSet 1 1 Axis.x) ⟨0, 0, 0⟩ ⟨0, 0, 0, 1⟩) ⟨1, 3, 0⟩ ⟨-1, 1, 0⟩ 1 := by
  refine ⟨?_, by norm_num, le_refl _, ?_, ?_⟩
  · have h1 : rayCyl eps 1 1 ⟨1, 0, 0⟩ ⟨0, 0, 0⟩ ⟨1, 3, 0⟩ ⟨-1, 1, 0⟩ = .meets 0 ⟨0, 0, 0⟩ 1 2 := by
      unfold rayCyl closestLineLine
      simp only
      have hd : (⟨-1, 1, 0⟩ - ⟨1, 3, 0⟩ : V3 ℝ) = ⟨-2, -2, 0⟩ := by ext <;> simp <;> norm_num
      have hc0 : (⟨0, 0, 0⟩ + smul 1 ⟨1, 0, 0⟩ : V3 ℝ) = ⟨1, 0, 0⟩ := by ext <;> simp
      have hc1 : (⟨0, 0, 0⟩ - smul 1 ⟨1, 0, 0⟩ : V3 ℝ) = ⟨-1, 0, 0⟩ := by ext <;> simp
      have he' : (⟨-1, 0, 0⟩ - ⟨1, 0, 0⟩ : V3 ℝ) = ⟨-2, 0, 0⟩ := by ext <;> simp; norm_num
      have hq : (⟨1, 0, 0⟩ - ⟨1, 3, 0⟩ : V3 ℝ) = ⟨0, -3, 0⟩ := by ext <;> simp
      rw [hc0, hc1, hd, he', hq]
      have e1 : dot (⟨-2, 0, 0⟩ : V3 ℝ) ⟨-2, 0, 0⟩ = 4 := by norm_num [dot]
      have e2 : dot (⟨-2, -2, 0⟩ : V3 ℝ) ⟨-2, -2, 0⟩ = 8 := by norm_num [dot]
      have e3 : dot (⟨-2, 0, 0⟩ : V3 ℝ) ⟨-2, -2, 0⟩ = 4 := by norm_num [dot]
      have e4 : dot (⟨-2, -2, 0⟩ : V3 ℝ) ⟨0, -3, 0⟩ = 6 := by norm_num [dot]
      have e5 : dot (⟨-2, 0, 0⟩ : V3 ℝ) ⟨0, -3, 0⟩ = 0 := by norm_num [dot]
      have e6 : dot (⟨-2, -2, 0⟩ : V3 ℝ) ⟨-2, 0, 0⟩ = 4 := by norm_num [dot]
      rw [e1, e2, e3, e4, e5, e6, if_pos (by linarith)]
      simp only
      have hn : along ⟨1, 3, 0⟩ ⟨-1, 1, 0⟩ ((4 * 6 - 4 * 0) * (1 / (4 * 8 - 4 * 4))) -
          along ⟨1, 0, 0⟩ ⟨-1, 0, 0⟩ ((4 * 6 - 0 * 8) * (1 / (4 * 8 - 4 * 4))) = (⟨0, 0, 0⟩ : V3 ℝ) := by
        ext <;> norm_num [along]
      rw [hn]
      have hl : lengthSqr (⟨0, 0, 0⟩ : V3 ℝ) = 0 := by simp [lengthSqr, dot]
      rw [hl, if_neg (by norm_num)]
      have hs : Real.sqrt ((1 * 1 - 0) * 4 / (8 * 4 - 4 * 4)) = 1 / 2 := by
        have : ((1 * 1 - 0) * 4 / (8 * 4 - 4 * 4) : ℝ) = (1 / 2) * (1 / 2) := by norm_num
        rw [this, Real.sqrt_mul_self (by norm_num)]
      rw [hs]
      norm_num
    unfold cylRay
    rw [h1]
    have hu := (cylFace_spec (hl := 1) ht (by linarith) (w := ⟨1, 0, 0⟩) (by simp [lengthSqr, dot]) ⟨0, 0, 0⟩ ⟨1, 3, 0⟩).1
    simp only [cylFace_pos ht ht2 ⟨1, 3, 0⟩ (by norm_num), Option.bind_some, hu]
    rw [if_neg (by norm_num [dot, along]), if_neg (by norm_num [dot]), if_pos (by norm_num [dot, along, lengthSqr])]
  · rw [placed_id_cylinder]
    norm_num [along, abs_le]
  · intro s h0 hs h
    rw [placed_id_cylinder] at h
    have := h.2
    simp [along] at this
    nlinarith

/-- The hypotheses of `cyl_ray_partial` are met by the segment of `cyl_side_normal_wrong`, which hits the side. -/
example : (¬ Placed (cylinderSet 1 1 Axis.x) ⟨0, 0, 0⟩ ⟨0, 0, 0, 1⟩ ⟨1 / 2, 3, 3 / 5⟩) ∧
    (1 / 100 : ℝ) < 4 * (1 * 1) * lengthSqr (cross (⟨1, 0, 0⟩ : V3 ℝ) (⟨1 / 2, -1, 3 / 5⟩ - ⟨1 / 2, 3, 3 / 5⟩)) ∧
    ∀ t, ¬ (|height ⟨0, 0, 0⟩ ⟨1, 0, 0⟩ (along ⟨1 / 2, 3, 3 / 5⟩ ⟨1 / 2, -1, 3 / 5⟩ t)| = 1 ∧
      radial ⟨0, 0, 0⟩ ⟨1, 0, 0⟩ (along ⟨1 / 2, 3, 3 / 5⟩ ⟨1 / 2, -1, 3 / 5⟩ t) = 1 * 1) := by
  refine ⟨?_, ?_, ?_⟩
  · rw [placed_id_cylinder]; norm_num
  · norm_num [lengthSqr, dot, cross]
  · rintro t ⟨h, -⟩
    norm_num [height, along, dot] at h

end Edyn.Geom
