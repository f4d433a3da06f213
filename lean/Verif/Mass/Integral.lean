import Verif.Geom.Shapes
import Mathlib.MeasureTheory.Integral.Prod
import Mathlib.MeasureTheory.Integral.IntervalIntegral.FundThmCalculus
import Mathlib.MeasureTheory.Measure.Lebesgue.EqHaar
import Mathlib.Analysis.SpecialFunctions.Integrals.Basic
import Mathlib.Analysis.SpecialFunctions.Trigonometric.InverseDeriv

/-!
# Integrals over solids (C76, C78)

The specification of the mass properties: volume, centre of mass and moment of inertia of a body which fills a set with
even density are integrals over that set, with respect to Lebesgue measure.
-/

namespace Edyn.Mass

open Edyn.Math V3 Edyn.Geom MeasureTheory

/-! ## Specification -/

/-- The point with the given coordinates. -/
def toV (p : ℝ × ℝ × ℝ) : V3 ℝ := ⟨p.1, p.2.1, p.2.2⟩

/-- The set a shape fills, in coordinates. -/
def region (S : Shape) : Set (ℝ × ℝ × ℝ) := {p | S (toV p)}

/-- The integral of a function over a set of points. -/
noncomputable def integralOver (S : Shape) (f : V3 ℝ → ℝ) : ℝ := ∫ p in region S, f (toV p)

/-- The volume of a set. -/
noncomputable def volumeOf (S : Shape) : ℝ := integralOver S (fun _ => 1)

/-- The centre of mass of a body of even density. -/
noncomputable def centroidOf (S : Shape) : V3 ℝ :=
  smul (1 / volumeOf S) ⟨integralOver S (·.x), integralOver S (·.y), integralOver S (·.z)⟩

/-- The moment of inertia, about the origin, of a body of even density: the integral of `|p|² E - p pᵀ`. -/
noncomputable def inertiaOf (S : Shape) (m : ℝ) : M3 ℝ :=
  let d := m / volumeOf S
  let i (f : V3 ℝ → ℝ) := d * integralOver S f
  ⟨⟨i fun p => p.y * p.y + p.z * p.z, i fun p => -(p.x * p.y), i fun p => -(p.x * p.z)⟩,
   ⟨i fun p => -(p.y * p.x), i fun p => p.z * p.z + p.x * p.x, i fun p => -(p.y * p.z)⟩,
   ⟨i fun p => -(p.z * p.x), i fun p => -(p.z * p.y), i fun p => p.x * p.x + p.y * p.y⟩⟩

/-! ## Slices -/

theorem slices {β : Type} [TopologicalSpace β] [T2Space β] [MeasureSpace β] [OpensMeasurableSpace β]
    [SecondCountableTopology β] [SFinite (volume : Measure β)] [IsFiniteMeasureOnCompacts (volume : Measure (ℝ × β))]
    {T : Set (ℝ × β)} (hT : IsCompact T) {f : ℝ × β → ℝ} (hf : Continuous f) {a b : ℝ} (hab : a ≤ b)
    (h : ∀ p ∈ T, a ≤ p.1 ∧ p.1 ≤ b) :
    ∫ p in T, f p = ∫ x in a..b, ∫ q in {q | (x, q) ∈ T}, f (x, q) := by
  have hm : MeasurableSet T := hT.measurableSet
  have hi : Integrable (T.indicator f) (volume : Measure (ℝ × β)) :=
    (integrable_indicator_iff hm).2 (hf.continuousOn.integrableOn_compact hT)
  rw [← integral_indicator hm]
  rw [Measure.volume_eq_prod] at hi ⊢
  rw [integral_prod _ hi]
  have e : ∀ x, ∫ q, T.indicator f (x, q) = ∫ q in {q | (x, q) ∈ T}, f (x, q) := by
    intro x
    show _ = ∫ q in Prod.mk x ⁻¹' T, f (x, q)
    rw [← integral_indicator (measurable_prodMk_left hm)]
    rfl
  simp only [e]
  rw [intervalIntegral.integral_of_le hab, ← integral_Icc_eq_integral_Ioc]
  symm
  apply setIntegral_eq_integral_of_forall_compl_eq_zero
  intro x hx
  have : {q | (x, q) ∈ T} = ∅ := by
    ext q
    constructor
    · intro hq
      exact hx ⟨(h _ hq).1, (h _ hq).2⟩
    · intro hq
      cases hq
  rw [this]
  simp

theorem between {l u : ℝ} (h : l ≤ u) (f : ℝ → ℝ) : ∫ z in Set.Icc l u, f z = ∫ z in l..u, f z := by
  rw [intervalIntegral.integral_of_le h, integral_Icc_eq_integral_Ioc]

theorem hasDeriv_poly (c0 c1 c2 c3 c4 x : ℝ) :
    HasDerivAt (fun x : ℝ => c0 * x + c1 / 2 * x ^ 2 + c2 / 3 * x ^ 3 + c3 / 4 * x ^ 4 + c4 / 5 * x ^ 5)
      (c0 + c1 * x + c2 * x ^ 2 + c3 * x ^ 3 + c4 * x ^ 4) x := by
  have h1 := (hasDerivAt_id x).const_mul c0
  have h2 := (hasDerivAt_pow 2 x).const_mul (c1 / 2)
  have h3 := (hasDerivAt_pow 3 x).const_mul (c2 / 3)
  have h4 := (hasDerivAt_pow 4 x).const_mul (c3 / 4)
  have h5 := (hasDerivAt_pow 5 x).const_mul (c4 / 5)
  refine ((((h1.add h2).add h3).add h4).add h5).congr_deriv ?_
  norm_num
  ring

theorem integral_poly (a b c0 c1 c2 c3 c4 : ℝ) :
    ∫ x in a..b, (c0 + c1 * x + c2 * x ^ 2 + c3 * x ^ 3 + c4 * x ^ 4) =
      (c0 * b + c1 / 2 * b ^ 2 + c2 / 3 * b ^ 3 + c3 / 4 * b ^ 4 + c4 / 5 * b ^ 5) -
      (c0 * a + c1 / 2 * a ^ 2 + c2 / 3 * a ^ 3 + c3 / 4 * a ^ 4 + c4 / 5 * a ^ 5) := by
  apply intervalIntegral.integral_eq_sub_of_hasDerivAt
  · intro x _
    exact hasDeriv_poly c0 c1 c2 c3 c4 x
  · apply Continuous.intervalIntegrable
    fun_prop

/-- Integrals of polynomials, whatever form they are written in. -/
theorem integral_of_poly {f : ℝ → ℝ} (a b c0 c1 c2 c3 c4 : ℝ)
    (hf : ∀ x, f x = c0 + c1 * x + c2 * x ^ 2 + c3 * x ^ 3 + c4 * x ^ 4) :
    ∫ x in a..b, f x =
      (c0 * b + c1 / 2 * b ^ 2 + c2 / 3 * b ^ 3 + c3 / 4 * b ^ 4 + c4 / 5 * b ^ 5) -
      (c0 * a + c1 / 2 * a ^ 2 + c2 / 3 * a ^ 3 + c3 / 4 * a ^ 4 + c4 / 5 * a ^ 5) := by
  rw [show f = fun x => c0 + c1 * x + c2 * x ^ 2 + c3 * x ^ 3 + c4 * x ^ 4 from funext hf]
  exact integral_poly a b c0 c1 c2 c3 c4

/-! ## Boxes -/

theorem region_box (h : V3 ℝ) :
    region (boxSet h) = Set.Icc (-h.x) h.x ×ˢ (Set.Icc (-h.y) h.y ×ˢ Set.Icc (-h.z) h.z) := by
  ext p
  simp only [region, boxSet, toV, Set.mem_setOf_eq, Set.mem_prod, Set.mem_Icc, abs_le]

theorem box_slices (h : V3 ℝ) (hx : 0 ≤ h.x) (hy : 0 ≤ h.y) (hz : 0 ≤ h.z) (f : V3 ℝ → ℝ)
    (hf : Continuous fun p : ℝ × ℝ × ℝ => f (toV p)) :
    integralOver (boxSet h) f =
      ∫ x in (-h.x)..h.x, ∫ y in (-h.y)..h.y, ∫ z in (-h.z)..h.z, f ⟨x, y, z⟩ := by
  unfold integralOver
  rw [region_box, slices (isCompact_Icc.prod (isCompact_Icc.prod isCompact_Icc)) hf (a := -h.x) (b := h.x) (by linarith)
    (fun p hp => hp.1)]
  apply intervalIntegral.integral_congr
  intro x hx'
  rw [Set.uIcc_of_le (by linarith)] at hx'
  have e : {q : ℝ × ℝ | (x, q) ∈ Set.Icc (-h.x) h.x ×ˢ (Set.Icc (-h.y) h.y ×ˢ Set.Icc (-h.z) h.z)} =
      Set.Icc (-h.y) h.y ×ˢ Set.Icc (-h.z) h.z := by
    ext q
    simp only [Set.mem_setOf_eq, Set.mem_prod]
    exact ⟨fun h => h.2, fun h => ⟨hx', h⟩⟩
  simp only
  rw [e, slices (isCompact_Icc.prod isCompact_Icc) (f := fun q => f (toV (x, q)))
    (hf.comp (by fun_prop : Continuous fun q : ℝ × ℝ => (x, q))) (a := -h.y) (b := h.y)
    (by linarith) (fun p hp => hp.1)]
  apply intervalIntegral.integral_congr
  intro y hy'
  rw [Set.uIcc_of_le (by linarith)] at hy'
  have e2 : {z : ℝ | (y, z) ∈ Set.Icc (-h.y) h.y ×ˢ Set.Icc (-h.z) h.z} = Set.Icc (-h.z) h.z := by
    ext z
    simp only [Set.mem_setOf_eq, Set.mem_prod]
    exact ⟨fun h => h.2, fun h => ⟨hy', h⟩⟩
  simp only
  rw [e2, between (by linarith)]
  rfl

/-! ## Turning the coordinates -/

/-- The coordinates in the order y, z, x. -/
def turn (p : V3 ℝ) : V3 ℝ := ⟨p.y, p.z, p.x⟩

theorem turn_preserving : MeasurePreserving (fun p : ℝ × ℝ × ℝ => (p.2.1, p.2.2, p.1)) := by
  have h1 : MeasurePreserving (Prod.swap : ℝ × (ℝ × ℝ) → (ℝ × ℝ) × ℝ) := Measure.measurePreserving_swap
  have h2 : MeasurePreserving (MeasurableEquiv.prodAssoc : (ℝ × ℝ) × ℝ ≃ᵐ ℝ × ℝ × ℝ) :=
    measurePreserving_prodAssoc volume volume volume
  exact h2.comp h1

/-- Turning a set turns its integrals. -/
theorem integral_turn (S : Shape) (f : V3 ℝ → ℝ) :
    integralOver (fun p => S (turn p)) (fun p => f (turn p)) = integralOver S f := by
  have he : MeasurableEmbedding (fun p : ℝ × ℝ × ℝ => (p.2.1, p.2.2, p.1)) :=
    (MeasurableEquiv.prodComm.trans MeasurableEquiv.prodAssoc : ℝ × (ℝ × ℝ) ≃ᵐ ℝ × ℝ × ℝ).measurableEmbedding
  exact turn_preserving.setIntegral_preimage_emb he (fun p => f (toV p)) (region S)

/-! ## Discs -/

/-- The disc around the origin. -/
def disc (R : ℝ) : Set (ℝ × ℝ) := {q | q.1 ^ 2 + q.2 ^ 2 ≤ R ^ 2}

theorem disc_compact (R : ℝ) : IsCompact (disc R) := by
  apply Metric.isCompact_of_isClosed_isBounded
  · apply isClosed_le <;> fun_prop
  · refine (Metric.isBounded_Icc (α := ℝ × ℝ) (-|R|, -|R|) (|R|, |R|)).subset ?_
    intro q hq
    have hq' : q.1 ^ 2 + q.2 ^ 2 ≤ R ^ 2 := hq
    have h1 : |q.1| ≤ |R| := sq_le_sq.1 (by nlinarith [sq_nonneg q.2])
    have h2 : |q.2| ≤ |R| := sq_le_sq.1 (by nlinarith [sq_nonneg q.1])
    rw [abs_le] at h1 h2
    exact ⟨⟨h1.1, h2.1⟩, ⟨h1.2, h2.2⟩⟩

theorem disc_slices {R : ℝ} (hR : 0 ≤ R) (f : ℝ × ℝ → ℝ) (hf : Continuous f) :
    ∫ q in disc R, f q = ∫ y in (-R)..R, ∫ z in (-√(R ^ 2 - y ^ 2))..√(R ^ 2 - y ^ 2), f (y, z) := by
  rw [slices (disc_compact R) hf (a := -R) (b := R) (by linarith)]
  · apply intervalIntegral.integral_congr
    intro y hy
    rw [Set.uIcc_of_le (by linarith)] at hy
    have h0 : 0 ≤ R ^ 2 - y ^ 2 := by nlinarith [hy.1, hy.2]
    have e : {z : ℝ | (y, z) ∈ disc R} = Set.Icc (-√(R ^ 2 - y ^ 2)) √(R ^ 2 - y ^ 2) := by
      ext z
      simp only [disc, Set.mem_setOf_eq, Set.mem_Icc]
      rw [← abs_le, ← Real.sqrt_sq_eq_abs, Real.sqrt_le_sqrt_iff h0]
      constructor <;> intro h <;> linarith
    simp only
    rw [e, between (by linarith [Real.sqrt_nonneg (R ^ 2 - y ^ 2)])]
  · intro p hp
    have hp' : p.1 ^ 2 + p.2 ^ 2 ≤ R ^ 2 := hp
    exact abs_le.1 (abs_le_of_sq_le_sq (by nlinarith [sq_nonneg p.2]) hR)

theorem root_scale {R : ℝ} (hR : 0 < R) (y : ℝ) : √(R ^ 2 - (R * y) ^ 2) = R * √(1 - y ^ 2) := by
  rw [show R ^ 2 - (R * y) ^ 2 = R ^ 2 * (1 - y ^ 2) by ring, Real.sqrt_mul (by positivity), Real.sqrt_sq hR.le]

theorem integral_root {R : ℝ} (hR : 0 < R) : ∫ y in (-R)..R, √(R ^ 2 - y ^ 2) = Real.pi * R ^ 2 / 2 := by
  have h := intervalIntegral.integral_comp_mul_left (a := -1) (b := 1) (fun y => √(R ^ 2 - y ^ 2)) hR.ne'
  simp only [root_scale hR, intervalIntegral.integral_const_mul, integral_sqrt_one_sub_sq, smul_eq_mul, mul_neg, mul_one] at h
  field_simp at h
  linarith

/-- The primitive function of `y² √(1 - y²)`. -/
theorem primitive (y : ℝ) (hy : y ∈ Set.Ioo (-1 : ℝ) 1) :
    HasDerivAt (fun y => y * (2 * y ^ 2 - 1) * √(1 - y ^ 2) / 8 + Real.arcsin y / 8) (y ^ 2 * √(1 - y ^ 2)) y := by
  have h0 : 0 < 1 - y ^ 2 := by nlinarith [hy.1, hy.2]
  have hs : 0 < √(1 - y ^ 2) := Real.sqrt_pos.2 h0
  have hq : √(1 - y ^ 2) ^ 2 = 1 - y ^ 2 := Real.sq_sqrt h0.le
  have h1 : HasDerivAt (fun y : ℝ => y * (2 * y ^ 2 - 1)) (6 * y ^ 2 - 1) y := by
    have := ((hasDerivAt_pow 3 y).const_mul 2).sub (hasDerivAt_id y)
    refine (this.congr_deriv ?_).congr_of_eventuallyEq ?_
    · norm_num; ring
    · apply Filter.Eventually.of_forall
      intro x
      simp only [Pi.sub_apply, id]
      ring
  have h2 : HasDerivAt (fun y : ℝ => √(1 - y ^ 2)) (-(2 * y) / (2 * √(1 - y ^ 2))) y := by
    have := ((hasDerivAt_pow 2 y).const_sub 1).sqrt h0.ne'
    refine this.congr_deriv ?_
    norm_num
  have h3 := Real.hasDerivAt_arcsin (x := y) (by linarith [hy.1]) (by linarith [hy.2])
  refine (((h1.mul h2).div_const 8).add (h3.div_const 8)).congr_deriv ?_
  generalize √(1 - y ^ 2) = s at *
  field_simp
  have : y ^ 2 = 1 - s ^ 2 := by linarith
  rw [this] 
  ring_nf

theorem integral_sq_root_one : ∫ y in (-1 : ℝ)..1, y ^ 2 * √(1 - y ^ 2) = Real.pi / 8 := by
  rw [intervalIntegral.integral_eq_sub_of_hasDerivAt_of_le (by norm_num) ?_ primitive ?_]
  · norm_num
    ring
  · fun_prop
  · apply Continuous.intervalIntegrable
    fun_prop

theorem integral_sq_root {R : ℝ} (hR : 0 < R) : ∫ y in (-R)..R, y ^ 2 * √(R ^ 2 - y ^ 2) = Real.pi * R ^ 4 / 8 := by
  have h := intervalIntegral.integral_comp_mul_left (a := -1) (b := 1) (fun y => y ^ 2 * √(R ^ 2 - y ^ 2)) hR.ne'
  have e : ∀ y : ℝ, (R * y) ^ 2 * √(R ^ 2 - (R * y) ^ 2) = R ^ 3 * (y ^ 2 * √(1 - y ^ 2)) := by
    intro y
    rw [root_scale hR]
    ring
  simp only [e, intervalIntegral.integral_const_mul, integral_sq_root_one, smul_eq_mul, mul_neg, mul_one] at h
  field_simp at h
  linarith

theorem odd_integral (R : ℝ) (f : ℝ → ℝ) (hf : ∀ y, f (-y) = -f y) : ∫ y in (-R)..R, f y = 0 := by
  have h := intervalIntegral.integral_comp_neg (a := -R) (b := R) f
  simp only [hf, intervalIntegral.integral_neg, neg_neg] at h
  linarith

/-- Area and second moments of a disc. -/
theorem disc_moments {R : ℝ} (hR : 0 ≤ R) (a b c d e g : ℝ) :
    ∫ q in disc R, (a + b * q.1 + c * q.2 + d * q.1 ^ 2 + e * (q.1 * q.2) + g * q.2 ^ 2) =
      Real.pi * (a * R ^ 2 + (d + g) * R ^ 4 / 4) := by
  rw [disc_slices hR _ (by fun_prop)]
  rcases hR.eq_or_lt with h0 | hR
  · subst h0
    simp
  have e1 : ∀ y : ℝ, y ∈ Set.uIcc (-R) R → (∫ z in (-√(R ^ 2 - y ^ 2))..√(R ^ 2 - y ^ 2),
      (a + b * y + c * z + d * y ^ 2 + e * (y * z) + g * z ^ 2)) =
      (2 * a + 2 * g * R ^ 2 / 3) * √(R ^ 2 - y ^ 2) + (2 * d - 2 * g / 3) * (y ^ 2 * √(R ^ 2 - y ^ 2))
        + 2 * b * (y * √(R ^ 2 - y ^ 2)) := by
    intro y hy
    rw [Set.uIcc_of_le (by linarith)] at hy
    have h0 : 0 ≤ R ^ 2 - y ^ 2 := by nlinarith [hy.1, hy.2]
    have hq : √(R ^ 2 - y ^ 2) ^ 2 = R ^ 2 - y ^ 2 := Real.sq_sqrt h0
    rw [integral_of_poly _ _ (a + b * y + d * y ^ 2) (c + e * y) g 0 0 (by intro x; ring)]
    generalize √(R ^ 2 - y ^ 2) = s at *
    have hc : s ^ 3 = (R ^ 2 - y ^ 2) * s := by rw [← hq]; ring
    linear_combination (2 * g / 3) * hc
  rw [intervalIntegral.integral_congr (g := fun y => (2 * a + 2 * g * R ^ 2 / 3) * √(R ^ 2 - y ^ 2) +
    (2 * d - 2 * g / 3) * (y ^ 2 * √(R ^ 2 - y ^ 2)) + 2 * b * (y * √(R ^ 2 - y ^ 2))) e1]
  rw [intervalIntegral.integral_add, intervalIntegral.integral_add, intervalIntegral.integral_const_mul,
    intervalIntegral.integral_const_mul, intervalIntegral.integral_const_mul, integral_root hR, integral_sq_root hR,
    odd_integral R (fun y => y * √(R ^ 2 - y ^ 2)) (by intro y; simp)]
  · ring
  all_goals
    apply Continuous.intervalIntegrable
    fun_prop

end Edyn.Mass
