import Verif.Mass.Integral
import Verif.Math.Rotation
import Mathlib.MeasureTheory.Function.Jacobian
import Mathlib.LinearAlgebra.Determinant
import Mathlib.LinearAlgebra.Matrix.Determinant.Basic

/-!
# Integrals over moved solids and over tetrahedra (C76, C78)
-/

namespace Edyn.Mass

open Edyn.Math V3 Edyn.Geom MeasureTheory

/-! ## Linear maps -/

/-- The coordinates of a point. -/
def ofV (v : V3 ℝ) : ℝ × ℝ × ℝ := (v.x, v.y, v.z)

theorem toV_ofV (v : V3 ℝ) : toV (ofV v) = v := rfl
theorem ofV_toV (p : ℝ × ℝ × ℝ) : ofV (toV p) = p := rfl

/-- A matrix as a linear map. -/
noncomputable def lin (m : M3 ℝ) : (ℝ × ℝ × ℝ) →ₗ[ℝ] (ℝ × ℝ × ℝ) where
  toFun p := ofV (M3.mulVec m (toV p))
  map_add' p q := by
    simp only [ofV, toV, M3.mulVec, dot, Prod.fst_add, Prod.snd_add, Prod.mk_add_mk]
    refine Prod.ext ?_ (Prod.ext ?_ ?_) <;> simp only [] <;> ring
  map_smul' s p := by
    simp only [ofV, toV, M3.mulVec, dot, Prod.smul_fst, Prod.smul_snd, smul_eq_mul, Prod.smul_mk, RingHom.id_apply]
    refine Prod.ext ?_ (Prod.ext ?_ ?_) <;> simp only [] <;> ring

/-- Triples of numbers as functions. -/
def triple : (ℝ × ℝ × ℝ) ≃ₗ[ℝ] (Fin 3 → ℝ) where
  toFun p := ![p.1, p.2.1, p.2.2]
  invFun f := (f 0, f 1, f 2)
  map_add' p q := by
    ext i
    fin_cases i <;> rfl
  map_smul' s p := by
    ext i
    fin_cases i <;> rfl
  left_inv p := rfl
  right_inv f := by
    ext i
    fin_cases i <;> rfl

theorem triple_apply (p : ℝ × ℝ × ℝ) : triple p = ![p.1, p.2.1, p.2.2] := rfl

theorem lin_apply (m : M3 ℝ) (p : ℝ × ℝ × ℝ) : lin m p = ofV (M3.mulVec m (toV p)) := rfl

theorem triple_basis : triple.symm (Pi.single 0 1) = (1, 0, 0) ∧ triple.symm (Pi.single 1 1) = (0, 1, 0) ∧
    triple.symm (Pi.single 2 1) = (0, 0, 1) := by
  refine ⟨?_, ?_, ?_⟩ <;> rw [LinearEquiv.symm_apply_eq, triple_apply] <;> ext i <;> fin_cases i <;> simp

theorem lin_det (m : M3 ℝ) : LinearMap.det (lin m) = m.det := by
  obtain ⟨h0, h1, h2⟩ := triple_basis
  rw [← LinearMap.det_toMatrix (Module.Basis.ofEquivFun triple), Matrix.det_fin_three]
  simp only [LinearMap.toMatrix_apply, Module.Basis.coe_ofEquivFun, Module.Basis.ofEquivFun_repr_apply, h0, h1, h2,
    triple_apply, lin_apply, ofV, toV, M3.mulVec, dot, M3.det, cross]
  simp
  ring

instance haar2 : (volume : Measure (ℝ × ℝ)).IsAddHaarMeasure := Measure.prod.instIsAddHaarMeasure _ _

instance haar3 : (volume : Measure (ℝ × ℝ × ℝ)).IsAddHaarMeasure := Measure.prod.instIsAddHaarMeasure _ _

/-- Integrals over the image of a set under an affine map. -/
theorem affine_image (m : M3 ℝ) (o : V3 ℝ) {T : Set (ℝ × ℝ × ℝ)} (hT : MeasurableSet T) (g : ℝ × ℝ × ℝ → ℝ) :
    ∫ x in (fun p => ofV o + lin m p) '' T, g x = |m.det| * ∫ p in T, g (ofV o + lin m p) := by
  by_cases h : m.det = 0
  · rw [h, abs_zero, zero_mul]
    apply setIntegral_measure_zero
    rw [show (fun p => ofV o + lin m p) = (fun p => ofV o + p) ∘ (lin m) from rfl, Set.image_comp]
    rw [Set.image_add_left, measure_preimage_add, Measure.addHaar_image_linearMap, lin_det, h]
    simp
  · have hd : ∀ x ∈ T, HasFDerivWithinAt (fun p => ofV o + lin m p) (LinearMap.toContinuousLinearMap (lin m)) T x := by
      intro x _
      exact ((LinearMap.toContinuousLinearMap (lin m)).hasFDerivAt.const_add (ofV o)).hasFDerivWithinAt
    have hi : Set.InjOn (fun p => ofV o + lin m p) T := by
      have hu : IsUnit (LinearMap.det (lin m)) := by rw [lin_det]; exact isUnit_iff_ne_zero.2 h
      intro p _ q _ e
      have e' : lin m p = lin m q := add_left_cancel e
      exact ((LinearMap.isUnit_iff_isUnit_det _).2 hu |> (Module.End.isUnit_iff _).1).1 e'
    rw [integral_image_eq_integral_abs_det_fderiv_smul volume hT hd hi]
    have e : (LinearMap.toContinuousLinearMap (lin m)).det = m.det := by
      rw [← lin_det]
      rfl
    simp only [e, smul_eq_mul]
    rw [integral_const_mul]

/-! ## Polynomials of degree two -/

/-- A polynomial of degree at most two. -/
structure Quad where
  one : ℝ
  x : ℝ
  y : ℝ
  z : ℝ
  xx : ℝ
  yy : ℝ
  zz : ℝ
  yz : ℝ
  zx : ℝ
  xy : ℝ

/-- Its value. -/
def Quad.eval (c : Quad) (p : V3 ℝ) : ℝ :=
  c.one + c.x * p.x + c.y * p.y + c.z * p.z + c.xx * (p.x * p.x) + c.yy * (p.y * p.y) + c.zz * (p.z * p.z) +
    c.yz * (p.y * p.z) + c.zx * (p.z * p.x) + c.xy * (p.x * p.y)

/-- The integrals of the monomials. -/
noncomputable def monomials (S : Shape) : Quad where
  one := volumeOf S
  x := integralOver S (·.x)
  y := integralOver S (·.y)
  z := integralOver S (·.z)
  xx := integralOver S fun p => p.x * p.x
  yy := integralOver S fun p => p.y * p.y
  zz := integralOver S fun p => p.z * p.z
  yz := integralOver S fun p => p.y * p.z
  zx := integralOver S fun p => p.z * p.x
  xy := integralOver S fun p => p.x * p.y

/-- The sum of the products of the coefficients. -/
def Quad.pair (c d : Quad) : ℝ :=
  c.one * d.one + c.x * d.x + c.y * d.y + c.z * d.z + c.xx * d.xx + c.yy * d.yy + c.zz * d.zz + c.yz * d.yz +
    c.zx * d.zx + c.xy * d.xy

theorem integral_quad {S : Shape} (hS : IsCompact (region S)) (c : Quad) :
    integralOver S c.eval = c.pair (monomials S) := by
  have i : ∀ f : ℝ × ℝ × ℝ → ℝ, Continuous f → IntegrableOn f (region S) volume :=
    fun f hf => hf.continuousOn.integrableOn_compact hS
  unfold integralOver Quad.eval
  simp only [toV]
  rw [integral_add (i _ (by fun_prop)) (i _ (by fun_prop)), integral_add (i _ (by fun_prop)) (i _ (by fun_prop)),
    integral_add (i _ (by fun_prop)) (i _ (by fun_prop)), integral_add (i _ (by fun_prop)) (i _ (by fun_prop)),
    integral_add (i _ (by fun_prop)) (i _ (by fun_prop)), integral_add (i _ (by fun_prop)) (i _ (by fun_prop)),
    integral_add (i _ (by fun_prop)) (i _ (by fun_prop)), integral_add (i _ (by fun_prop)) (i _ (by fun_prop)),
    integral_add (i _ (by fun_prop)) (i _ (by fun_prop))]
  simp only [integral_const_mul]
  simp only [Quad.pair, monomials, volumeOf, integralOver, toV]
  congr 9
  rw [← integral_const_mul]
  simp

/-! ## Tetrahedra -/

/-- The tetrahedron with the given corners. -/
def Tet (c v0 v1 v2 : V3 ℝ) : Shape := fun p =>
  ∃ s t u : ℝ, 0 ≤ s ∧ 0 ≤ t ∧ 0 ≤ u ∧ s + t + u ≤ 1 ∧
    p = c + smul s (v0 - c) + smul t (v1 - c) + smul u (v2 - c)

/-- Six times the signed volume of the tetrahedron: positive when, seen from `c`, the other corners are in clockwise
order, as those of an outward face are seen from the inside. -/
noncomputable def det6 (c v0 v1 v2 : V3 ℝ) : ℝ := dot (v0 - c) (cross (v1 - c) (v2 - c))

/-- The coordinates of the points of a tetrahedron with respect to its sides. -/
def corner : Set (ℝ × ℝ × ℝ) := {q | 0 ≤ q.1 ∧ 0 ≤ q.2.1 ∧ 0 ≤ q.2.2 ∧ q.1 + q.2.1 + q.2.2 ≤ 1}

theorem corner_compact : IsCompact corner := by
  apply Metric.isCompact_of_isClosed_isBounded
  · have h1 : IsClosed {q : ℝ × ℝ × ℝ | 0 ≤ q.1} := isClosed_le (by fun_prop) (by fun_prop)
    have h2 : IsClosed {q : ℝ × ℝ × ℝ | 0 ≤ q.2.1} := isClosed_le (by fun_prop) (by fun_prop)
    have h3 : IsClosed {q : ℝ × ℝ × ℝ | 0 ≤ q.2.2} := isClosed_le (by fun_prop) (by fun_prop)
    have h4 : IsClosed {q : ℝ × ℝ × ℝ | q.1 + q.2.1 + q.2.2 ≤ 1} := isClosed_le (by fun_prop) (by fun_prop)
    exact h1.inter (h2.inter (h3.inter h4))
  · refine (Metric.isBounded_Icc (α := ℝ × ℝ × ℝ) (0, 0, 0) (1, 1, 1)).subset ?_
    intro q hq
    obtain ⟨h1, h2, h3, h4⟩ := hq
    exact ⟨⟨h1, h2, h3⟩, ⟨by dsimp only; linarith, by dsimp only; linarith, by dsimp only; linarith⟩⟩

theorem corner_slices (f : ℝ × ℝ × ℝ → ℝ) (hf : Continuous f) :
    ∫ p in corner, f p = ∫ s in (0 : ℝ)..1, ∫ t in (0 : ℝ)..(1 - s), ∫ u in (0 : ℝ)..(1 - s - t), f (s, t, u) := by
  have hb : ∀ p ∈ corner, 0 ≤ p.1 ∧ p.1 ≤ 1 := by
    rintro p ⟨h1, h2, h3, h4⟩
    exact ⟨h1, by linarith⟩
  rw [slices corner_compact hf zero_le_one hb]
  apply intervalIntegral.integral_congr
  intro s hs
  rw [Set.uIcc_of_le zero_le_one] at hs
  have hc : IsCompact {q : ℝ × ℝ | (s, q) ∈ corner} := by
    have hcl : IsClosed {q : ℝ × ℝ | (s, q) ∈ corner} :=
      corner_compact.isClosed.preimage (by fun_prop : Continuous fun q : ℝ × ℝ => (s, q))
    apply Metric.isCompact_of_isClosed_isBounded hcl
    refine (Metric.isBounded_Icc (α := ℝ × ℝ) (0, 0) (1, 1)).subset ?_
    rintro q ⟨h1, h2, h3, h4⟩
    dsimp only at h1 h2 h3 h4
    exact ⟨⟨h2, h3⟩, ⟨by dsimp only; linarith, by dsimp only; linarith⟩⟩
  have hb2 : ∀ q ∈ {q : ℝ × ℝ | (s, q) ∈ corner}, 0 ≤ q.1 ∧ q.1 ≤ 1 - s := by
    rintro q ⟨h1, h2, h3, h4⟩
    dsimp only at h1 h2 h3 h4
    exact ⟨h2, by linarith⟩
  simp only
  rw [slices hc (f := fun q => f (s, q)) (hf.comp (by fun_prop)) (by linarith [hs.2]) hb2]
  apply intervalIntegral.integral_congr
  intro t ht
  rw [Set.uIcc_of_le (by linarith [hs.2])] at ht
  have e : {u : ℝ | (t, u) ∈ {q : ℝ × ℝ | (s, q) ∈ corner}} = Set.Icc 0 (1 - s - t) := by
    ext u
    simp only [corner, Set.mem_setOf_eq, Set.mem_Icc]
    constructor
    · rintro ⟨h1, h2, h3, h4⟩
      exact ⟨h3, by linarith⟩
    · rintro ⟨h3, h4⟩
      exact ⟨hs.1, ht.1, h3, by linarith⟩
  simp only
  rw [e, between (by linarith [ht.2])]

/-- The integral of a product of two linear functions, given by their values at the corners. -/
theorem corner_product (a0 a1 a2 a3 b0 b1 b2 b3 : ℝ) :
    ∫ q in corner, (a0 + q.1 * (a1 - a0) + q.2.1 * (a2 - a0) + q.2.2 * (a3 - a0)) *
      (b0 + q.1 * (b1 - b0) + q.2.1 * (b2 - b0) + q.2.2 * (b3 - b0)) =
      (a0 * b0 + a1 * b1 + a2 * b2 + a3 * b3 + (a0 + a1 + a2 + a3) * (b0 + b1 + b2 + b3)) / 120 := by
  rw [corner_slices _ (by fun_prop)]
  have e1 : ∀ s t : ℝ, (∫ u in (0 : ℝ)..(1 - s - t), (a0 + s * (a1 - a0) + t * (a2 - a0) + u * (a3 - a0)) *
      (b0 + s * (b1 - b0) + t * (b2 - b0) + u * (b3 - b0))) =
      (a0 + s * (a1 - a0) + t * (a2 - a0)) * (b0 + s * (b1 - b0) + t * (b2 - b0)) * (1 - s - t) +
      ((a0 + s * (a1 - a0) + t * (a2 - a0)) * (b3 - b0) + (b0 + s * (b1 - b0) + t * (b2 - b0)) * (a3 - a0)) / 2 *
        (1 - s - t) ^ 2 + (a3 - a0) * (b3 - b0) / 3 * (1 - s - t) ^ 3 := by
    intro s t
    rw [integral_of_poly _ _ ((a0 + s * (a1 - a0) + t * (a2 - a0)) * (b0 + s * (b1 - b0) + t * (b2 - b0)))
      ((a0 + s * (a1 - a0) + t * (a2 - a0)) * (b3 - b0) + (b0 + s * (b1 - b0) + t * (b2 - b0)) * (a3 - a0))
      ((a3 - a0) * (b3 - b0)) 0 0 (by intro u; ring)]
    ring
  simp only [e1]
  have e2 : ∀ A da B db k l w t : ℝ, (A + t * da) * (B + t * db) * (w - t) +
      ((A + t * da) * l + (B + t * db) * k) / 2 * (w - t) ^ 2 + k * l / 3 * (w - t) ^ 3 =
      (A * B * w + (A * l + B * k) / 2 * w ^ 2 + k * l / 3 * w ^ 3) +
      ((da * B + A * db) * w - A * B + (da * l + db * k) / 2 * w ^ 2 - (A * l + B * k) * w - k * l * w ^ 2) * t +
      (da * db * w - (da * B + A * db) - (da * l + db * k) * w + (A * l + B * k) / 2 + k * l * w) * t ^ 2 +
      (-(da * db) + (da * l + db * k) / 2 - k * l / 3) * t ^ 3 + 0 * t ^ 4 := by
    intros
    ring
  have e3 : ∀ s : ℝ, (∫ t in (0 : ℝ)..(1 - s),
      ((a0 + s * (a1 - a0) + t * (a2 - a0)) * (b0 + s * (b1 - b0) + t * (b2 - b0)) * (1 - s - t) +
      ((a0 + s * (a1 - a0) + t * (a2 - a0)) * (b3 - b0) + (b0 + s * (b1 - b0) + t * (b2 - b0)) * (a3 - a0)) / 2 *
        (1 - s - t) ^ 2 + (a3 - a0) * (b3 - b0) / 3 * (1 - s - t) ^ 3)) =
      (a0 + s * (a1 - a0)) * (b0 + s * (b1 - b0)) * (1 - s) ^ 2 / 2 +
      ((a0 + s * (a1 - a0)) * ((b2 - b0) + (b3 - b0)) + (b0 + s * (b1 - b0)) * ((a2 - a0) + (a3 - a0))) * (1 - s) ^ 3 / 6 +
      (2 * (a2 - a0) * (b2 - b0) + (a2 - a0) * (b3 - b0) + (a3 - a0) * (b2 - b0) + 2 * (a3 - a0) * (b3 - b0)) *
        (1 - s) ^ 4 / 24 := by
    intro s
    rw [integral_of_poly _ _ _ _ _ _ _ (fun t => e2 (a0 + s * (a1 - a0)) (a2 - a0) (b0 + s * (b1 - b0)) (b2 - b0) (a3 - a0)
      (b3 - b0) (1 - s) t)]
    ring
  simp only [e3]
  have e4 : ∀ A da B db k l m s : ℝ, (A + s * da) * (B + s * db) * (1 - s) ^ 2 / 2 +
      ((A + s * da) * l + (B + s * db) * k) * (1 - s) ^ 3 / 6 + m * (1 - s) ^ 4 / 24 =
      (A * B / 2 + (A * l + B * k) / 6 + m / 24) +
      ((A * db + da * B) / 2 - A * B + (da * l + db * k) / 6 - (A * l + B * k) / 2 - m / 6) * s +
      (da * db / 2 - (A * db + da * B) + A * B / 2 - (da * l + db * k) / 2 + (A * l + B * k) / 2 + m / 4) * s ^ 2 +
      (-(da * db) + (A * db + da * B) / 2 + (da * l + db * k) / 2 - (A * l + B * k) / 6 - m / 6) * s ^ 3 +
      (da * db / 2 - (da * l + db * k) / 6 + m / 24) * s ^ 4 := by
    intros
    ring
  rw [integral_of_poly _ _ _ _ _ _ _ (fun s => e4 a0 (a1 - a0) b0 (b1 - b0) ((a2 - a0) + (a3 - a0))
    ((b2 - b0) + (b3 - b0)) (2 * (a2 - a0) * (b2 - b0) + (a2 - a0) * (b3 - b0) + (a3 - a0) * (b2 - b0) +
      2 * (a3 - a0) * (b3 - b0)) s)]
  ring

theorem region_tet (c v0 v1 v2 : V3 ℝ) :
    region (Tet c v0 v1 v2) = (fun p => ofV c + lin (M3.columns (v0 - c) (v1 - c) (v2 - c)) p) '' corner := by
  ext p
  simp only [region, Tet, Set.mem_setOf_eq, Set.mem_image, corner]
  constructor
  · rintro ⟨s, t, u, hs, ht, hu, h1, e⟩
    refine ⟨(s, t, u), ⟨hs, ht, hu, h1⟩, ?_⟩
    rw [← ofV_toV p, e]
    refine Prod.ext ?_ (Prod.ext ?_ ?_) <;>
      simp [lin, ofV, toV, M3.mulVec, M3.columns, dot] <;> ring
  · rintro ⟨q, ⟨hs, ht, hu, h1⟩, e⟩
    refine ⟨q.1, q.2.1, q.2.2, hs, ht, hu, h1, ?_⟩
    rw [← e]
    ext <;> simp [lin, ofV, toV, M3.mulVec, M3.columns, dot] <;> ring

theorem columns_det (c v0 v1 v2 : V3 ℝ) : (M3.columns (v0 - c) (v1 - c) (v2 - c)).det = det6 c v0 v1 v2 := by
  simp [M3.det, M3.columns, det6, dot]
  ring

/-- The integral over a tetrahedron of a product of two functions linear on it. -/
theorem tet_product (c v0 v1 v2 : V3 ℝ) (f : V3 ℝ → ℝ) (a0 a1 a2 a3 b0 b1 b2 b3 : ℝ)
    (hf : ∀ s t u : ℝ, f (c + smul s (v0 - c) + smul t (v1 - c) + smul u (v2 - c)) =
      (a0 + s * (a1 - a0) + t * (a2 - a0) + u * (a3 - a0)) * (b0 + s * (b1 - b0) + t * (b2 - b0) + u * (b3 - b0))) :
    integralOver (Tet c v0 v1 v2) f = |det6 c v0 v1 v2| *
      ((a0 * b0 + a1 * b1 + a2 * b2 + a3 * b3 + (a0 + a1 + a2 + a3) * (b0 + b1 + b2 + b3)) / 120) := by
  rw [integralOver, region_tet, affine_image _ _ corner_compact.measurableSet, columns_det, ← corner_product]
  congr 1
  apply integral_congr_ae
  apply Filter.Eventually.of_forall
  intro q
  simp only
  rw [← hf]
  congr 1
  ext <;> simp [lin, ofV, toV, M3.mulVec, M3.columns, dot] <;> ring

end Edyn.Mass
