import Verif.Geom.Intersect

/-!
# Intersections in the plane (C72)

Line and circle, two circles, two segments, line and box: `src/edyn/math/geom.cpp`.
-/

namespace Edyn.Geom

/-! ## Model -/

/-- `dot`, `length_sqr`, `perp_product`, `orthogonal` of `vector2.hpp` 112-130. -/
noncomputable def dot2 (v w : V2) : ℝ := v.x * w.x + v.y * w.y
noncomputable def perp2 (v w : V2) : ℝ := v.x * w.y - v.y * w.x
noncomputable def sub2 (v w : V2) : V2 := ⟨v.x - w.x, v.y - w.y⟩

/-- `intersect_line_circle`, `geom.cpp` 194-215: the parameters which have been assigned, as many as the
function returns. -/
noncomputable def lineCircle (eps : ℝ) (p0 p1 : V2) (r : ℝ) : List ℝ :=
  let d := sub2 p1 p0
  let dl2 := dot2 d d
  let dp := dot2 d p0
  let delta := dp * dp - dl2 * (dot2 p0 p0 - r * r)
  if delta < 0 then [] else
  if eps < delta then [-(dp + Real.sqrt delta) * (1 / dl2), -(dp - Real.sqrt delta) * (1 / dl2)] else
  [-dp * dl2]

/-- `intersect_circle_circle`, `geom.cpp` 441-474: the points, as many as the function returns. -/
noncomputable def circleCircle (eps : ℝ) (a : V2) (ra : ℝ) (b : V2) (rb : ℝ) : List V2 :=
  let u := sub2 b a
  let lu2 := dot2 u u
  let rsum := ra + rb
  let rsub := ra - rb
  if lu2 < eps ∧ rsub < eps then [⟨a.x + ra, a.y⟩, ⟨b.x - rb, b.y⟩] else
  if lu2 < rsub * rsub ∨ rsum * rsum < lu2 then [] else
  let s := ((ra * ra - rb * rb) * (1 / lu2) + 1) * (1 / 2)
  let t := Real.sqrt (max 0 (ra * ra * (1 / lu2) - s * s))
  let res0 : V2 := ⟨a.x + s * u.x + t * -u.y, a.y + s * u.y + t * u.x⟩
  let res1 : V2 := ⟨a.x + s * u.x - t * -u.y, a.y + s * u.y - t * u.x⟩
  if eps < t then [res0, res1] else [res0]

/-- `intersect_segments`, `geom.cpp` 804-844: the pairs `(s0, t0)`, `(s1, t1)`, as many as the function
returns. -/
noncomputable def segments2 (eps : ℝ) (p0 p1 q0 q1 : V2) : List (ℝ × ℝ) :=
  let dp := sub2 p1 p0
  let dq := sub2 q1 q0
  let e := sub2 q0 p0
  let denom := perp2 dp dq
  if eps < |denom| then
    let s0 := perp2 e dq * (1 / denom)
    let t0 := perp2 e dp * (1 / denom)
    if s0 < 0 ∨ 1 < s0 ∨ t0 < 0 ∨ 1 < t0 then [] else [(s0, t0)]
  else if |perp2 e dp| < eps then
    let s0 := dot2 (sub2 q0 p0) dp * (1 / dot2 dp dp)
    let s1 := dot2 (sub2 q1 p0) dp * (1 / dot2 dp dp)
    if (s0 < 0 ∧ s1 < 0) ∨ (1 < s0 ∧ 1 < s1) then [] else
    let t0 := clampUnit (dot2 (sub2 p0 q0) dq * (1 / dot2 dq dq))
    let t1 := clampUnit (dot2 (sub2 p1 q0) dq * (1 / dot2 dq dq))
    if |clampUnit s1 - clampUnit s0| < eps then [(clampUnit s0, t0)]
    else [(clampUnit s0, t0), (clampUnit s1, t1)]
  else []

/-! ## Line and circle -/

/-- The full statement: the parameters are those of the points of the line on the circle. -/
def LineCircleFull (eps : ℝ) : Prop :=
  ∀ (p0 p1 : V2) (r : ℝ), p0 ≠ p1 → ∀ t, onCircle ⟨0, 0⟩ r (along2 p0 p1 t) ↔ t ∈ lineCircle eps p0 p1 r

theorem dl2_pos {p0 p1 : V2} (h : p0 ≠ p1) : 0 < dot2 (sub2 p1 p0) (sub2 p1 p0) := by
  simp only [dot2, sub2]
  by_contra hc
  have hx : (p1.x - p0.x) * (p1.x - p0.x) = 0 := by nlinarith [mul_self_nonneg (p1.x - p0.x), mul_self_nonneg (p1.y - p0.y)]
  have hy : (p1.y - p0.y) * (p1.y - p0.y) = 0 := by nlinarith [mul_self_nonneg (p1.x - p0.x), mul_self_nonneg (p1.y - p0.y)]
  rw [mul_self_eq_zero] at hx hy
  exact h (by ext <;> linarith)

/-- A point of the line is on the circle if its parameter solves the quadratic equation. -/
theorem on_circle_iff (p0 p1 : V2) (r t : ℝ) (h : 0 < dot2 (sub2 p1 p0) (sub2 p1 p0)) :
    onCircle ⟨0, 0⟩ r (along2 p0 p1 t) ↔
      (dot2 (sub2 p1 p0) (sub2 p1 p0) * t + dot2 (sub2 p1 p0) p0) * (dot2 (sub2 p1 p0) (sub2 p1 p0) * t +
        dot2 (sub2 p1 p0) p0) = dot2 (sub2 p1 p0) p0 * dot2 (sub2 p1 p0) p0 -
        dot2 (sub2 p1 p0) (sub2 p1 p0) * (dot2 p0 p0 - r * r) := by
  have key : (dot2 (sub2 p1 p0) (sub2 p1 p0) * t + dot2 (sub2 p1 p0) p0) *
      (dot2 (sub2 p1 p0) (sub2 p1 p0) * t + dot2 (sub2 p1 p0) p0) - (dot2 (sub2 p1 p0) p0 * dot2 (sub2 p1 p0) p0 -
        dot2 (sub2 p1 p0) (sub2 p1 p0) * (dot2 p0 p0 - r * r)) =
      dot2 (sub2 p1 p0) (sub2 p1 p0) * (((along2 p0 p1 t).x - 0) * ((along2 p0 p1 t).x - 0) +
        ((along2 p0 p1 t).y - 0) * ((along2 p0 p1 t).y - 0) - r * r) := by
    simp only [dot2, sub2, along2]; ring
  unfold onCircle
  simp only
  constructor
  · intro hc
    rw [hc, sub_self, mul_zero] at key
    linarith
  · intro hc
    have : dot2 (sub2 p1 p0) (sub2 p1 p0) * (((along2 p0 p1 t).x - 0) * ((along2 p0 p1 t).x - 0) +
        ((along2 p0 p1 t).y - 0) * ((along2 p0 p1 t).y - 0) - r * r) = 0 := by
      rw [← key]; linarith
    rcases mul_eq_zero.mp this with h' | h'
    · linarith
    · linarith

/-- **C72, line and circle.** Proved unless the line touches the circle within the tolerance: then there are
no parameters when the line misses the circle, and otherwise the two parameters of the common points, in
increasing order.  Missing: tangent lines (`line_circle_refuted`). -/
theorem line_circle_partial (eps : ℝ) (he : 0 ≤ eps) (p0 p1 : V2) (r : ℝ) (h : p0 ≠ p1)
    (hnt : ¬ (∃ s, lineCircle eps p0 p1 r = [s])) :
    (∀ t, onCircle ⟨0, 0⟩ r (along2 p0 p1 t) ↔ t ∈ lineCircle eps p0 p1 r) ∧
    (lineCircle eps p0 p1 r).Pairwise (· < ·) := by
  have hp := dl2_pos h
  have hq := on_circle_iff p0 p1 r
  unfold lineCircle at hnt ⊢
  simp only at hnt ⊢
  generalize dot2 (sub2 p1 p0) (sub2 p1 p0) = a at *
  generalize dot2 (sub2 p1 p0) p0 = b at *
  generalize b * b - a * (dot2 p0 p0 - r * r) = delta at *
  by_cases hd : delta < 0
  · rw [if_pos hd]
    refine ⟨?_, .nil⟩
    intro t
    rw [hq t hp]
    simp only [List.not_mem_nil, iff_false]
    intro hc
    nlinarith [mul_self_nonneg (a * t + b)]
  · rw [if_neg hd] at hnt ⊢
    by_cases hd' : eps < delta
    · rw [if_pos hd']
      have hs := Real.mul_self_sqrt (le_of_not_gt hd)
      have hs0 := Real.sqrt_pos.mpr (lt_of_le_of_lt he hd')
      generalize Real.sqrt delta = w at *
      constructor
      · intro t
        rw [hq t hp, ← hs]
        simp only [List.mem_cons, List.not_mem_nil, or_false]
        constructor
        · intro hc
          have : (a * t + b + w) * (a * t + b - w) = 0 := by linear_combination hc
          rcases mul_eq_zero.mp this with h' | h'
          · left; field_simp; linarith
          · right; field_simp; linarith
        · rintro (rfl | rfl) <;> field_simp <;> ring
      · rw [List.pairwise_pair]
        have : 0 < 1 / a := by positivity
        nlinarith
    · rw [if_neg hd'] at hnt
      exact absurd ⟨_, rfl⟩ hnt

/-- **Finding.** For a tangent line the parameter is multiplied by the squared length instead of divided:
the line through `(-2, 1)` and `(2, 1)` touches the unit circle in its middle, the function returns 128. -/
theorem line_circle_refuted (eps : ℝ) (he : 0 ≤ eps) : ¬ LineCircleFull eps := by
  intro h
  have h1 := (h ⟨-2, 1⟩ ⟨2, 1⟩ 1 (by simp [V2.ext_iff]; norm_num) (1 / 2)).mp (by simp [onCircle, along2]; norm_num)
  have : lineCircle eps ⟨-2, 1⟩ ⟨2, 1⟩ 1 = [128] := by
    unfold lineCircle
    simp only [dot2, sub2]
    norm_num [he]
  rw [this] at h1
  norm_num at h1

/-- A line through the unit circle meets the hypotheses. -/
example : lineCircle 0 ⟨-2, 0⟩ ⟨2, 0⟩ 1 = [1 / 4, 3 / 4] := by
  have h4 : Real.sqrt 16 = 4 := by rw [show (16 : ℝ) = 4 * 4 by norm_num]; exact Real.sqrt_mul_self (by norm_num)
  unfold lineCircle
  simp only [dot2, sub2]
  norm_num [h4]

/-! ## Two circles -/

/-- The full statement: the points are the common points of two different circles. -/
def CircleCircleFull (eps : ℝ) : Prop :=
  ∀ (a b : V2) (ra rb : ℝ), 0 ≤ ra → 0 ≤ rb → (a ≠ b ∨ ra ≠ rb) →
    ∀ p, onCircle a ra p ∧ onCircle b rb p ↔ p ∈ circleCircle eps a ra b rb

/-- **C72, two circles.** Proved for centres which are apart when the circles do not touch within the
tolerance, or touch exactly: the points are the common points.  Missing: nearly touching circles, for which
one of two points is reported, and (nearly) concentric ones (`circle_circle_refuted`). -/
theorem circle_circle_partial (eps : ℝ) (a b : V2) (ra rb : ℝ) (hra : 0 ≤ ra) (hrb : 0 ≤ rb)
    (hab : a ≠ b) (hfar : eps ≤ dot2 (sub2 b a) (sub2 b a) ∨ eps ≤ ra - rb)
    (htouch : ∀ p, circleCircle eps a ra b rb = [p] →
      dot2 (sub2 b a) (sub2 b a) = (ra + rb) * (ra + rb) ∨ dot2 (sub2 b a) (sub2 b a) = (ra - rb) * (ra - rb)) :
    ∀ p, onCircle a ra p ∧ onCircle b rb p ↔ p ∈ circleCircle eps a ra b rb := by
  have hp := dl2_pos hab
  have main : ∀ p : V2, ∀ s τ2 : ℝ, s = ((ra * ra - rb * rb) * (1 / dot2 (sub2 b a) (sub2 b a)) + 1) * (1 / 2) →
      τ2 = ra * ra * (1 / dot2 (sub2 b a) (sub2 b a)) - s * s →
      (onCircle a ra p ∧ onCircle b rb p ↔ ∃ τ, τ * τ = τ2 ∧
        p = ⟨a.x + s * (b.x - a.x) + τ * -(b.y - a.y), a.y + s * (b.y - a.y) + τ * (b.x - a.x)⟩) := by
    intro p s τ2 hs hτ
    have hsl : 2 * s * dot2 (sub2 b a) (sub2 b a) = ra * ra - rb * rb + dot2 (sub2 b a) (sub2 b a) := by
      rw [hs]; field_simp
    have hτl : (τ2 + s * s) * dot2 (sub2 b a) (sub2 b a) = ra * ra := by
      rw [hτ]; field_simp; ring
    clear hs hτ
    generalize hL : dot2 (sub2 b a) (sub2 b a) = L at *
    simp only [dot2, sub2] at hL
    unfold onCircle
    constructor
    · rintro ⟨h1, h2⟩
      have hdot : (p.x - a.x) * (b.x - a.x) + (p.y - a.y) * (b.y - a.y) = s * L := by
        linear_combination (1 / 2) * h1 - (1 / 2) * h2 - (1 / 2) * hsl + (1 / 2) * hL
      refine ⟨((p.y - a.y) * (b.x - a.x) - (p.x - a.x) * (b.y - a.y)) / L, ?_, ?_⟩
      · have : ((p.y - a.y) * (b.x - a.x) - (p.x - a.x) * (b.y - a.y)) *
            ((p.y - a.y) * (b.x - a.x) - (p.x - a.x) * (b.y - a.y)) = τ2 * L * L := by
          have e : ((p.y - a.y) * (b.x - a.x) - (p.x - a.x) * (b.y - a.y)) *
            ((p.y - a.y) * (b.x - a.x) - (p.x - a.x) * (b.y - a.y)) =
            ((p.x - a.x) * (p.x - a.x) + (p.y - a.y) * (p.y - a.y)) * L -
            ((p.x - a.x) * (b.x - a.x) + (p.y - a.y) * (b.y - a.y)) *
              ((p.x - a.x) * (b.x - a.x) + (p.y - a.y) * (b.y - a.y)) := by rw [← hL]; ring
          rw [e, h1, hdot]
          linear_combination (-L) * hτl
        rw [div_mul_div_comm, this]
        field_simp
      · ext
        · simp only
          have : (a.x + s * (b.x - a.x) + ((p.y - a.y) * (b.x - a.x) - (p.x - a.x) * (b.y - a.y)) / L * -(b.y - a.y)) =
              a.x + (s * L * (b.x - a.x) - ((p.y - a.y) * (b.x - a.x) - (p.x - a.x) * (b.y - a.y)) * (b.y - a.y)) / L := by
            field_simp; ring
          rw [this, ← hdot]
          have e : (((p.x - a.x) * (b.x - a.x) + (p.y - a.y) * (b.y - a.y)) * (b.x - a.x) -
              ((p.y - a.y) * (b.x - a.x) - (p.x - a.x) * (b.y - a.y)) * (b.y - a.y)) = (p.x - a.x) * L := by
            rw [← hL]; ring
          rw [e]; field_simp; ring
        · simp only
          have : (a.y + s * (b.y - a.y) + ((p.y - a.y) * (b.x - a.x) - (p.x - a.x) * (b.y - a.y)) / L * (b.x - a.x)) =
              a.y + (s * L * (b.y - a.y) + ((p.y - a.y) * (b.x - a.x) - (p.x - a.x) * (b.y - a.y)) * (b.x - a.x)) / L := by
            field_simp; ring
          rw [this, ← hdot]
          have e : (((p.x - a.x) * (b.x - a.x) + (p.y - a.y) * (b.y - a.y)) * (b.y - a.y) +
              ((p.y - a.y) * (b.x - a.x) - (p.x - a.x) * (b.y - a.y)) * (b.x - a.x)) = (p.y - a.y) * L := by
            rw [← hL]; ring
          rw [e]; field_simp; ring
    · rintro ⟨τ, hτ, rfl⟩
      simp only
      constructor
      · linear_combination hτl + L * hτ + (s * s + τ * τ) * hL
      · linear_combination hτl + L * hτ + ((1 - s) * (1 - s) + τ * τ) * hL - hsl
  set L := dot2 (sub2 b a) (sub2 b a) with hL
  set s := ((ra * ra - rb * rb) * (1 / L) + 1) * (1 / 2) with hs
  set τ2 := ra * ra * (1 / L) - s * s with hτ
  have fac : 4 * L * L * τ2 = ((ra + rb) * (ra + rb) - L) * (L - (ra - rb) * (ra - rb)) := by
    rw [hτ, hs]; field_simp; ring
  have hrr := mul_nonneg hra hrb
  intro p
  rw [main p s τ2 rfl rfl]
  unfold circleCircle at htouch ⊢
  simp only [← hL, ← hs, ← hτ] at htouch ⊢
  have hnc : ¬ (L < eps ∧ ra - rb < eps) := by
    rintro ⟨h1, h2⟩
    rcases hfar with h | h <;> linarith
  rw [if_neg hnc] at htouch ⊢
  by_cases hout : L < (ra - rb) * (ra - rb) ∨ (ra + rb) * (ra + rb) < L
  · rw [if_pos hout]
    simp only [List.not_mem_nil, iff_false]
    rintro ⟨τ, h1, _⟩
    have hneg : 4 * L * L * τ2 < 0 := by
      rw [fac]
      rcases hout with h | h
      · exact mul_neg_of_pos_of_neg (by nlinarith) (by linarith)
      · exact mul_neg_of_neg_of_pos (by linarith) (by nlinarith)
    have : 0 ≤ τ2 := h1 ▸ mul_self_nonneg τ
    have : 0 ≤ 4 * L * L * τ2 := by positivity
    linarith
  · rw [if_neg hout] at htouch ⊢
    rw [not_or, not_lt, not_lt] at hout
    have hτ0 : 0 ≤ τ2 := by
      have : 0 ≤ 4 * L * L * τ2 := by
        rw [fac]; exact mul_nonneg (by linarith) (by linarith)
      by_contra hc
      have : 4 * L * L * τ2 < 0 := mul_neg_of_pos_of_neg (by positivity) (by linarith)
      linarith
    rw [max_eq_right hτ0] at htouch ⊢
    have hsq := Real.mul_self_sqrt hτ0
    have split : ∀ τ : ℝ, τ * τ = τ2 ↔ τ = Real.sqrt τ2 ∨ τ = -Real.sqrt τ2 := by
      intro τ
      conv_lhs => rw [← hsq]
      exact mul_self_eq_mul_self_iff
    by_cases ht : eps < Real.sqrt τ2
    · rw [if_pos ht]
      simp only [List.mem_cons, List.not_mem_nil, or_false, split]
      constructor
      · rintro ⟨τ, rfl | rfl, rfl⟩
        · left; rfl
        · right; ext <;> simp only [sub2] <;> ring
      · rintro (rfl | rfl)
        · exact ⟨_, .inl rfl, rfl⟩
        · exact ⟨_, .inr rfl, by ext <;> simp only [sub2] <;> ring⟩
    · rw [if_neg ht] at htouch ⊢
      have hz : τ2 = 0 := by
        have : 4 * L * L * τ2 = 0 := by
          rw [fac]
          rcases htouch _ rfl with h | h
          · rw [h]; ring
          · rw [h]; ring
        rcases mul_eq_zero.mp this with h | h
        · have : (0 : ℝ) < 4 * L * L := by positivity
          linarith
        · exact h
      simp only [List.mem_singleton]
      rw [hz]
      simp only [mul_self_eq_zero, Real.sqrt_zero]
      constructor
      · rintro ⟨τ, rfl, rfl⟩; rfl
      · rintro rfl; exact ⟨0, rfl, rfl⟩

/-- **Finding.** For concentric circles the difference of the radii is compared without taking its absolute
value: when the second circle is larger, two points are reported although there is no common one. -/
theorem circle_circle_refuted (eps : ℝ) (he : 0 < eps) : ¬ CircleCircleFull eps := by
  intro h
  have h1 := (h ⟨0, 0⟩ ⟨0, 0⟩ 1 5 (by norm_num) (by norm_num) (.inr (by norm_num)) ⟨1, 0⟩).mpr (by
    unfold circleCircle
    simp only
    rw [if_pos (by simp only [dot2, sub2]; constructor <;> norm_num <;> linarith)]
    simp)
  have := h1.2
  simp [onCircle] at this
  norm_num at this

/-- Two unit circles at the distance 6/5 meet in two points. -/
example : circleCircle (1 / 100) ⟨0, 0⟩ 1 ⟨6 / 5, 0⟩ 1 = [⟨3 / 5, 4 / 5⟩, ⟨3 / 5, -4 / 5⟩] := by
  have h4 : Real.sqrt (4 / 9) = 2 / 3 := by
    rw [show (4 / 9 : ℝ) = 2 / 3 * (2 / 3) by norm_num]; exact Real.sqrt_mul_self (by norm_num)
  unfold circleCircle
  simp only [dot2, sub2]
  norm_num [h4]

/-! ## Two segments -/

/-- Two segments have a common point. -/
def Meet2 (p0 p1 q0 q1 : V2) : Prop :=
  ∃ s t, (0 ≤ s ∧ s ≤ 1) ∧ (0 ≤ t ∧ t ≤ 1) ∧ along2 p0 p1 s = along2 q0 q1 t

/-- The full statement: pairs are returned if and only if the segments meet, and each pair locates one point on
both segments. -/
def Segments2Full (eps : ℝ) : Prop :=
  ∀ p0 p1 q0 q1 : V2, p0 ≠ p1 → q0 ≠ q1 →
    (segments2 eps p0 p1 q0 q1 ≠ [] ↔ Meet2 p0 p1 q0 q1) ∧
    ∀ st ∈ segments2 eps p0 p1 q0 q1, (0 ≤ st.1 ∧ st.1 ≤ 1) ∧ (0 ≤ st.2 ∧ st.2 ≤ 1) ∧
      along2 p0 p1 st.1 = along2 q0 q1 st.2

/-- The two segments are not nearly parallel, or they are exactly parallel and not nearly on one line, or on
one line and point in the same direction. -/
def Clear2 (eps : ℝ) (p0 p1 q0 q1 : V2) : Prop :=
  eps < |perp2 (sub2 p1 p0) (sub2 q1 q0)| ∨
  (perp2 (sub2 p1 p0) (sub2 q1 q0) = 0 ∧ (eps ≤ |perp2 (sub2 q0 p0) (sub2 p1 p0)| ∨
    (perp2 (sub2 q0 p0) (sub2 p1 p0) = 0 ∧ 0 < dot2 (sub2 p1 p0) (sub2 q1 q0))))

theorem clamp_of_lo {x : ℝ} (h : x ≤ 0) : clampUnit x = 0 := by
  unfold clampUnit
  split_ifs <;> linarith
theorem clamp_of_hi {x : ℝ} (h : 1 ≤ x) : clampUnit x = 1 := by
  unfold clampUnit
  split_ifs <;> linarith
theorem clamp_of_in {x : ℝ} (h : 0 ≤ x) (h' : x ≤ 1) : clampUnit x = x := by
  unfold clampUnit
  split_ifs <;> linarith

/-- Segments on one line with the same direction: the first pair belongs to the later one of the two first
ends, the second pair to the earlier one of the two last ends. -/
theorem collinear_pairs {p0 p1 q0 q1 : V2} (hp : p0 ≠ p1) (k : ℝ) (hk : 0 < k) (c : ℝ)
    (hq0 : q0 = along2 p0 p1 c) (hq1 : q1 = along2 p0 p1 (c + k)) :
    dot2 (sub2 q0 p0) (sub2 p1 p0) * (1 / dot2 (sub2 p1 p0) (sub2 p1 p0)) = c ∧
    dot2 (sub2 q1 p0) (sub2 p1 p0) * (1 / dot2 (sub2 p1 p0) (sub2 p1 p0)) = c + k ∧
    dot2 (sub2 p0 q0) (sub2 q1 q0) * (1 / dot2 (sub2 q1 q0) (sub2 q1 q0)) = -c / k ∧
    dot2 (sub2 p1 q0) (sub2 q1 q0) * (1 / dot2 (sub2 q1 q0) (sub2 q1 q0)) = (1 - c) / k ∧
    ∀ t, along2 q0 q1 t = along2 p0 p1 (c + t * k) := by
  have h := dl2_pos hp
  subst hq0 hq1
  generalize hL : dot2 (sub2 p1 p0) (sub2 p1 p0) = L at *
  have e : dot2 (sub2 (along2 p0 p1 (c + k)) (along2 p0 p1 c)) (sub2 (along2 p0 p1 (c + k)) (along2 p0 p1 c)) =
      k * k * L := by
    rw [← hL]; simp only [dot2, sub2, along2]; ring
  rw [e]
  refine ⟨?_, ?_, ?_, ?_, ?_⟩
  · have : dot2 (sub2 (along2 p0 p1 c) p0) (sub2 p1 p0) = c * L := by
      rw [← hL]; simp only [dot2, sub2, along2]; ring
    rw [this]; field_simp
  · have : dot2 (sub2 (along2 p0 p1 (c + k)) p0) (sub2 p1 p0) = (c + k) * L := by
      rw [← hL]; simp only [dot2, sub2, along2]; ring
    rw [this]; field_simp
  · have : dot2 (sub2 p0 (along2 p0 p1 c)) (sub2 (along2 p0 p1 (c + k)) (along2 p0 p1 c)) = -c * k * L := by
      rw [← hL]; simp only [dot2, sub2, along2]; ring
    rw [this]; field_simp
  · have : dot2 (sub2 p1 (along2 p0 p1 c)) (sub2 (along2 p0 p1 (c + k)) (along2 p0 p1 c)) = (1 - c) * k * L := by
      rw [← hL]; simp only [dot2, sub2, along2]; ring
    rw [this]; field_simp
  · intro t; ext <;> simp only [along2] <;> ring

/-- Two segments on one line are multiples of each other. -/
theorem collinear_param {p0 p1 q0 q1 : V2} (hp : p0 ≠ p1) (h1 : perp2 (sub2 p1 p0) (sub2 q1 q0) = 0)
    (h2 : perp2 (sub2 q0 p0) (sub2 p1 p0) = 0) (h3 : 0 < dot2 (sub2 p1 p0) (sub2 q1 q0)) :
    ∃ c k, 0 < k ∧ q0 = along2 p0 p1 c ∧ q1 = along2 p0 p1 (c + k) := by
  have h := dl2_pos hp
  refine ⟨dot2 (sub2 q0 p0) (sub2 p1 p0) / dot2 (sub2 p1 p0) (sub2 p1 p0),
    dot2 (sub2 p1 p0) (sub2 q1 q0) / dot2 (sub2 p1 p0) (sub2 p1 p0), by positivity, ?_, ?_⟩
  · generalize hL : dot2 (sub2 p1 p0) (sub2 p1 p0) = L at *
    simp only [dot2, sub2, perp2] at *
    ext <;> simp only [along2] <;> field_simp
    · linear_combination (-(q0.x - p0.x)) * hL + (p1.y - p0.y) * h2
    · linear_combination (-(q0.y - p0.y)) * hL - (p1.x - p0.x) * h2
  · generalize hL : dot2 (sub2 p1 p0) (sub2 p1 p0) = L at *
    simp only [dot2, sub2, perp2] at *
    ext <;> simp only [along2] <;> field_simp
    · linear_combination (-(q1.x - p0.x)) * hL + (p1.y - p0.y) * h2 - (p1.y - p0.y) * h1
    · linear_combination (-(q1.y - p0.y)) * hL - (p1.x - p0.x) * h2 + (p1.x - p0.x) * h1

theorem along2_inj {p0 p1 : V2} (hp : p0 ≠ p1) {a b : ℝ} (h : along2 p0 p1 a = along2 p0 p1 b) : a = b := by
  have hx := congrArg V2.x h
  have hy := congrArg V2.y h
  simp only [along2] at hx hy
  have hL := dl2_pos hp
  simp only [dot2, sub2] at hL
  by_contra hc
  have h1 : (a - b) * (p1.x - p0.x) = 0 := by linarith
  have h2 : (a - b) * (p1.y - p0.y) = 0 := by linarith
  have hne : a - b ≠ 0 := sub_ne_zero.mpr hc
  have e1 := (mul_eq_zero.mp h1).resolve_left hne
  have e2 := (mul_eq_zero.mp h2).resolve_left hne
  rw [e1, e2] at hL
  norm_num at hL

/-- **C72, two segments.** Proved for segments which are clearly crossing, clearly parallel, or on one line with
the same direction: pairs are returned if and only if the segments meet, and each pair locates a common
point.  Missing: nearly parallel segments and segments on one line with opposite directions
(`segments2_refuted`). -/
theorem segments2_partial (eps : ℝ) (he : 0 < eps) (p0 p1 q0 q1 : V2) (hp : p0 ≠ p1) (hq : q0 ≠ q1)
    (hc : Clear2 eps p0 p1 q0 q1) :
    (segments2 eps p0 p1 q0 q1 ≠ [] ↔ Meet2 p0 p1 q0 q1) ∧
    ∀ st ∈ segments2 eps p0 p1 q0 q1, (0 ≤ st.1 ∧ st.1 ≤ 1) ∧ (0 ≤ st.2 ∧ st.2 ≤ 1) ∧
      along2 p0 p1 st.1 = along2 q0 q1 st.2 := by
  rcases hc with hc | ⟨h1, hc⟩
  · have hd : perp2 (sub2 p1 p0) (sub2 q1 q0) ≠ 0 := by
      intro h; rw [h, abs_zero] at hc; linarith
    have solve : ∀ s t, along2 p0 p1 s = along2 q0 q1 t ↔
        s = perp2 (sub2 q0 p0) (sub2 q1 q0) * (1 / perp2 (sub2 p1 p0) (sub2 q1 q0)) ∧
        t = perp2 (sub2 q0 p0) (sub2 p1 p0) * (1 / perp2 (sub2 p1 p0) (sub2 q1 q0)) := by
      intro s t
      generalize hD : perp2 (sub2 p1 p0) (sub2 q1 q0) = D at *
      simp only [perp2, sub2] at hD ⊢
      rw [mul_one_div, mul_one_div, eq_div_iff hd, eq_div_iff hd]
      constructor
      · intro h
        have hx := congrArg V2.x h
        have hy := congrArg V2.y h
        simp only [along2] at hx hy
        constructor
        · linear_combination (-s) * hD + (q1.y - q0.y) * hx - (q1.x - q0.x) * hy
        · linear_combination (-t) * hD + (p1.y - p0.y) * hx - (p1.x - p0.x) * hy
      · rintro ⟨hs, ht⟩
        have ex : ((along2 p0 p1 s).x - (along2 q0 q1 t).x) * D = 0 := by
          simp only [along2]
          linear_combination (p1.x - p0.x) * hs - (q1.x - q0.x) * ht + (q0.x - p0.x) * hD
        have ey : ((along2 p0 p1 s).y - (along2 q0 q1 t).y) * D = 0 := by
          simp only [along2]
          linear_combination (p1.y - p0.y) * hs - (q1.y - q0.y) * ht + (q0.y - p0.y) * hD
        have e1 := (mul_eq_zero.mp ex).resolve_right hd
        have e2 := (mul_eq_zero.mp ey).resolve_right hd
        ext <;> linarith
    unfold segments2 Meet2
    simp only
    rw [if_pos hc]
    simp only [solve]
    generalize perp2 (sub2 q0 p0) (sub2 q1 q0) * (1 / perp2 (sub2 p1 p0) (sub2 q1 q0)) = s0
    generalize perp2 (sub2 q0 p0) (sub2 p1 p0) * (1 / perp2 (sub2 p1 p0) (sub2 q1 q0)) = t0
    by_cases hb : s0 < 0 ∨ 1 < s0 ∨ t0 < 0 ∨ 1 < t0
    · rw [if_pos hb]
      refine ⟨⟨fun h => absurd rfl h, ?_⟩, by simp⟩
      rintro ⟨s, t, h1, h2, rfl, rfl⟩
      rcases hb with h | h | h | h <;> linarith [h1.1, h1.2, h2.1, h2.2]
    · rw [if_neg hb]
      simp only [not_or, not_lt] at hb
      refine ⟨⟨fun _ => ⟨s0, t0, ⟨hb.1, hb.2.1⟩, ⟨hb.2.2.1, hb.2.2.2⟩, rfl, rfl⟩, fun _ => by simp⟩, ?_⟩
      intro st hst
      rw [List.mem_singleton] at hst
      subst hst
      exact ⟨⟨hb.1, hb.2.1⟩, ⟨hb.2.2.1, hb.2.2.2⟩, rfl, rfl⟩
  · rcases hc with hc | ⟨h2, h3⟩
    · have : segments2 eps p0 p1 q0 q1 = [] := by
        unfold segments2
        simp only
        rw [h1, abs_zero, if_neg (by linarith), if_neg (by linarith)]
      rw [this]
      refine ⟨⟨fun h => absurd rfl h, ?_⟩, by simp⟩
      rintro ⟨s, t, _, _, h⟩
      exfalso
      have hx := congrArg V2.x h
      have hy := congrArg V2.y h
      have : perp2 (sub2 q0 p0) (sub2 p1 p0) = 0 := by
        simp only [along2, perp2, sub2] at *
        linear_combination (-(p1.y - p0.y)) * hx + (p1.x - p0.x) * hy + t * h1
      rw [this, abs_zero] at hc
      linarith
    · obtain ⟨c, k, hk, e0, e1⟩ := collinear_param hp h1 h2 h3
      obtain ⟨f1, f2, f3, f4, f5⟩ := collinear_pairs hp k hk c e0 e1
      have hmeet : Meet2 p0 p1 q0 q1 ↔ c ≤ 1 ∧ 0 ≤ c + k := by
        unfold Meet2
        constructor
        · rintro ⟨s, t, hs, ht, h⟩
          rw [f5] at h
          have := along2_inj hp h
          constructor <;> nlinarith [hs.1, hs.2, ht.1, ht.2]
        · rintro ⟨g1, g2⟩
          refine ⟨max c 0, (max c 0 - c) / k, ⟨le_max_right _ _, max_le g1 (by norm_num)⟩, ⟨?_, ?_⟩, ?_⟩
          · apply div_nonneg _ hk.le
            linarith [le_max_left c 0]
          · rw [div_le_one hk]
            have : max c 0 ≤ c + k := max_le (by linarith) g2
            linarith
          · rw [f5]; congr 1; field_simp; ring
      rw [hmeet]
      unfold segments2
      simp only
      rw [h1, abs_zero, if_neg (by linarith), h2, abs_zero, if_pos he, f1, f2, f3, f4]
      by_cases hout : (c < 0 ∧ c + k < 0) ∨ (1 < c ∧ 1 < c + k)
      · rw [if_pos hout]
        refine ⟨⟨fun h => absurd rfl h, ?_⟩, by simp⟩
        rintro ⟨g1, g2⟩
        rcases hout with h | h <;> linarith [h.1, h.2]
      · rw [if_neg hout]
        have g : c ≤ 1 ∧ 0 ≤ c + k := by
          rw [not_or, not_and_or, not_and_or, not_lt, not_lt, not_lt, not_lt] at hout
          constructor
          · rcases hout.2 with h | h <;> linarith
          · rcases hout.1 with h | h <;> linarith
        have pair0 : (0 ≤ clampUnit c ∧ clampUnit c ≤ 1) ∧ (0 ≤ clampUnit (-c / k) ∧ clampUnit (-c / k) ≤ 1) ∧
            along2 p0 p1 (clampUnit c) = along2 q0 q1 (clampUnit (-c / k)) := by
          refine ⟨clampUnit_mem _, clampUnit_mem _, ?_⟩
          rw [f5]
          congr 1
          rcases le_total c 0 with h | h
          · rw [clamp_of_lo h, clamp_of_in (by apply div_nonneg <;> linarith) (by rw [div_le_one hk]; linarith)]
            field_simp; ring
          · rw [clamp_of_in h g.1, clamp_of_lo (by apply div_nonpos_of_nonpos_of_nonneg <;> linarith)]
            ring
        have pair1 : (0 ≤ clampUnit (c + k) ∧ clampUnit (c + k) ≤ 1) ∧
            (0 ≤ clampUnit ((1 - c) / k) ∧ clampUnit ((1 - c) / k) ≤ 1) ∧
            along2 p0 p1 (clampUnit (c + k)) = along2 q0 q1 (clampUnit ((1 - c) / k)) := by
          refine ⟨clampUnit_mem _, clampUnit_mem _, ?_⟩
          rw [f5]
          congr 1
          rcases le_total (c + k) 1 with h | h
          · rw [clamp_of_in g.2 h, clamp_of_hi (by rw [le_div_iff₀ hk]; linarith)]
            ring
          · rw [clamp_of_hi h, clamp_of_in (by apply div_nonneg <;> linarith) (by rw [div_le_one hk]; linarith)]
            field_simp; ring
        split
        · refine ⟨⟨fun _ => g, fun _ => by simp⟩, ?_⟩
          intro st hst
          rw [List.mem_singleton] at hst
          subst hst
          exact pair0
        · refine ⟨⟨fun _ => g, fun _ => by simp⟩, ?_⟩
          intro st hst
          simp only [List.mem_cons, List.not_mem_nil, or_false] at hst
          rcases hst with rfl | rfl
          · exact pair0
          · exact pair1

/-- **Finding.** For two segments on one line with opposite directions each pair consists of parameters of
two different points: the segment from 0 to 2 and the one from 3 to 1 share the points from 1 to 2; the first
pair locates 2 on the first segment and 1 on the second one.  The contact pivots are built from these pairs
(`collide_polyhedron_box.cpp` 259-266). -/
theorem segments2_refuted (eps : ℝ) (he : 0 < eps) (he' : eps < 1 / 2) : ¬ Segments2Full eps := by
  intro h
  have hr : segments2 eps ⟨0, 0⟩ ⟨2, 0⟩ ⟨3, 0⟩ ⟨1, 0⟩ = [(1, 1), (1 / 2, 1 / 2)] := by
    have e1 : perp2 (sub2 ⟨2, 0⟩ ⟨0, 0⟩) (sub2 ⟨1, 0⟩ ⟨3, 0⟩) = 0 := by simp [perp2, sub2]
    have e2 : perp2 (sub2 ⟨3, 0⟩ ⟨0, 0⟩) (sub2 ⟨2, 0⟩ ⟨0, 0⟩) = 0 := by simp [perp2, sub2]
    have e3 : dot2 (sub2 ⟨3, 0⟩ ⟨0, 0⟩) (sub2 ⟨2, 0⟩ ⟨0, 0⟩) * (1 / dot2 (sub2 ⟨2, 0⟩ ⟨0, 0⟩) (sub2 ⟨2, 0⟩ ⟨0, 0⟩)) =
        3 / 2 := by simp only [dot2, sub2]; norm_num
    have e4 : dot2 (sub2 ⟨1, 0⟩ ⟨0, 0⟩) (sub2 ⟨2, 0⟩ ⟨0, 0⟩) * (1 / dot2 (sub2 ⟨2, 0⟩ ⟨0, 0⟩) (sub2 ⟨2, 0⟩ ⟨0, 0⟩)) =
        1 / 2 := by simp only [dot2, sub2]; norm_num
    have e5 : dot2 (sub2 ⟨0, 0⟩ ⟨3, 0⟩) (sub2 ⟨1, 0⟩ ⟨3, 0⟩) * (1 / dot2 (sub2 ⟨1, 0⟩ ⟨3, 0⟩) (sub2 ⟨1, 0⟩ ⟨3, 0⟩)) =
        3 / 2 := by simp only [dot2, sub2]; norm_num
    have e6 : dot2 (sub2 ⟨2, 0⟩ ⟨3, 0⟩) (sub2 ⟨1, 0⟩ ⟨3, 0⟩) * (1 / dot2 (sub2 ⟨1, 0⟩ ⟨3, 0⟩) (sub2 ⟨1, 0⟩ ⟨3, 0⟩)) =
        1 / 2 := by simp only [dot2, sub2]; norm_num
    have c1 : clampUnit (3 / 2) = 1 := clamp_of_hi (by norm_num)
    have c2 : clampUnit (1 / 2) = 1 / 2 := clamp_of_in (by norm_num) (by norm_num)
    unfold segments2
    simp only
    rw [e1, e2, e3, e4, e5, e6, c1, c2, abs_zero, if_neg (by linarith), if_pos he, if_neg (by norm_num),
      if_neg (by rw [abs_of_neg (by norm_num)]; linarith)]
  have := (h ⟨0, 0⟩ ⟨2, 0⟩ ⟨3, 0⟩ ⟨1, 0⟩ (by simp [V2.ext_iff]) (by simp [V2.ext_iff])).2 (1, 1) (by rw [hr]; simp)
  have hx := congrArg V2.x this.2.2
  simp only [along2] at hx
  norm_num at hx

/-- Two crossing segments. -/
example : Clear2 (1 / 100) ⟨0, 0⟩ ⟨2, 2⟩ ⟨0, 2⟩ ⟨2, 0⟩ := by
  left; simp only [perp2, sub2]; norm_num [abs_of_neg]

/-- Two overlapping segments on one line. -/
example : Clear2 (1 / 100) ⟨0, 0⟩ ⟨2, 0⟩ ⟨1, 0⟩ ⟨3, 0⟩ := by
  right
  refine ⟨by simp [perp2, sub2], .inr ⟨by simp [perp2, sub2], by simp [dot2, sub2]⟩⟩

end Edyn.Geom
