import Verif.Math.Rotation
import Mathlib.Analysis.SpecialFunctions.Trigonometric.Inverse
import Mathlib.Analysis.SpecialFunctions.Trigonometric.Complex
import Mathlib.Tactic.Linarith
import Mathlib.Tactic.NormNum
import Mathlib.Tactic.Set

/-!
# Rotations with square roots and angles (C48)

The functions that need square roots or trigonometry, over the real numbers.
-/

namespace Edyn.Math

open V3 Quat

noncomputable section

/-- `normalize`, `quaternion.hpp` 133-137; the assertion is a hypothesis of the theorems. -/
def Quat.normalize (q : Quat ℝ) : Quat ℝ :=
  let l := Real.sqrt q.lengthSqr
  ⟨q.x / l, q.y / l, q.z / l, q.w / l⟩

/-- `to_quaternion`, `matrix3x3.hpp` 268-293: the three choices of the index `i` written out. -/
def M3.toQuat (m : M3 ℝ) : Quat ℝ :=
  let trace := m.r0.x + m.r1.y + m.r2.z
  if trace > 0 then
    let s := Real.sqrt (trace + 1)
    let t := (1 / 2) / s
    ⟨t * (m.r2.y - m.r1.z), t * (m.r0.z - m.r2.x), t * (m.r1.x - m.r0.y), (1 / 2) * s⟩
  else
    let i := if m.r0.x < m.r1.y then (if m.r1.y < m.r2.z then 2 else 1)
      else (if m.r0.x < m.r2.z then 2 else 0)
    if i = 0 then
      let s := Real.sqrt (m.r0.x - m.r1.y - m.r2.z + 1)
      let t := (1 / 2) / s
      ⟨(1 / 2) * s, t * (m.r1.x + m.r0.y), t * (m.r2.x + m.r0.z), t * (m.r2.y - m.r1.z)⟩
    else if i = 1 then
      let s := Real.sqrt (m.r1.y - m.r2.z - m.r0.x + 1)
      let t := (1 / 2) / s
      ⟨t * (m.r0.y + m.r1.x), (1 / 2) * s, t * (m.r2.y + m.r1.z), t * (m.r0.z - m.r2.x)⟩
    else
      let s := Real.sqrt (m.r2.z - m.r0.x - m.r1.y + 1)
      let t := (1 / 2) / s
      ⟨t * (m.r0.z + m.r2.x), t * (m.r1.z + m.r2.y), (1 / 2) * s, t * (m.r1.x - m.r0.y)⟩

theorem normalize_length (q : Quat ℝ) (h : 0 < q.lengthSqr) : q.normalize.lengthSqr = 1 := by
  have hs : Real.sqrt q.lengthSqr * Real.sqrt q.lengthSqr = q.lengthSqr := Real.mul_self_sqrt h.le
  have hp : 0 < Real.sqrt q.lengthSqr := Real.sqrt_pos.2 h
  have : q.normalize.lengthSqr =
      q.lengthSqr / (Real.sqrt q.lengthSqr * Real.sqrt q.lengthSqr) := by
    simp only [Quat.normalize, Quat.lengthSqr]
    field_simp
  rw [this, hs, div_self h.ne']

/-- The two signs of a quaternion. -/
def SameUpToSign (p q : Quat ℝ) : Prop := p = q ∨ p = ⟨-q.x, -q.y, -q.z, -q.w⟩

theorem sameUpToSign_of {p q : Quat ℝ} (e : ℝ) (he : e = 1 ∨ e = -1) (hx : p.x = q.x * e)
    (hy : p.y = q.y * e) (hz : p.z = q.z * e) (hw : p.w = q.w * e) : SameUpToSign p q := by
  rcases he with rfl | rfl
  · left; ext <;> simp [hx, hy, hz, hw]
  · right; ext <;> simp [hx, hy, hz, hw]

/-- `to_quaternion` recovers a unit quaternion from its matrix, up to the sign, which does not matter
for the rotation. -/
theorem toQuat_ofQuat (q : Quat ℝ) (h : q.lengthSqr = 1) :
    SameUpToSign (M3.toQuat (M3.ofQuat q)) q := by
  obtain ⟨x, y, z, w⟩ := q
  have h' : x * x + y * y + z * z + w * w = 1 := h
  have e0 : ∀ a b : ℝ, b = 4 * (a * a) → Real.sqrt b = 2 * |a| := by
    rintro a b rfl
    rw [show (4 : ℝ) * (a * a) = (2 * |a|) * (2 * |a|) by rw [mul_mul_mul_comm, abs_mul_abs_self]; ring]
    exact Real.sqrt_mul_self (by positivity)
  have sg : ∀ a : ℝ, a ≠ 0 → a / |a| = 1 ∨ a / |a| = -1 := by
    intro a ha
    rcases lt_or_gt_of_ne ha with hn | hp
    · right; rw [abs_of_neg hn]; field_simp
    · left; rw [abs_of_pos hp]; field_simp
  have f1 : ∀ a : ℝ, a ≠ 0 → (1 / 2) * (2 * |a|) = a * (a / |a|) := by
    intro a ha
    have : |a| ≠ 0 := abs_ne_zero.2 ha
    field_simp
    rw [sq_abs]
  have f2 : ∀ a b c : ℝ, a ≠ 0 → c = 4 * (a * b) → (1 / 2) / (2 * |a|) * c = b * (a / |a|) := by
    rintro a b c ha rfl
    have : |a| ≠ 0 := abs_ne_zero.2 ha
    field_simp
    ring
  simp only [M3.ofQuat, h, div_one]
  unfold M3.toQuat
  dsimp only
  split
  · rename_i ht
    have hw : w ≠ 0 := by
      rintro rfl
      nlinarith
    rw [e0 w _ (by linear_combination (-4) * h')]
    exact sameUpToSign_of _ (sg w hw) (f2 w x _ hw (by ring)) (f2 w y _ hw (by ring))
      (f2 w z _ hw (by ring)) (f1 w hw)
  · rename_i ht
    have hw4 : 4 * (w * w) ≤ 1 := by nlinarith
    by_cases c1 : 1 - (y * (y * 2) + z * (z * 2)) < 1 - (x * (x * 2) + z * (z * 2))
    · by_cases c2 : 1 - (x * (x * 2) + z * (z * 2)) < 1 - (x * (x * 2) + y * (y * 2))
      · rw [if_pos c1, if_pos c2, if_neg (by decide), if_neg (by decide)]
        have hz : z ≠ 0 := by
          rintro rfl
          nlinarith [mul_self_nonneg x, mul_self_nonneg y]
        rw [e0 z _ (by linear_combination 0 * h')]
        exact sameUpToSign_of _ (sg z hz) (f2 z x _ hz (by ring)) (f2 z y _ hz (by ring)) (f1 z hz)
          (f2 z w _ hz (by ring))
      · rw [if_pos c1, if_neg c2, if_neg (by decide), if_pos rfl]
        have hy : y ≠ 0 := by
          rintro rfl
          nlinarith [mul_self_nonneg x, mul_self_nonneg z]
        rw [e0 y _ (by linear_combination 0 * h')]
        exact sameUpToSign_of _ (sg y hy) (f2 y x _ hy (by ring)) (f1 y hy) (f2 y z _ hy (by ring))
          (f2 y w _ hy (by ring))
    · by_cases c3 : 1 - (y * (y * 2) + z * (z * 2)) < 1 - (x * (x * 2) + y * (y * 2))
      · rw [if_neg c1, if_pos c3, if_neg (by decide), if_neg (by decide)]
        have hz : z ≠ 0 := by
          rintro rfl
          nlinarith [mul_self_nonneg x, mul_self_nonneg y]
        rw [e0 z _ (by linear_combination 0 * h')]
        exact sameUpToSign_of _ (sg z hz) (f2 z x _ hz (by ring)) (f2 z y _ hz (by ring)) (f1 z hz)
          (f2 z w _ hz (by ring))
      · rw [if_neg c1, if_neg c3, if_pos rfl]
        have hx : x ≠ 0 := by
          rintro rfl
          nlinarith [mul_self_nonneg y, mul_self_nonneg z]
        rw [e0 x _ (by linear_combination 0 * h')]
        exact sameUpToSign_of _ (sg x hx) (f1 x hx) (f2 x y _ hx (by ring)) (f2 x z _ hx (by ring))
          (f2 x w _ hx (by ring))

/-- `plane_space`, `src/edyn/math/geom.cpp` 730-754: the vectors `p` and `q`. -/
def planeSpace (n : V3 ℝ) : V3 ℝ × V3 ℝ :=
  if |n.z| > Real.sqrt 2 / 2 then
    let a := n.y * n.y + n.z * n.z
    let k := 1 / Real.sqrt a
    let p : V3 ℝ := ⟨0, -n.z * k, n.y * k⟩
    (p, ⟨a * k, -n.x * p.z, n.x * p.y⟩)
  else
    let a := n.x * n.x + n.y * n.y
    let k := 1 / Real.sqrt a
    let p : V3 ℝ := ⟨-n.y * k, n.x * k, 0⟩
    (p, ⟨-n.z * p.y, n.z * p.x, a * k⟩)

/-- The tangents made for a contact normal form a right-handed orthonormal frame with it. -/
theorem planeSpace_orthonormal (n : V3 ℝ) (h : V3.lengthSqr n = 1) :
    let p := (planeSpace n).1
    let q := (planeSpace n).2
    V3.lengthSqr p = 1 ∧ V3.lengthSqr q = 1 ∧ dot n p = 0 ∧ dot n q = 0 ∧ dot p q = 0 ∧ q = cross n p := by
  obtain ⟨x, y, z⟩ := n
  have h' : x * x + y * y + z * z = 1 := h
  have h2 : (Real.sqrt 2 / 2) * (Real.sqrt 2 / 2) = 1 / 2 := by
    rw [div_mul_div_comm, Real.mul_self_sqrt (by norm_num)]; norm_num
  unfold planeSpace
  dsimp only
  split
  · rename_i hz
    have ha : 0 < y * y + z * z := by
      have : 1 / 2 < z * z := by
        rw [← abs_mul_abs_self z, ← h2]
        exact mul_self_lt_mul_self (by positivity) hz
      nlinarith [mul_self_nonneg y]
    have hk : (y * y + z * z) * (1 / Real.sqrt (y * y + z * z)) * (1 / Real.sqrt (y * y + z * z)) = 1 := by
      rw [mul_assoc, div_mul_div_comm, Real.mul_self_sqrt ha.le, one_mul, mul_one_div, div_self ha.ne']
    generalize 1 / Real.sqrt (y * y + z * z) = k at hk
    refine ⟨?_, ?_, ?_, ?_, ?_, ?_⟩
    · vsimp; linear_combination hk
    · vsimp; linear_combination (x * x + y * y + z * z) * hk + h'
    · vsimp; ring
    · vsimp; ring
    · vsimp; ring
    · ext <;> vsimp <;> ring
  · rename_i hz
    have ha : 0 < x * x + y * y := by
      have : z * z ≤ 1 / 2 := by
        rw [← abs_mul_abs_self z, ← h2]
        exact mul_self_le_mul_self (abs_nonneg z) (not_lt.1 hz)
      nlinarith
    have hk : (x * x + y * y) * (1 / Real.sqrt (x * x + y * y)) * (1 / Real.sqrt (x * x + y * y)) = 1 := by
      rw [mul_assoc, div_mul_div_comm, Real.mul_self_sqrt ha.le, one_mul, mul_one_div, div_self ha.ne']
    generalize 1 / Real.sqrt (x * x + y * y) = k at hk
    refine ⟨?_, ?_, ?_, ?_, ?_, ?_⟩
    · vsimp; linear_combination hk
    · vsimp; linear_combination (x * x + y * y + z * z) * hk + h'
    · vsimp; ring
    · vsimp; ring
    · vsimp; ring
    · ext <;> vsimp <;> ring

/-- `shortest_arc`, `src/edyn/math/quaternion.cpp` 25-38. -/
def shortestArc (eps : ℝ) (v0 v1 : V3 ℝ) : Quat ℝ :=
  let c := cross v0 v1
  let d := dot v0 v1
  if d ≤ -1 + eps then
    let n := (planeSpace v0).1
    ⟨n.x, n.y, n.z, 0⟩
  else
    let s := Real.sqrt ((1 + d) * 2)
    let rs := 1 / s
    Quat.normalize ⟨c.x * rs, c.y * rs, c.z * rs, s * (1 / 2)⟩

/-- `shortest_arc` is a rotation that takes the first direction to the second one, unless they are
opposite up to the tolerance; then it takes the first direction to its opposite. -/
theorem shortestArc_rotates (eps : ℝ) (he : 0 ≤ eps) (v0 v1 : V3 ℝ) (h0 : V3.lengthSqr v0 = 1)
    (h1 : V3.lengthSqr v1 = 1) :
    (shortestArc eps v0 v1).lengthSqr = 1 ∧
    rotate (shortestArc eps v0 v1) v0 = if dot v0 v1 ≤ -1 + eps then -v0 else v1 := by
  unfold shortestArc
  dsimp only
  split
  · obtain ⟨a, -, b, -⟩ := planeSpace_orthonormal v0 h0
    generalize (planeSpace v0).1 = n at a b
    obtain ⟨x, y, z⟩ := v0
    obtain ⟨n1, n2, n3⟩ := n
    refine ⟨by vsimp; linear_combination a, ?_⟩
    ext <;> vsimp
    · linear_combination (-2 * x) * a + 2 * n1 * b
    · linear_combination (-2 * y) * a + 2 * n2 * b
    · linear_combination (-2 * z) * a + 2 * n3 * b
  · rename_i hd
    have hpos : 0 < (1 + dot v0 v1) * 2 := by linarith
    have hs : Real.sqrt ((1 + dot v0 v1) * 2) * Real.sqrt ((1 + dot v0 v1) * 2) = (1 + dot v0 v1) * 2 :=
      Real.mul_self_sqrt hpos.le
    have hsp : 0 < Real.sqrt ((1 + dot v0 v1) * 2) := Real.sqrt_pos.2 hpos
    generalize Real.sqrt ((1 + dot v0 v1) * 2) = s at hs hsp
    have hr : (1 / s) * s = 1 := by field_simp
    generalize 1 / s = r at hr
    have lag : V3.lengthSqr (cross v0 v1) = 1 - dot v0 v1 * dot v0 v1 := by
      have : V3.lengthSqr (cross v0 v1) = V3.lengthSqr v0 * V3.lengthSqr v1 - dot v0 v1 * dot v0 v1 := by
        vsimp; ring
      rw [this, h0, h1]; ring
    have hl : Quat.lengthSqr (⟨(cross v0 v1).x * r, (cross v0 v1).y * r, (cross v0 v1).z * r, s * (1 / 2)⟩ : Quat ℝ) = 1 := by
      have e1 : Quat.lengthSqr (⟨(cross v0 v1).x * r, (cross v0 v1).y * r, (cross v0 v1).z * r, s * (1 / 2)⟩ : Quat ℝ)
          = V3.lengthSqr (cross v0 v1) * (r * r) + s * s / 4 := by
        simp only [Quat.lengthSqr, V3.lengthSqr, V3.dot]; ring
      rw [e1, lag, hs]
      have hr2 : (r * r) * ((1 + dot v0 v1) * 2) = 1 := by rw [← hs]; linear_combination (r * s + 1) * hr
      linear_combination (1 - dot v0 v1) / 2 * hr2
    have hn : Quat.normalize ⟨(cross v0 v1).x * r, (cross v0 v1).y * r, (cross v0 v1).z * r, s * (1 / 2)⟩ =
        ⟨(cross v0 v1).x * r, (cross v0 v1).y * r, (cross v0 v1).z * r, s * (1 / 2)⟩ := by
      simp only [Quat.normalize, hl, Real.sqrt_one, div_one]
    rw [hn]
    refine ⟨hl, ?_⟩
    have hr2 : (r * r) * ((1 + dot v0 v1) * 2) = 1 := by rw [← hs]; linear_combination (r * s + 1) * hr
    have c1 : cross (cross v0 v1) v0 = v1 - smul (dot v0 v1) v0 := by
      have : cross (cross v0 v1) v0 = smul (V3.lengthSqr v0) v1 - smul (dot v0 v1) v0 := by
        ext <;> vsimp <;> ring
      rw [this, h0]
      ext <;> simp
    have c2 : cross (cross v0 v1) (cross (cross v0 v1) v0) = smul (dot v0 v1 * dot v0 v1 - 1) v0 := by
      have : cross (cross v0 v1) v1 = smul (dot v0 v1) v1 - v0 := by
        have : cross (cross v0 v1) v1 = smul (dot v0 v1) v1 - smul (V3.lengthSqr v1) v0 := by
          ext <;> vsimp <;> ring
        rw [this, h1]
        ext <;> simp
      have e : cross (cross v0 v1) (v1 - smul (dot v0 v1) v0) =
          cross (cross v0 v1) v1 - smul (dot v0 v1) (cross (cross v0 v1) v0) := by
        ext <;> simp only [sub_x, sub_y, sub_z, smul_x, smul_y, smul_z, cross_x, cross_y, cross_z] <;> ring
      rw [c1, e, this, c1]
      ext <;> simp only [sub_x, sub_y, sub_z, smul_x, smul_y, smul_z] <;> ring
    have e : ∀ C : V3 ℝ, rotate ⟨C.x * r, C.y * r, C.z * r, s * (1 / 2)⟩ v0 =
        v0 + (smul (2 * (r * r)) (cross C (cross C v0)) + smul (r * s) (cross C v0)) := by
      intro C
      ext <;> vsimp <;> ring
    rw [e, c2, c1]
    have hr3 : r * s = 1 := hr
    ext <;> simp only [add_x, add_y, add_z, sub_x, sub_y, sub_z, smul_x, smul_y, smul_z]
    · linear_combination (dot v0 v1 - 1) * v0.x * hr2 + (v1.x - dot v0 v1 * v0.x) * hr3
    · linear_combination (dot v0 v1 - 1) * v0.y * hr2 + (v1.y - dot v0 v1 * v0.y) * hr3
    · linear_combination (dot v0 v1 - 1) * v0.z * hr2 + (v1.z - dot v0 v1 * v0.z) * hr3

/-- `inverse_matrix`, `matrix3x3.hpp` 178-187. -/
def M3.inverse (eps : ℝ) (m : M3 ℝ) : M3 ℝ :=
  let d := m.det
  let dinv := if |d| > eps then 1 / d else 0
  m.adjugate.scale dinv

/-- `inverse_matrix` inverts, or is zero if the determinant is within the tolerance. -/
theorem inverse_spec (eps : ℝ) (he : 0 ≤ eps) (m : M3 ℝ) :
    if |m.det| > eps then m * m.inverse eps = 1 ∧ m.inverse eps * m = 1
    else m.inverse eps = ⟨0, 0, 0⟩ := by
  split
  · rename_i h
    have hd : m.det ≠ 0 := abs_pos.1 (lt_of_le_of_lt he h)
    obtain ⟨h1, h2⟩ := M3.mul_adjugate m
    have e1 : ∀ s : ℝ, m * m.adjugate.scale s = (m * m.adjugate).scale s := by
      intro s
      rw [M3.mul_def, M3.mul_def]
      ext <;> msimp <;> vsimp <;> ring
    have e2 : ∀ s : ℝ, m.adjugate.scale s * m = (m.adjugate * m).scale s := by
      intro s
      rw [M3.mul_def, M3.mul_def]
      ext <;> msimp <;> vsimp <;> ring
    have e3 : ((1 : M3 ℝ).scale m.det).scale (1 / m.det) = 1 := by
      rw [M3.one_def]
      ext <;> simp [M3.scale, hd]
    simp only [M3.inverse, if_pos h, e1, e2, h1, h2, e3, and_self]
  · rename_i h
    simp only [M3.inverse, if_neg h]
    ext <;> simp [M3.scale]

/-- `integrate`, `src/edyn/math/quaternion.cpp` 7-23. -/
def Quat.integrate (q : Quat ℝ) (w : V3 ℝ) (dt : ℝ) : Quat ℝ :=
  let ws := Real.sqrt (V3.lengthSqr w)
  let t := if ws < 1 / 1000 then (1 / 2) * dt - dt * dt * dt * (1 / 48) * ws * ws
    else Real.sin ((1 / 2) * ws * dt) / ws
  let r : Quat ℝ := ⟨w.x * t, w.y * t, w.z * t, Real.cos ((1 / 2) * ws * dt)⟩
  Quat.normalize (r * q)

theorem lengthSqr_nonneg (v : V3 ℝ) : 0 ≤ V3.lengthSqr v := by
  simp only [V3.lengthSqr, V3.dot]
  nlinarith [mul_self_nonneg v.x, mul_self_nonneg v.y, mul_self_nonneg v.z]

theorem Quat.lengthSqr_nonneg (q : Quat ℝ) : 0 ≤ q.lengthSqr := by
  simp only [Quat.lengthSqr]
  nlinarith [mul_self_nonneg q.x, mul_self_nonneg q.y, mul_self_nonneg q.z, mul_self_nonneg q.w]

theorem normalize_unit (q : Quat ℝ) (h : q.lengthSqr = 1) : q.normalize = q := by
  simp only [Quat.normalize, h, Real.sqrt_one, div_one]

/-- Integration keeps orientations normalized, for the angular velocities at which the exact formula is
used. -/
theorem integrate_unit (q : Quat ℝ) (hq : q.lengthSqr = 1) (w : V3 ℝ) (dt : ℝ)
    (hw : 1 / 1000 ≤ Real.sqrt (V3.lengthSqr w)) : (q.integrate w dt).lengthSqr = 1 := by
  have hs : Real.sqrt (V3.lengthSqr w) * Real.sqrt (V3.lengthSqr w) = V3.lengthSqr w :=
    Real.mul_self_sqrt (lengthSqr_nonneg w)
  simp only [Quat.integrate, if_neg (not_lt.2 hw)]
  apply normalize_length
  rw [lengthSqr_mul, hq, mul_one]
  generalize Real.sqrt (V3.lengthSqr w) = s at hs hw
  have hs0 : s ≠ 0 := by intro h; rw [h] at hw; norm_num at hw
  have : Quat.lengthSqr (⟨w.x * (Real.sin (1 / 2 * s * dt) / s), w.y * (Real.sin (1 / 2 * s * dt) / s),
      w.z * (Real.sin (1 / 2 * s * dt) / s), Real.cos (1 / 2 * s * dt)⟩ : Quat ℝ) =
      V3.lengthSqr w * (Real.sin (1 / 2 * s * dt) / s * (Real.sin (1 / 2 * s * dt) / s)) +
        Real.cos (1 / 2 * s * dt) * Real.cos (1 / 2 * s * dt) := by
    simp only [Quat.lengthSqr, V3.lengthSqr, V3.dot]; ring
  rw [this, ← hs]
  have h1 : s * s * (Real.sin (1 / 2 * s * dt) / s * (Real.sin (1 / 2 * s * dt) / s)) =
      Real.sin (1 / 2 * s * dt) * Real.sin (1 / 2 * s * dt) := by field_simp
  rw [h1]
  have := Real.sin_sq_add_cos_sq (1 / 2 * s * dt)
  nlinarith

/-- Integration keeps orientations normalized, for every angular velocity and time step. -/
theorem integrate_always_unit (q : Quat ℝ) (hq : q.lengthSqr = 1) (w : V3 ℝ) (dt : ℝ) :
    (q.integrate w dt).lengthSqr = 1 := by
  rcases le_or_gt (1 / 1000) (Real.sqrt (V3.lengthSqr w)) with hw | hw
  · exact integrate_unit q hq w dt hw
  · have hs : Real.sqrt (V3.lengthSqr w) * Real.sqrt (V3.lengthSqr w) = V3.lengthSqr w :=
      Real.mul_self_sqrt (lengthSqr_nonneg w)
    simp only [Quat.integrate, if_pos hw]
    apply normalize_length
    rw [lengthSqr_mul, hq, mul_one]
    generalize Real.sqrt (V3.lengthSqr w) = s at hs hw
    set t := 1 / 2 * dt - dt * dt * dt * (1 / 48) * s * s with ht
    have hlen : Quat.lengthSqr (⟨w.x * t, w.y * t, w.z * t, Real.cos (1 / 2 * s * dt)⟩ : Quat ℝ) =
        (s * t) ^ 2 + Real.cos (1 / 2 * s * dt) ^ 2 := by
      have : (s * t) ^ 2 = V3.lengthSqr w * t ^ 2 := by rw [← hs]; ring
      rw [this]
      simp only [Quat.lengthSqr, V3.lengthSqr, V3.dot]; ring
    rw [hlen]
    by_contra hle
    have hc0 : Real.cos (1 / 2 * s * dt) = 0 := by
      have h1 := sq_nonneg (s * t)
      have h2 := sq_nonneg (Real.cos (1 / 2 * s * dt))
      have : Real.cos (1 / 2 * s * dt) ^ 2 = 0 := by linarith
      exact pow_eq_zero_iff (two_ne_zero) |>.mp this
    have hst : s * t = 0 := by
      have h1 := sq_nonneg (s * t)
      rw [hc0] at hle
      have : (s * t) ^ 2 = 0 := by linarith
      exact pow_eq_zero_iff (two_ne_zero) |>.mp this
    -- `x = s dt` is an odd multiple of `π` and `x (1/2 - x² / 48) = 0`
    obtain ⟨k, hk⟩ := Real.cos_eq_zero_iff.mp hc0
    have hx : s * dt = (2 * k + 1) * Real.pi := by linarith
    have hodd : (1 : ℝ) ≤ (2 * (k : ℝ) + 1) ^ 2 ∧ ((2 * (k : ℝ) + 1) ^ 2 = 1 ∨ 9 ≤ (2 * (k : ℝ) + 1) ^ 2) := by
      have hz : (1 : ℤ) ≤ (2 * k + 1) ^ 2 ∧ ((2 * k + 1) ^ 2 = 1 ∨ 9 ≤ (2 * k + 1) ^ 2) := by
        rcases lt_trichotomy k (-1) with h | h | h
        · exact ⟨by nlinarith, Or.inr (by nlinarith)⟩
        · subst h; norm_num
        · rcases eq_or_lt_of_le (show 0 ≤ k by omega) with h | h
          · subst h; norm_num
          · exact ⟨by nlinarith, Or.inr (by nlinarith)⟩
      exact_mod_cast hz
    have hpi3 := Real.two_le_pi
    have hpi4 := Real.pi_le_four
    have hne : s * dt ≠ 0 := by
      intro h0
      rw [h0] at hx
      have : (2 * (k : ℝ) + 1) = 0 := by
        rcases mul_eq_zero.mp hx.symm with h | h
        · exact h
        · linarith
      rw [this] at hodd
      norm_num at hodd
    have h24 : (s * dt) ^ 2 = 24 := by
      have : s * dt * (24 - (s * dt) ^ 2) = 0 := by
        have : s * t * 48 = s * dt * (24 - (s * dt) ^ 2) := by rw [ht]; ring
        rw [← this, hst, zero_mul]
      rcases mul_eq_zero.mp this with h | h
      · exact absurd h hne
      · linarith
    rw [hx, mul_pow] at h24
    rcases hodd.2 with h | h
    · rw [h] at h24; nlinarith
    · nlinarith

/-- At rest nothing changes. -/
theorem integrate_rest (q : Quat ℝ) (hq : q.lengthSqr = 1) (dt : ℝ) : q.integrate 0 dt = q := by
  have h0 : V3.lengthSqr (0 : V3 ℝ) = 0 := by simp [V3.lengthSqr, V3.dot]
  simp only [Quat.integrate, h0, Real.sqrt_zero]
  have : (⟨(0 : V3 ℝ).x * (if (0 : ℝ) < 1 / 1000 then 1 / 2 * dt - dt * dt * dt * (1 / 48) * 0 * 0 else
      Real.sin (1 / 2 * 0 * dt) / 0), (0 : V3 ℝ).y * (if (0 : ℝ) < 1 / 1000 then 1 / 2 * dt - dt * dt * dt * (1 / 48) * 0 * 0 else
      Real.sin (1 / 2 * 0 * dt) / 0), (0 : V3 ℝ).z * (if (0 : ℝ) < 1 / 1000 then 1 / 2 * dt - dt * dt * dt * (1 / 48) * 0 * 0 else
      Real.sin (1 / 2 * 0 * dt) / 0), Real.cos (1 / 2 * 0 * dt)⟩ : Quat ℝ) = 1 := by
    ext <;> simp
  rw [this]
  have e : (1 : Quat ℝ) * q = q := by ext <;> simp
  rw [e, normalize_unit q hq]

/-- `angle_between`, `src/edyn/math/quaternion.cpp` 40-45. -/
def angleBetween (q0 q1 : Quat ℝ) : ℝ :=
  let s := Real.sqrt (q0.lengthSqr * q1.lengthSqr)
  let d := q0.x * q1.x + q0.y * q1.y + q0.z * q1.z + q0.w * q1.w
  Real.arccos (d / s) * 2

/-- The header says that `angle_between` is the angle along the shortest path.  It is not: a
quaternion and its negation are the same rotation, but the angle between them is a full turn. -/
theorem angleBetween_not_shortest :
    (∀ v, rotate (1 : Quat ℝ) v = rotate ⟨-0, -0, -0, -1⟩ v) ∧
    angleBetween (1 : Quat ℝ) ⟨-0, -0, -0, -1⟩ = 2 * Real.pi := by
  constructor
  · intro v
    exact (rotate_neg_quat (1 : Quat ℝ) v).symm
  · simp [angleBetween, Quat.lengthSqr]
    ring

/-- `slerp`, `quaternion.hpp` 208-233. -/
def slerp (eps : ℝ) (q0 q1 : Quat ℝ) (s : ℝ) : Quat ℝ :=
  let mag := Real.sqrt (q0.lengthSqr * q1.lengthSqr)
  let prod := (q0.x * q1.x + q0.y * q1.y + q0.z * q1.z + q0.w * q1.w) / mag
  if |prod| > 1 - eps then q0 else
    let θ := Real.arccos |prod|
    let d := Real.sin θ
    let sign : ℝ := if prod < 0 then -1 else 1
    let s0 := Real.sin ((1 - s) * θ) / d
    let s1 := Real.sin (sign * s * θ) / d
    ⟨q0.x * s0 + q1.x * s1, q0.y * s0 + q1.y * s1, q0.z * s0 + q1.z * s1, q0.w * s0 + q1.w * s1⟩

/-- Interpolated orientations are orientations, the interpolation starts at the first one and, unless
the two are so close that the first one is returned, ends at the rotation of the second one. -/
theorem slerp_spec (eps : ℝ) (he : 0 < eps) (q0 q1 : Quat ℝ) (h0 : q0.lengthSqr = 1)
    (h1 : q1.lengthSqr = 1) :
    (∀ s, (slerp eps q0 q1 s).lengthSqr = 1) ∧ slerp eps q0 q1 0 = q0 ∧
    (|q0.x * q1.x + q0.y * q1.y + q0.z * q1.z + q0.w * q1.w| ≤ 1 - eps →
      SameUpToSign (slerp eps q0 q1 1) q1) := by
  have hm : Real.sqrt (q0.lengthSqr * q1.lengthSqr) = 1 := by rw [h0, h1]; simp
  have key : ∀ A B : ℝ, Real.sin A * Real.sin A + Real.sin B * Real.sin B +
      2 * Real.sin A * Real.sin B * Real.cos (A + B) = Real.sin (A + B) * Real.sin (A + B) := by
    intro A B
    rw [Real.sin_add, Real.cos_add]
    have a := Real.sin_sq_add_cos_sq A
    have b := Real.sin_sq_add_cos_sq B
    linear_combination (-(Real.sin B) ^ 2) * a + (-(Real.sin A) ^ 2) * b
  simp only [slerp, hm, div_one]
  set p := q0.x * q1.x + q0.y * q1.y + q0.z * q1.z + q0.w * q1.w with hp
  by_cases hc : |p| > 1 - eps
  · simp only [if_pos hc]
    exact ⟨fun _ => h0, trivial, fun h => absurd hc (not_lt.2 h)⟩
  · simp only [if_neg hc]
    have hlt : |p| < 1 := by linarith [not_lt.1 hc]
    have hcos : Real.cos (Real.arccos |p|) = |p| :=
      Real.cos_arccos (by linarith [abs_nonneg p]) hlt.le
    have hsin : 0 < Real.sin (Real.arccos |p|) :=
      Real.sin_pos_of_pos_of_lt_pi (Real.arccos_pos.2 hlt)
        (by
          have : Real.arccos |p| ≤ Real.pi / 2 := Real.arccos_le_pi_div_two.2 (abs_nonneg p)
          linarith [Real.pi_pos])
    generalize Real.arccos |p| = θ at hcos hsin
    obtain ⟨σ, hσ, hσ1, hσp, hσs⟩ : ∃ σ : ℝ, (if p < 0 then (-1 : ℝ) else 1) = σ ∧ σ * σ = 1 ∧ σ * p = |p| ∧
        (σ = 1 ∨ σ = -1) := by
      by_cases h : p < 0
      · exact ⟨-1, by rw [if_pos h], by norm_num, by rw [abs_of_neg h]; ring, Or.inr rfl⟩
      · exact ⟨1, by rw [if_neg h], by norm_num, by rw [abs_of_nonneg (not_lt.1 h)]; ring, Or.inl rfl⟩
    simp only [hσ]
    have hsg : ∀ s : ℝ, Real.sin (σ * s * θ) = σ * Real.sin (s * θ) := by
      intro s
      rcases hσs with rfl | rfl
      · simp
      · rw [show -1 * s * θ = -(s * θ) by ring, Real.sin_neg]; ring
    simp only [hsg]
    refine ⟨fun s => ?_, ?_, fun _ => ?_⟩
    · have k := key ((1 - s) * θ) (s * θ)
      rw [show (1 - s) * θ + s * θ = θ by ring, hcos] at k
      generalize Real.sin ((1 - s) * θ) = a at k
      generalize Real.sin (s * θ) = b at k
      generalize Real.sin θ = d at k hsin
      have e : Quat.lengthSqr (⟨q0.x * (a / d) + q1.x * (σ * b / d), q0.y * (a / d) + q1.y * (σ * b / d),
          q0.z * (a / d) + q1.z * (σ * b / d), q0.w * (a / d) + q1.w * (σ * b / d)⟩ : Quat ℝ) =
          (q0.lengthSqr * (a * a) + q1.lengthSqr * ((σ * σ) * (b * b)) + 2 * a * b * (σ * p)) / (d * d) := by
        simp only [Quat.lengthSqr, hp]
        field_simp
        ring
      rw [e, h0, h1, hσ1, hσp, one_mul, one_mul, one_mul, k]
      exact div_self (mul_pos hsin hsin).ne'
    · ext <;> simp [hsin.ne']
    · apply sameUpToSign_of σ hσs <;> simp only [] <;> simp <;> field_simp <;> exact Or.inl trivial

/-- `rotation_matrix_x`, `rotation_matrix_y`, `rotation_matrix_z` and `rotation_matrix_xyz`,
`matrix3x3.hpp` 322-368. -/
def rotX (a : ℝ) : M3 ℝ := ⟨⟨1, 0, 0⟩, ⟨0, Real.cos a, -Real.sin a⟩, ⟨0, Real.sin a, Real.cos a⟩⟩
def rotY (a : ℝ) : M3 ℝ := ⟨⟨Real.cos a, 0, Real.sin a⟩, ⟨0, 1, 0⟩, ⟨-Real.sin a, 0, Real.cos a⟩⟩
def rotZ (a : ℝ) : M3 ℝ := ⟨⟨Real.cos a, -Real.sin a, 0⟩, ⟨Real.sin a, Real.cos a, 0⟩, ⟨0, 0, 1⟩⟩
def rotXYZ (x y z : ℝ) : M3 ℝ :=
  let cx := Real.cos x
  let sx := Real.sin x
  let cy := Real.cos y
  let sy := Real.sin y
  let cz := Real.cos z
  let sz := Real.sin z
  ⟨⟨cy * cz, -cy * sz, sy⟩,
   ⟨cz * sx * sy + cx * sz, cx * cz - sx * sy * sz, -cy * sx⟩,
   ⟨-cx * cz * sy + sx * sz, cz * sx + cx * sy * sz, cx * cy⟩⟩

theorem rotXYZ_eq (x y z : ℝ) : rotXYZ x y z = rotX x * rotY y * rotZ z := by
  rw [M3.mul_def, M3.mul_def]
  ext <;> simp only [rotXYZ, rotX, rotY, rotZ] <;> msimp <;> vsimp <;> ring

/-- `quaternion_axis_angle_unit`, `quaternion.hpp` 169-173. -/
def axisAngle (v : V3 ℝ) (a : ℝ) : Quat ℝ :=
  let s := Real.sin (a * (1 / 2))
  ⟨v.x * s, v.y * s, v.z * s, Real.cos (a * (1 / 2))⟩

/-- The rotation about an axis is a rotation which leaves the axis fixed, and adding angles composes. -/
theorem axisAngle_spec (v : V3 ℝ) (hv : V3.lengthSqr v = 1) (a b : ℝ) :
    (axisAngle v a).lengthSqr = 1 ∧ rotate (axisAngle v a) v = v ∧
    axisAngle v (a + b) = axisAngle v a * axisAngle v b := by
  have h' : v.x * v.x + v.y * v.y + v.z * v.z = 1 := hv
  refine ⟨?_, ?_, ?_⟩
  · have := Real.sin_sq_add_cos_sq (a * (1 / 2))
    simp only [axisAngle, Quat.lengthSqr]
    linear_combination this + Real.sin (a * (1 / 2)) ^ 2 * h'
  · ext <;> simp only [axisAngle] <;> vsimp <;> ring
  · ext <;> simp only [axisAngle] <;> vsimp <;> rw [add_mul]
    · rw [Real.sin_add]; ring
    · rw [Real.sin_add]; ring
    · rw [Real.sin_add]; ring
    · rw [Real.cos_add]; linear_combination Real.sin (a * (1 / 2)) * Real.sin (b * (1 / 2)) * h'

/-- About the `z` axis the matrix of the quaternion is the elementary rotation matrix. -/
theorem axisAngle_z (a : ℝ) : M3.ofQuat (axisAngle ⟨0, 0, 1⟩ a) = rotZ a := by
  have hl := (axisAngle_spec ⟨0, 0, 1⟩ (by simp [V3.lengthSqr, V3.dot]) a 0).1
  have hc : Real.cos a = 1 - 2 * (Real.sin (a * (1 / 2)) * Real.sin (a * (1 / 2))) := by
    have := Real.cos_two_mul (a * (1 / 2))
    rw [show 2 * (a * (1 / 2)) = a by ring] at this
    have h2 := Real.sin_sq_add_cos_sq (a * (1 / 2))
    nlinarith
  have hs : Real.sin a = 2 * Real.sin (a * (1 / 2)) * Real.cos (a * (1 / 2)) := by
    have := Real.sin_two_mul (a * (1 / 2))
    rwa [show 2 * (a * (1 / 2)) = a by ring] at this
  simp only [M3.ofQuat, hl]
  simp only [axisAngle, rotZ, hc, hs]
  ext <;> simp only [] <;> ring

/-- A step of integration turns the body about the direction of its angular velocity by the angular
speed times the length of the step, for the angular speeds at which the exact formula is used. -/
theorem integrate_turns (q : Quat ℝ) (hq : q.lengthSqr = 1) (w : V3 ℝ) (dt : ℝ)
    (hw : 1 / 1000 ≤ Real.sqrt (V3.lengthSqr w)) :
    q.integrate w dt = axisAngle (V3.smul (1 / Real.sqrt (V3.lengthSqr w)) w)
      (Real.sqrt (V3.lengthSqr w) * dt) * q := by
  have hs : Real.sqrt (V3.lengthSqr w) * Real.sqrt (V3.lengthSqr w) = V3.lengthSqr w :=
    Real.mul_self_sqrt (lengthSqr_nonneg w)
  have hu := integrate_unit q hq w dt hw
  simp only [Quat.integrate, if_neg (not_lt.2 hw)] at hu ⊢
  generalize Real.sqrt (V3.lengthSqr w) = s at hs hw hu
  have hs0 : s ≠ 0 := by intro h; rw [h] at hw; norm_num at hw
  have e : (⟨w.x * (Real.sin (1 / 2 * s * dt) / s), w.y * (Real.sin (1 / 2 * s * dt) / s),
      w.z * (Real.sin (1 / 2 * s * dt) / s), Real.cos (1 / 2 * s * dt)⟩ : Quat ℝ) =
      axisAngle (V3.smul (1 / s) w) (s * dt) := by
    have h2 : s * dt * (1 / 2) = 1 / 2 * s * dt := by ring
    ext <;> simp only [axisAngle, V3.smul, h2]
    all_goals ring
  rw [e]
  apply normalize_unit
  rw [lengthSqr_mul, hq, mul_one]
  apply (axisAngle_spec _ _ _ 0).1
  simp only [V3.lengthSqr, V3.dot, V3.smul] at hs ⊢
  field_simp
  linear_combination -hs

/-- Interpolation turns at a constant rate: the orientation a fraction `s` of the way is at `s` times
the half angle between the two orientations, measured the short way round. -/
theorem slerp_rate (eps : ℝ) (he : 0 < eps) (q0 q1 : Quat ℝ) (h0 : q0.lengthSqr = 1)
    (h1 : q1.lengthSqr = 1)
    (hc : |q0.x * q1.x + q0.y * q1.y + q0.z * q1.z + q0.w * q1.w| ≤ 1 - eps) (s : ℝ) :
    q0.x * (slerp eps q0 q1 s).x + q0.y * (slerp eps q0 q1 s).y + q0.z * (slerp eps q0 q1 s).z +
      q0.w * (slerp eps q0 q1 s).w =
    Real.cos (s * Real.arccos |q0.x * q1.x + q0.y * q1.y + q0.z * q1.z + q0.w * q1.w|) := by
  have hm : Real.sqrt (q0.lengthSqr * q1.lengthSqr) = 1 := by rw [h0, h1]; simp
  simp only [slerp, hm, div_one]
  set p := q0.x * q1.x + q0.y * q1.y + q0.z * q1.z + q0.w * q1.w with hp
  simp only [if_neg (not_lt.2 hc)]
  have hlt : |p| < 1 := by linarith
  have hcos : Real.cos (Real.arccos |p|) = |p| :=
    Real.cos_arccos (by linarith [abs_nonneg p]) hlt.le
  have hsin : 0 < Real.sin (Real.arccos |p|) :=
    Real.sin_pos_of_pos_of_lt_pi (Real.arccos_pos.2 hlt)
      (by
        have : Real.arccos |p| ≤ Real.pi / 2 := Real.arccos_le_pi_div_two.2 (abs_nonneg p)
        linarith [Real.pi_pos])
  generalize Real.arccos |p| = θ at hcos hsin
  have hs1 : p * Real.sin ((if p < 0 then (-1 : ℝ) else 1) * s * θ) = |p| * Real.sin (s * θ) := by
    by_cases h : p < 0
    · rw [if_pos h, abs_of_neg h, show -1 * s * θ = -(s * θ) by ring, Real.sin_neg]; ring
    · rw [if_neg h, abs_of_nonneg (not_lt.1 h), one_mul]
  have hk : Real.sin ((1 - s) * θ) + Real.cos θ * Real.sin (s * θ) = Real.sin θ * Real.cos (s * θ) := by
    rw [show (1 - s) * θ = θ - s * θ by ring, Real.sin_sub]; ring
  rw [hcos, ← hs1] at hk
  generalize Real.sin ((if p < 0 then (-1 : ℝ) else 1) * s * θ) = b at hk
  generalize Real.sin ((1 - s) * θ) = a at hk
  generalize Real.sin θ = d at hk hsin
  have hd := hsin.ne'
  have h0' : q0.x * q0.x + q0.y * q0.y + q0.z * q0.z + q0.w * q0.w = 1 := h0
  have : q0.x * (q0.x * (a / d) + q1.x * (b / d)) + q0.y * (q0.y * (a / d) + q1.y * (b / d)) +
      q0.z * (q0.z * (a / d) + q1.z * (b / d)) + q0.w * (q0.w * (a / d) + q1.w * (b / d)) =
      (a + p * b) / d := by
    rw [hp]; field_simp; linear_combination a * h0'
  rw [this, hk]
  field_simp

example : |(0 : ℝ) * 1 + 0 * 0 + 0 * 0 + 1 * 0| ≤ 1 - 1 / 2 := by norm_num

example : Quat.lengthSqr (⟨3 / 5, 0, 0, 4 / 5⟩ : Quat ℝ) = 1 := by
  simp only [Quat.lengthSqr]; norm_num

example : V3.lengthSqr (⟨3 / 5, 0, 4 / 5⟩ : V3 ℝ) = 1 := by
  simp only [V3.lengthSqr, V3.dot]; norm_num

end

end Edyn.Math
