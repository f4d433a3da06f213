import Verif.Collide.Spec
import Verif.Geom.ClosestMore

/-!
# Contact points of spheres with spheres, planes and boxes (C71)

`src/edyn/collision/collide/collide_sphere_sphere.cpp`, `collide_sphere_plane.cpp`,
`collide_sphere_box.cpp`, over exact reals.  `eps` is `EDYN_EPSILON`.
-/

namespace Edyn.Collide

open Edyn.Math hiding lengthSqr_nonneg
open V3 Edyn.Geom Edyn.Contact

/-- A contact point without features. -/
def plain (pA pB n : V3 ℝ) (dist : ℝ) (att : Att) : Point := ⟨pA, pB, n, dist, att, none, none⟩

/-! ## Two spheres -/

/-- `collide` of two spheres, `collide_sphere_sphere.cpp` 5-27. -/
noncomputable def sphereSphere (eps rA rB : ℝ) (c : Ctx) : Res :=
  let d := c.posA - c.posB
  let distSqr := lengthSqr d
  let r := rA + rB + c.thr
  if r * r < distSqr then some [] else
  let dist := Real.sqrt distSqr
  let dn := if eps < dist then smul (1 / dist) d else ex
  let pA := Quat.rotate c.ornA.conjugate (smul rA (-dn))
  let pB := Quat.rotate c.ornB.conjugate (smul rB dn)
  some [plain pA pB dn (dist - rA - rB) .none]

/-- The full statement for two spheres. -/
def SphereSphereFull (eps : ℝ) : Prop :=
  ∀ (rA rB : ℝ) (c : Ctx), 0 < rA → 0 < rB → c.Ok →
    Right (Placed (ballSet rA) c.posA c.ornA) (Placed (ballSet rB) c.posB c.ornB) c (sphereSphere eps rA rB c)

theorem points_closest (p q : V3 ℝ) : ClosestPair (pointSet p) (pointSet q) p q :=
  ⟨rfl, rfl, by rintro _ _ rfl rfl; exact le_rfl⟩

theorem point_extreme (p n : V3 ℝ) : Extreme (pointSet p) n p := ⟨rfl, by rintro _ rfl; exact le_rfl⟩

theorem neg_smul_swap (r : ℝ) (n : V3 ℝ) : smul r (-n) = -smul r n := by ext <;> simp

/-- The world pivots of a point whose pivots were rotated into the bodies. -/
theorem world_rotated (pos v : V3 ℝ) {orn : Quat ℝ} (ho : orn.lengthSqr = 1) :
    toWorldSpace (Quat.rotate orn.conjugate v) pos orn = pos + v := by
  unfold toWorldSpace
  rw [(rotate_conjugate orn ho _).2]

/-- **C71, two spheres, partial.** The result is right if the centres coincide or are further apart than
the tolerance.  Missing: centres which are closer than the tolerance and do not coincide, see
`sphere_sphere_refuted` and `sphere_sphere_always`. -/
theorem sphere_sphere_partial (eps rA rB : ℝ) (he : 0 ≤ eps) (c : Ctx) (ra : 0 < rA) (rb : 0 < rB) (hc : c.Ok)
    (h : c.posA = c.posB ∨ eps * eps < lengthSqr (c.posA - c.posB)) :
    Right (Placed (ballSet rA) c.posA c.ornA) (Placed (ballSet rB) c.posB c.ornB) c
      (sphereSphere eps rA rB c) := by
  obtain ⟨oA, oB, ht⟩ := hc
  rw [ball_inflate rA c.posA oA, ball_inflate rB c.posB oB]
  have hn := inflate_near (points_closest c.posA c.posB) ra.le rb.le ht
  unfold sphereSphere
  simp only
  by_cases hfar : (rA + rB + c.thr) * (rA + rB + c.thr) < lengthSqr (c.posA - c.posB)
  · rw [if_pos hfar]
    exact ⟨[], rfl, by rw [hn]; simp [hfar], by simp⟩
  · rw [if_neg hfar]
    refine ⟨_, rfl, by rw [hn]; simpa using hfar, ?_⟩
    simp only [List.mem_singleton, forall_eq]
    have hs := Real.mul_self_sqrt (lengthSqr_nonneg (c.posA - c.posB))
    have hs0 := Real.sqrt_nonneg (lengthSqr (c.posA - c.posB))
    set dist := Real.sqrt (lengthSqr (c.posA - c.posB)) with hd
    have wA : ∀ n, toWorldSpace (Quat.rotate c.ornA.conjugate (smul rA (-n))) c.posA c.ornA = c.posA - smul rA n := by
      intro n; rw [world_rotated _ _ oA]; ext <;> simp <;> ring
    have wB : ∀ n, toWorldSpace (Quat.rotate c.ornB.conjugate (smul rB n)) c.posB c.ornB = c.posB + smul rB n :=
      fun n => world_rotated _ _ oB
    by_cases hb : eps < dist
    · rw [if_pos hb]
      obtain ⟨g1, g2, g3, g4⟩ := inflate_good (point_convex c.posA) (point_convex c.posB)
        (points_closest c.posA c.posB) ra.le rb.le (lt_of_le_of_lt he hb) hs
      exact ⟨g1, by simp only [Ctx.wA, plain, wA]; exact g2, by simp only [Ctx.wB, plain, wB]; exact g3,
        by simp only [Ctx.wA, Ctx.wB, plain, wA, wB]; exact g4⟩
    · rw [if_neg hb]
      have heq : c.posA = c.posB := by
        rcases h with h | h
        · exact h
        · exact absurd (by nlinarith) hb
      have hd0 : dist = 0 := by
        rw [hd, heq]; simp [lengthSqr, dot]
      refine ⟨ex_unit, ?_, ?_, ?_⟩
      · simp only [Ctx.wA, plain, wA]
        have := inflate_extreme ra.le (neg_unit ex_unit) (point_extreme c.posA (-ex))
        rw [neg_smul_swap] at this
        rw [show c.posA - smul rA ex = c.posA + -smul rA ex by ext <;> simp <;> ring]
        exact this
      · simp only [Ctx.wB, plain, wB]
        exact inflate_extreme rb.le ex_unit (point_extreme c.posB ex)
      · simp only [Ctx.wA, Ctx.wB, plain, wA, wB, hd0]
        rw [heq]
        ext <;> simp <;> ring

/-- Whatever the centres are, a point is reported exactly when the spheres are within the threshold, the
normal is a unit vector, and the pivots are the extreme points of the spheres along it. -/
theorem sphere_sphere_always (eps rA rB : ℝ) (c : Ctx) (he : 0 ≤ eps) (ra : 0 < rA) (rb : 0 < rB) (hc : c.Ok) :
    ∃ l, sphereSphere eps rA rB c = some l ∧
      (l ≠ [] ↔ Near (Placed (ballSet rA) c.posA c.ornA) (Placed (ballSet rB) c.posB c.ornB) c.thr) ∧
      ∀ p ∈ l, lengthSqr p.n = 1 ∧ Extreme (Placed (ballSet rA) c.posA c.ornA) (-p.n) (c.wA p) ∧
        Extreme (Placed (ballSet rB) c.posB c.ornB) p.n (c.wB p) ∧
        |p.dist - dot (c.wA p - c.wB p) p.n| ≤ 2 * eps := by
  by_cases h : c.posA = c.posB ∨ eps * eps < lengthSqr (c.posA - c.posB)
  · obtain ⟨l, h1, h2, h3⟩ := sphere_sphere_partial eps rA rB he c ra rb hc h
    refine ⟨l, h1, h2, fun p hp => ⟨(h3 p hp).unit, (h3 p hp).onA, (h3 p hp).onB, ?_⟩⟩
    rw [← (h3 p hp).facts.2.2.1, sub_self, abs_zero]; linarith
  · push Not at h
    obtain ⟨_, hle⟩ := h
    obtain ⟨oA, oB, ht⟩ := hc
    rw [ball_inflate rA c.posA oA, ball_inflate rB c.posB oB]
    have hn := inflate_near (points_closest c.posA c.posB) ra.le rb.le ht
    unfold sphereSphere
    simp only
    by_cases hfar : (rA + rB + c.thr) * (rA + rB + c.thr) < lengthSqr (c.posA - c.posB)
    · rw [if_pos hfar]
      exact ⟨[], rfl, by rw [hn]; simp [hfar], by simp⟩
    · rw [if_neg hfar]
      have hs := Real.mul_self_sqrt (lengthSqr_nonneg (c.posA - c.posB))
      have hs0 := Real.sqrt_nonneg (lengthSqr (c.posA - c.posB))
      set dist := Real.sqrt (lengthSqr (c.posA - c.posB)) with hd
      have hde : dist ≤ eps := by nlinarith
      rw [if_neg (not_lt.mpr hde)]
      refine ⟨_, rfl, by rw [hn]; simpa using hfar, ?_⟩
      simp only [List.mem_singleton, forall_eq]
      have wA : toWorldSpace (Quat.rotate c.ornA.conjugate (smul rA (-ex))) c.posA c.ornA = c.posA - smul rA ex := by
        rw [world_rotated _ _ oA]; ext <;> simp <;> ring
      have wB : toWorldSpace (Quat.rotate c.ornB.conjugate (smul rB ex)) c.posB c.ornB = c.posB + smul rB ex :=
        world_rotated _ _ oB
      refine ⟨ex_unit, ?_, ?_, ?_⟩
      · simp only [Ctx.wA, plain, wA]
        have := inflate_extreme ra.le (neg_unit ex_unit) (point_extreme c.posA (-ex))
        rw [neg_smul_swap] at this
        rw [show c.posA - smul rA ex = c.posA + -smul rA ex by ext <;> simp <;> ring]
        exact this
      · simp only [Ctx.wB, plain, wB]
        exact inflate_extreme rb.le ex_unit (point_extreme c.posB ex)
      · simp only [Ctx.wA, Ctx.wB, plain, wA, wB]
        have e : dot (c.posA - smul rA ex - (c.posB + smul rB ex)) ex = dot (c.posA - c.posB) ex - rA - rB := by
          simp [dot, ex]; ring
        rw [e]
        have := dot_le_of_unit he hle ex_unit
        rw [abs_le]; constructor <;> linarith

/-- Two spheres whose centres are half the tolerance apart, one above the other: the normal is
horizontal. -/
theorem sphere_sphere_refuted (eps : ℝ) (he : 0 < eps) : ¬ SphereSphereFull eps := by
  intro hf
  obtain ⟨l, h1, _, h3⟩ := hf 1 1 ⟨⟨0, eps / 2, 0⟩, ⟨0, 0, 0, 1⟩, ⟨0, 0, 0⟩, ⟨0, 0, 0, 1⟩, eps⟩ one_pos one_pos
    ⟨quat_one_unit, quat_one_unit, he.le⟩
  unfold sphereSphere at h1
  have hl : lengthSqr ((⟨0, eps / 2, 0⟩ : V3 ℝ) - ⟨0, 0, 0⟩) = (eps / 2) * (eps / 2) := by
    simp [lengthSqr, dot]
  simp only [hl, Real.sqrt_mul_self (by linarith : 0 ≤ eps / 2)] at h1
  rw [if_neg (by nlinarith), if_neg (by linarith)] at h1
  simp only [Option.some.injEq] at h1
  have := h3 _ (by rw [← h1]; exact List.mem_singleton.mpr rfl)
  have hs := congrArg V3.y this.step
  simp [Ctx.wA, Ctx.wB, plain, toWorldSpace, Quat.rotate, Quat.conjugate, ex] at hs
  linarith

/-- Not vacuous: two unit spheres at distance one and a half, and at distance three. -/
example : (∃ p, sphereSphere (1 / 100) 1 1 ⟨⟨0, 3 / 2, 0⟩, 1, 0, 1, 1 / 50⟩ = some [p] ∧ p.dist = -1 / 2 ∧ p.n = ey) ∧
    sphereSphere (1 / 100) 1 1 ⟨⟨0, 3, 0⟩, 1, 0, 1, 1 / 50⟩ = some [] := by
  have h1 : lengthSqr ((⟨0, 3 / 2, 0⟩ : V3 ℝ) - 0) = (3 / 2) * (3 / 2) := by simp [lengthSqr, dot]
  have h2 : lengthSqr ((⟨0, 3, 0⟩ : V3 ℝ) - 0) = 9 := by simp [lengthSqr, dot]; norm_num
  constructor
  · unfold sphereSphere
    simp only [h1, Real.sqrt_mul_self (by norm_num : (0 : ℝ) ≤ 3 / 2)]
    rw [if_neg (by norm_num), if_pos (by norm_num)]
    refine ⟨_, rfl, by norm_num [plain], ?_⟩
    simp only [plain]
    ext <;> simp [ey]
  · unfold sphereSphere
    simp only [h2]
    rw [if_pos (by norm_num)]

/-! ## A sphere and a plane -/

/-- `collide` of a sphere and a plane, `collide_sphere_plane.cpp` 5-20.  The position and the orientation
of the plane are not read, except for the orientation in the second pivot. -/
noncomputable def spherePlane (rA : ℝ) (n : V3 ℝ) (k : ℝ) (c : Ctx) : Res :=
  let center := smul k n
  let d := c.posA - center
  let l := dot n d
  if rA < l then some [] else
  let pA := Quat.rotate c.ornA.conjugate (smul rA (-n))
  let pB := Quat.rotate c.ornB.conjugate (d - smul l n - center)
  some [plain pA pB n (l - rA) .onB]

/-- The context of a collision with a plane: the plane is at the origin and not rotated.  This is how
`make_rigidbody` leaves static bodies without a given position. -/
def Ctx.Fixed (c : Ctx) : Prop := c.Ok ∧ c.posB = 0 ∧ c.ornB = 1

/-- The full statement for a sphere and a plane. -/
def SpherePlaneFull : Prop :=
  ∀ (rA : ℝ) (n : V3 ℝ) (k : ℝ) (c : Ctx), 0 < rA → lengthSqr n = 1 → c.Fixed →
    Right (Placed (ballSet rA) c.posA c.ornA) (halfSpace n k) c (spherePlane rA n k c)

theorem one_unit : (1 : Quat ℝ).lengthSqr = 1 := quat_one_unit

/-- Whether an inflated set is within the threshold of the region below a plane is decided by its lowest
core point. -/
theorem plane_near {K : V3 ℝ → Prop} {n a : V3 ℝ} {r t k : ℝ} (hn : lengthSqr n = 1) (hr : 0 ≤ r) (ht : 0 ≤ t)
    (h : Extreme K (-n) a) :
    Near (Inflate K r) (halfSpace n k) t ↔ dot n a - k - r ≤ t := by
  constructor
  · rintro ⟨x, y, ⟨k', hk', hx⟩, hy, hxy⟩
    have h1 := h.2 k' hk'
    rw [dot_neg_right, dot_neg_right, dot_comm _ n, dot_comm _ n] at h1
    have h2 := (dot_le_of_unit hr hx hn).2
    have h3 := (dot_le_of_unit ht hxy hn).1
    rw [dot_sub_left, dot_comm _ n, dot_comm _ n] at h2 h3
    have h4 : dot n y ≤ k := hy
    linarith
  · intro hle
    have hnn : dot n n = 1 := hn
    refine ⟨a - smul r n, a - smul r n - smul (max 0 (dot n a - k - r)) n, ⟨a, h.1, ?_⟩, ?_, ?_⟩
    · rw [show lengthSqr (a - smul r n - a) = r * r * lengthSqr n by simp [lengthSqr, dot]; ring, hn, mul_one]
    · unfold halfSpace
      rw [dot_sub_right, dot_sub_right, dot_smul_right, dot_smul_right, hnn]
      have := le_max_right 0 (dot n a - k - r)
      linarith
    · generalize hm : max 0 (dot n a - k - r) = m
      have m0 : 0 ≤ m := by rw [← hm]; exact le_max_left _ _
      have m1 : m ≤ t := by rw [← hm]; exact max_le ht hle
      rw [show lengthSqr (a - smul r n - (a - smul r n - smul m n)) = m * m * lengthSqr n by
        simp [lengthSqr, dot]; ring, hn, mul_one]
      nlinarith

/-- A point of the plane is extreme for the region below it. -/
theorem plane_extreme {n w : V3 ℝ} {k : ℝ} (h : dot n w = k) : Extreme (halfSpace n k) n w := by
  refine ⟨h.le, fun v hv => ?_⟩
  rw [dot_comm v n, dot_comm w n, h]; exact hv

/-- **C71, a sphere and a plane, partial.** For a plane through the origin the reported point is good, and
it is reported exactly when the sphere touches the plane.  Missing: planes which do not go through the
origin, `sphere_plane_refuted`, and the threshold, `sphere_plane_threshold`. -/
theorem sphere_plane_partial (rA : ℝ) (n : V3 ℝ) (c : Ctx) (ra : 0 < rA) (hn : lengthSqr n = 1) (hc : c.Fixed) :
    ∃ l, spherePlane rA n 0 c = some l ∧
      (l ≠ [] ↔ Near (Placed (ballSet rA) c.posA c.ornA) (halfSpace n 0) 0) ∧
      ∀ p ∈ l, Good (Placed (ballSet rA) c.posA c.ornA) (halfSpace n 0) c p := by
  obtain ⟨⟨oA, oB, ht⟩, pB, qB⟩ := hc
  rw [ball_inflate rA c.posA oA, plane_near hn ra.le le_rfl (point_extreme c.posA (-n))]
  unfold spherePlane
  simp only
  have e0 : c.posA - smul 0 n = c.posA := by ext <;> simp
  rw [e0]
  by_cases h : rA < dot n c.posA
  · rw [if_pos h]
    refine ⟨[], rfl, ?_, by simp⟩
    simp; linarith
  · rw [if_neg h]
    refine ⟨_, rfl, ?_, ?_⟩
    · simp; linarith
    simp only [List.mem_singleton, forall_eq]
    have wA : toWorldSpace (Quat.rotate c.ornA.conjugate (smul rA (-n))) c.posA c.ornA = c.posA - smul rA n := by
      rw [world_rotated _ _ oA]; ext <;> simp <;> ring
    have wB : toWorldSpace (Quat.rotate c.ornB.conjugate (c.posA - smul (dot n c.posA) n - smul 0 n)) c.posB c.ornB =
        c.posA - smul (dot n c.posA) n := by
      rw [world_rotated _ _ oB, pB]; ext <;> simp
    refine ⟨hn, ?_, ?_, ?_⟩
    · simp only [Ctx.wA, plain, wA]
      have := inflate_extreme ra.le (neg_unit hn) (point_extreme c.posA (-n))
      rw [neg_smul_swap] at this
      rw [show c.posA - smul rA n = c.posA + -smul rA n by ext <;> simp <;> ring]
      exact this
    · simp only [Ctx.wB, plain, wB]
      apply plane_extreme
      rw [dot_sub_right, dot_smul_right, show dot n n = 1 from hn]; ring
    · simp only [Ctx.wA, Ctx.wB, plain, wA, wB]
      ext <;> simp <;> ring

/-- A unit sphere resting on the plane `y = 1`: the second pivot is at height `-1`. -/
theorem sphere_plane_pivot : spherePlane 1 ey 1 ⟨⟨0, 2, 0⟩, 1, 0, 1, 1 / 50⟩ =
    some [plain ⟨0, -1, 0⟩ ⟨0, -1, 0⟩ ey 0 .onB] := by
  unfold spherePlane
  simp only
  have : dot ey ((⟨0, 2, 0⟩ : V3 ℝ) - smul 1 ey) = 1 := by norm_num [dot, ey]
  rw [this, if_neg (by norm_num)]
  have hc : (1 : Quat ℝ).conjugate = 1 := by ext <;> simp [Quat.conjugate]
  simp only [hc, rotate_one]
  congr 2
  unfold plain
  congr 1
  · ext <;> simp [ey]
  · ext <;> norm_num [ey]
  · norm_num

theorem sphere_plane_refuted : ¬ SpherePlaneFull := by
  intro hf
  obtain ⟨l, h1, _, h3⟩ := hf 1 ey 1 ⟨⟨0, 2, 0⟩, 1, 0, 1, 1 / 50⟩ one_pos ey_unit
    ⟨⟨one_unit, one_unit, by norm_num⟩, rfl, rfl⟩
  rw [sphere_plane_pivot, Option.some.injEq] at h1
  have := h3 _ (by rw [← h1]; exact List.mem_singleton.mpr rfl)
  have hs := congrArg V3.y this.step
  simp [Ctx.wA, Ctx.wB, plain, toWorldSpace, rotate_one, ey] at hs

/-- A unit sphere a hundredth above the plane `y = 0`, with a threshold of a fiftieth: nothing is
reported. -/
theorem sphere_plane_threshold :
    let c : Ctx := ⟨⟨0, 101 / 100, 0⟩, 1, 0, 1, 1 / 50⟩
    spherePlane 1 ey 0 c = some [] ∧ Near (Placed (ballSet 1) c.posA c.ornA) (halfSpace ey 0) c.thr := by
  intro c
  have hd : dot ey (⟨0, 101 / 100, 0⟩ : V3 ℝ) = 101 / 100 := by norm_num [dot, ey]
  constructor
  · unfold spherePlane
    simp only
    rw [show c.posA - smul 0 ey = c.posA by ext <;> simp, hd, if_pos (by norm_num)]
  · rw [ball_inflate 1 c.posA one_unit, plane_near ey_unit zero_le_one (by norm_num [c]) (point_extreme c.posA (-ey)), hd]
    norm_num [c]

/-- Not vacuous: a sphere sunk into the plane. -/
example : ∃ p, spherePlane 1 ey 0 ⟨⟨3, 1 / 2, 0⟩, 1, 0, 1, 0⟩ = some [p] ∧ p.dist = -1 / 2 := by
  unfold spherePlane
  simp only
  have : dot ey ((⟨3, 1 / 2, 0⟩ : V3 ℝ) - smul 0 ey) = 1 / 2 := by norm_num [dot, ey]
  rw [this, if_neg (by norm_num)]
  exact ⟨_, rfl, by norm_num [plain]⟩

/-! ## A sphere and a box -/

/-- The attachment chosen outside of the box, `collide_sphere_box.cpp` 40-45. -/
noncomputable def axisAttachment (eps : ℝ) (n : V3 ℝ) : Att :=
  if 1 - eps < |n.x| ∨ 1 - eps < |n.y| ∨ 1 - eps < |n.z| then .onB else .none

/-- `collide` of a sphere and a box, `collide_sphere_box.cpp` 7-55. -/
noncomputable def sphereBox (eps rA : ℝ) (h : V3 ℝ) (c : Ctx) : Res :=
  let posAB := Quat.rotate c.ornB.conjugate (c.posA - c.posB)
  let ornAB := c.ornB.conjugate * c.ornA
  let closest := closestBoxOutside h posAB
  let normalB := posAB - closest
  let dSqr := lengthSqr normalB
  let minDist := rA + c.thr
  if minDist * minDist < dSqr then some [] else
  (if dSqr ≤ eps then
    (closestBoxInside h posAB).map fun m => (-m.1, m.2.1, m.2.2, Att.onB)
  else
    let cd := Real.sqrt dSqr
    let n := smul (1 / cd) normalB
    some (cd, closest, n, axisAttachment eps n)).map fun m =>
  let pAB := posAB - smul rA m.2.2.1
  [plain (toObjectSpace pAB posAB ornAB) m.2.1 (Quat.rotate c.ornB m.2.2.1) (m.1 - rA) m.2.2.2]

/-- The full statement for a sphere and a box. -/
def SphereBoxFull (eps : ℝ) : Prop :=
  ∀ (rA : ℝ) (h : V3 ℝ) (c : Ctx), 0 < rA → 0 < h.x → 0 < h.y → 0 < h.z → c.Ok →
    Right (Placed (ballSet rA) c.posA c.ornA) (Placed (boxSet h) c.posB c.ornB) c (sphereBox eps rA h c)

/-- The closest pair of a point and a box, in the world. -/
theorem box_pair {h : V3 ℝ} (hx : 0 < h.x) (hy : 0 < h.y) (hz : 0 < h.z) (q posB : V3 ℝ) {ornB : Quat ℝ}
    (oB : ornB.lengthSqr = 1) :
    ClosestPair (pointSet q) (Placed (boxSet h) posB ornB) q
        (posB + Quat.rotate ornB (closestBoxOutside h (Quat.rotate ornB.conjugate (q - posB)))) ∧
      q - (posB + Quat.rotate ornB (closestBoxOutside h (Quat.rotate ornB.conjugate (q - posB)))) =
        Quat.rotate ornB (Quat.rotate ornB.conjugate (q - posB) -
          closestBoxOutside h (Quat.rotate ornB.conjugate (q - posB))) := by
  set p := Quat.rotate ornB.conjugate (q - posB) with hp
  have hq : ∀ v, q - (posB + Quat.rotate ornB v) = Quat.rotate ornB (p - v) := by
    intro v
    rw [rotate_sub, hp, (rotate_conjugate ornB oB _).2]
    ext <;> simp <;> ring
  obtain ⟨s1, s2, _⟩ := closest_box_outside_spec h hx.le hy.le hz.le p
  refine ⟨⟨rfl, ⟨_, s1, rfl⟩, ?_⟩, hq _⟩
  rintro _ _ rfl ⟨v, hv, rfl⟩
  rw [hq, hq, rotate_length ornB oB, rotate_length ornB oB]
  exact s2 v hv

/-- The first pivot, computed in the space of the box, in the world. -/
theorem box_pivot (q v posB : V3 ℝ) {ornA ornB : Quat ℝ} (oA : ornA.lengthSqr = 1) (oB : ornB.lengthSqr = 1) (r : ℝ) :
    toWorldSpace (toObjectSpace (Quat.rotate ornB.conjugate (q - posB) - smul r v)
      (Quat.rotate ornB.conjugate (q - posB)) (ornB.conjugate * ornA)) q ornA = q - smul r (Quat.rotate ornB v) := by
  have hm : (ornB.conjugate * ornA).conjugate = ornA.conjugate * ornB := by
    ext <;> simp [Quat.conjugate] <;> ring
  unfold toWorldSpace toObjectSpace
  rw [hm, rotate_mul _ _ (conjugate_unit oA) oB, (rotate_conjugate ornA oA _).2]
  generalize Quat.rotate ornB.conjugate (q - posB) = p
  rw [show p - smul r v - p = -smul r v by ext <;> simp, rotate_neg, rotate_smul]
  ext <;> simp <;> ring

/-- **C71, a sphere and a box, partial.** If the centre is outside of the box by more than the tolerance the
result is right.  Missing: centres inside, see `sphere_box_inside_partial`, and centres outside by less than
the tolerance, see `sphere_box_skin`. -/
theorem sphere_box_partial (eps rA : ℝ) (h : V3 ℝ) (c : Ctx) (he : 0 ≤ eps) (ra : 0 < rA) (hx : 0 < h.x)
    (hy : 0 < h.y) (hz : 0 < h.z) (hc : c.Ok)
    (hout : ∀ w, Placed (boxSet h) c.posB c.ornB w → eps < lengthSqr (c.posA - w)) :
    Right (Placed (ballSet rA) c.posA c.ornA) (Placed (boxSet h) c.posB c.ornB) c (sphereBox eps rA h c) := by
  obtain ⟨oA, oB, ht⟩ := hc
  obtain ⟨hp, hd⟩ := box_pair hx hy hz c.posA c.posB oB
  have hn := inflate_near hp ra.le le_rfl ht
  rw [inflate_zero, add_zero] at hn
  rw [ball_inflate rA c.posA oA]
  have hgood := fun d (hd : 0 < d) => inflate_good (rA := rA) (rB := 0) (d := d) (point_convex c.posA)
    (placed_convex (box_convex h) c.posB c.ornB) hp ra.le le_rfl hd
  have hfar := hout _ hp.2.1
  unfold sphereBox
  simp only
  have hpiv := fun v => box_pivot c.posA v c.posB oA oB rA
  set p := Quat.rotate c.ornB.conjugate (c.posA - c.posB) with hpdef
  set q := closestBoxOutside h p with hq
  have hlen : lengthSqr (c.posA - (c.posB + Quat.rotate c.ornB q)) = lengthSqr (p - q) := by
    rw [hd, rotate_length c.ornB oB]
  rw [hlen] at hn hfar
  by_cases hf : (rA + c.thr) * (rA + c.thr) < lengthSqr (p - q)
  · rw [if_pos hf]
    exact ⟨[], rfl, by rw [hn]; simp [hf], by simp⟩
  · rw [if_neg hf, if_neg (not_le.mpr hfar)]
    refine ⟨_, rfl, by rw [hn]; simpa using hf, ?_⟩
    simp only [List.mem_singleton, forall_eq]
    have hs := Real.mul_self_sqrt (lengthSqr_nonneg (p - q))
    have hs0 : 0 < Real.sqrt (lengthSqr (p - q)) := Real.sqrt_pos.mpr (by linarith)
    generalize Real.sqrt (lengthSqr (p - q)) = d at hs hs0 ⊢
    obtain ⟨g1, g2, g3, g4⟩ := hgood d hs0 (by rw [hlen]; exact hs)
    rw [inflate_zero] at g3
    have en : smul (1 / d) (c.posA - (c.posB + Quat.rotate c.ornB q)) = Quat.rotate c.ornB (smul (1 / d) (p - q)) := by
      rw [hd, rotate_smul]
    rw [en] at g1 g2 g3 g4
    have z : ∀ v w : V3 ℝ, v + smul 0 w = v := by intro v w; ext <;> simp
    rw [z] at g3 g4
    refine ⟨g1, ?_, ?_, ?_⟩
    · simp only [Ctx.wA, plain]; rw [hpiv]; exact g2
    · exact g3
    · simp only [Ctx.wA, Ctx.wB, plain]; rw [hpiv]
      rw [sub_zero] at g4
      exact g4

/-- The normal is attached to the box exactly when it is one of its axes, up to the tolerance. -/
theorem sphere_box_attachment (eps : ℝ) (n : V3 ℝ) :
    axisAttachment eps n = .onB ↔ 1 - eps < |n.x| ∨ 1 - eps < |n.y| ∨ 1 - eps < |n.z| := by
  unfold axisAttachment
  by_cases h : 1 - eps < |n.x| ∨ 1 - eps < |n.y| ∨ 1 - eps < |n.z|
  · rw [if_pos h]; exact ⟨fun _ => h, fun _ => rfl⟩
  · rw [if_neg h]; exact ⟨fun h' => (by cases h'), fun h' => absurd h' h⟩

/-- **C71, a sphere with its centre in a box, partial.** One point is reported, with a unit normal and with
pivots which are the extreme points of the shapes along it; the second pivot is the nearest point of the
surface of the box.  The distance should be minus the sum of the distance of the centre to the second pivot
and the radius, but `h.z + p.z` is used for the former, `p` being the centre in the space of the box. -/
theorem sphere_box_inside_partial (eps rA : ℝ) (h : V3 ℝ) (c : Ctx) (he : 0 ≤ eps) (ra : 0 < rA)
    (hx : 0 < h.x) (hy : 0 < h.y) (hz : 0 < h.z) (hc : c.Ok)
    (hin : Placed (boxSet h) c.posB c.ornB c.posA) :
    ∃ p, sphereBox eps rA h c = some [p] ∧ p.att = .onB ∧ lengthSqr p.n = 1 ∧
      Extreme (Placed (ballSet rA) c.posA c.ornA) (-p.n) (c.wA p) ∧
      Extreme (Placed (boxSet h) c.posB c.ornB) p.n (c.wB p) ∧
      (∃ s, 0 ≤ s ∧ c.wA p - c.wB p = smul (-s - rA) p.n ∧ lengthSqr (c.posA - c.wB p) = s * s ∧
        ∀ y, boxSurface h y → s * s ≤ lengthSqr (c.posA - toWorldSpace y c.posB c.ornB)) ∧
      p.dist = -(h.z + (toObjectSpace c.posA c.posB c.ornB).z) - rA := by
  obtain ⟨oA, oB, ht⟩ := hc
  obtain ⟨p, hp, hpw⟩ := hin
  have hpo : Quat.rotate c.ornB.conjugate (c.posA - c.posB) = p := by
    rw [hpw, show c.posB + Quat.rotate c.ornB p - c.posB = Quat.rotate c.ornB p by ext <;> simp,
      (rotate_conjugate c.ornB oB _).1]
  have hpiv := fun v => box_pivot c.posA v c.posB oA oB rA
  have hpo' : toObjectSpace c.posA c.posB c.ornB = p := hpo
  rw [hpo']
  unfold sphereBox
  simp only
  rw [hpo] at hpiv ⊢
  rw [(closest_box_outside_spec h hx.le hy.le hz.le p).2.2 hp]
  have z : lengthSqr (p - p) = 0 := by simp [lengthSqr, dot]
  rw [z, if_neg (by nlinarith), if_pos he]
  obtain ⟨q, n, hq, hs, hmin, hu, ⟨s, s0, hqs⟩, hext⟩ := closest_box_inside_partial h p hp
  rw [hq]
  refine ⟨_, rfl, rfl, ?_⟩
  have hu' : lengthSqr (Quat.rotate c.ornB n) = 1 := rotate_unit oB hu
  have hss : lengthSqr (p - q) = s * s := by
    rw [hqs, show lengthSqr (p - (p + smul s n)) = s * s * lengthSqr n by simp [lengthSqr, dot]; ring, hu, mul_one]
  simp only [plain, Ctx.wA, Ctx.wB]
  rw [hpiv]
  have hdiff : ∀ y, c.posA - toWorldSpace y c.posB c.ornB = Quat.rotate c.ornB (p - y) := by
    intro y
    rw [rotate_sub]
    conv_lhs => rw [hpw]
    unfold toWorldSpace
    ext <;> simp
  refine ⟨hu', ?_, ⟨⟨q, hs.1, rfl⟩, ?_⟩, ⟨s, s0, ?_, ?_, ?_⟩, trivial⟩
  · rw [ball_inflate rA c.posA oA]
    have := inflate_extreme ra.le (neg_unit hu') (point_extreme c.posA (-Quat.rotate c.ornB n))
    rw [neg_smul_swap] at this
    rw [show c.posA - smul rA (Quat.rotate c.ornB n) = c.posA + -smul rA (Quat.rotate c.ornB n) by
      ext <;> simp <;> ring]
    exact this
  · rintro _ ⟨y, hy, rfl⟩
    unfold toWorldSpace
    rw [dot_add_left, dot_add_left, rotate_dot c.ornB oB, rotate_dot c.ornB oB]
    have := hext y hy
    linarith
  · rw [hpw, hqs]
    unfold toWorldSpace
    rw [rotate_add, rotate_smul]
    ext <;> simp <;> ring
  · rw [hdiff, rotate_length c.ornB oB]; exact hss
  · intro y hy
    rw [hdiff, rotate_length c.ornB oB, ← hss]; exact hmin y hy

/-- A sphere with its centre just below the top of a cube: the reported distance is off by nine tenths. -/
theorem sphere_box_refuted (eps : ℝ) (he : 0 ≤ eps) : ¬ SphereBoxFull eps := by
  intro hf
  set c : Ctx := ⟨⟨0, 9 / 10, 0⟩, 1, 0, 1, 0⟩ with hcd
  have hok : c.Ok := ⟨one_unit, one_unit, le_rfl⟩
  obtain ⟨l, h1, _, h3⟩ := hf 1 ⟨1, 1, 1⟩ c one_pos one_pos one_pos one_pos hok
  have hin : Placed (boxSet ⟨1, 1, 1⟩) c.posB c.ornB c.posA := by
    refine ⟨⟨0, 9 / 10, 0⟩, ?_, ?_⟩
    · simp [boxSet]; norm_num [abs_le]
    · rw [hcd]; simp only [rotate_one]; ext <;> simp
  obtain ⟨p, e, _, _, _, _, ⟨s, s0, hst, hsl, hmin⟩, hdist⟩ :=
    sphere_box_inside_partial eps 1 ⟨1, 1, 1⟩ c he one_pos one_pos one_pos one_pos hok hin
  rw [e, Option.some.injEq] at h1
  have hg := h3 p (by rw [← h1]; exact List.mem_singleton.mpr rfl)
  have hstep := hg.step
  rw [hst] at hstep
  have hdot := congrArg (dot · p.n) hstep
  simp only [dot_smul_left, show dot p.n p.n = 1 from hg.unit, mul_one] at hdot
  have hz : (toObjectSpace c.posA c.posB c.ornB).z = 0 := by
    rw [hcd]; simp [toObjectSpace, Quat.rotate, Quat.conjugate]
  rw [hdist, hz] at hdot
  have hm := hmin ⟨0, 1, 0⟩ (by simp [boxSurface, boxSet])
  have hw : lengthSqr (c.posA - toWorldSpace ⟨0, 1, 0⟩ c.posB c.ornB) = 1 / 100 := by
    rw [hcd]; unfold toWorldSpace; simp only [rotate_one]
    simp [lengthSqr, dot]; norm_num
  rw [hw] at hm
  simp at hdot
  nlinarith

/-- A sphere whose centre is outside of the box by less than the square root of the tolerance: the assertion
of `closest_point_box_inside` fails. -/
theorem sphere_box_skin (eps : ℝ) (he : 0 < eps) :
    sphereBox eps 1 ⟨1, 1, 1⟩ ⟨⟨0, 1 + Real.sqrt eps / 2, 0⟩, 1, 0, 1, 0⟩ = none ∨ 4 < eps := by
  by_cases h4 : 4 < eps
  · exact Or.inr h4
  left
  have hs := Real.mul_self_sqrt he.le
  have hs0 : 0 < Real.sqrt eps := Real.sqrt_pos.mpr he
  have hs2 : Real.sqrt eps ≤ 2 := by nlinarith
  set k := Real.sqrt eps
  unfold sphereBox
  simp only
  have hc : (1 : Quat ℝ).conjugate = 1 := by ext <;> simp [Quat.conjugate]
  rw [hc, rotate_one, show (⟨0, 1 + k / 2, 0⟩ : V3 ℝ) - 0 = ⟨0, 1 + k / 2, 0⟩ by ext <;> simp]
  have hq : closestBoxOutside ⟨1, 1, 1⟩ ⟨0, 1 + k / 2, 0⟩ = ⟨0, 1, 0⟩ := by
    unfold closestBoxOutside
    ext
    · norm_num
    · simp only
      rw [min_eq_left (by linarith)]; norm_num
    · norm_num
  rw [hq]
  have hl : lengthSqr ((⟨0, 1 + k / 2, 0⟩ : V3 ℝ) - ⟨0, 1, 0⟩) = k * k / 4 := by
    simp [lengthSqr, dot]; ring
  rw [hl, if_neg (by nlinarith), if_pos (by linarith)]
  rw [closest_box_inside_none]
  · rfl
  · rintro ⟨_, h2, _⟩
    rw [abs_le] at h2
    have := h2.2
    simp only at this
    linarith

/-- Not vacuous: a unit sphere resting on a cube satisfies the hypotheses of `sphere_box_partial`. -/
example : ∀ w, Placed (boxSet ⟨1, 1, 1⟩) 0 1 w → (1 / 100 : ℝ) < lengthSqr ((⟨0, 2, 0⟩ : V3 ℝ) - w) := by
  rintro _ ⟨v, ⟨_, h2, _⟩, rfl⟩
  rw [rotate_one]
  rw [abs_le] at h2
  simp only [lengthSqr, dot, sub_x, sub_y, sub_z, add_x, add_y, add_z, zero_x, zero_y, zero_z]
  have : v.y ≤ 1 := h2.2
  nlinarith [mul_self_nonneg v.x, mul_self_nonneg v.z]

end Edyn.Collide
