import Verif.Collide.Sphere
import Verif.Geom.ClosestSeg

/-!
# Contact points of capsules with spheres, planes and capsules (C71)

`src/edyn/collision/collide/collide_capsule_sphere.cpp`, `collide_capsule_plane.cpp`,
`collide_capsule_capsule.cpp`, over exact reals.  `eps` is `EDYN_EPSILON`.
-/

namespace Edyn.Collide

open Edyn.Math hiding lengthSqr_nonneg
open V3 Edyn.Geom Edyn.Contact

/-! ## Specification of the features of a capsule -/

/-- The feature says where on the middle segment the core point lies: strictly between the ends, or at one
of them. -/
def CapFeature (v0 v1 core : V3 ℝ) (f : Option Feat) : Prop :=
  (f = some ⟨.capSide, some 0⟩ ∧ core ≠ v0 ∧ core ≠ v1) ∨ (f = some ⟨.capHemisphere, some 0⟩ ∧ core = v0) ∨
    (f = some ⟨.capHemisphere, some 1⟩ ∧ core = v1)

/-! ## A capsule and a sphere -/

/-- The feature of a capsule at the parameter `t` of its middle segment, `collide_capsule_sphere.cpp` 44-49
and, unless there are two points, `collide_capsule_capsule.cpp` 60-72. -/
noncomputable def capFeat (t : ℝ) : Feat :=
  if 0 < t ∧ t < 1 then ⟨.capSide, some 0⟩ else ⟨.capHemisphere, some (if t = 0 then 0 else 1)⟩

/-- `collide` of a capsule and a sphere, `collide_capsule_sphere.cpp` 10-52. -/
noncomputable def capsuleSphere (eps rA hl : ℝ) (a : Axis) (rB : ℝ) (c : Ctx) : Res :=
  let v0 := capVertex0 hl a c.posA c.ornA
  let v1 := capVertex1 hl a c.posA c.ornA
  (closestSegment eps v0 v1 c.posB).bind fun r =>
  let minDist := rA + rB + c.thr
  if minDist * minDist < r.distSqr then some [] else
  let normal := r.q - c.posB
  let lenSqr := lengthSqr normal
  let nd := if eps < lenSqr then
      let len := Real.sqrt lenSqr
      (smul (1 / len) normal, len - rA - rB)
    else (Quat.rotate c.ornA ez, -(rA + rB))
  let normalB := Quat.rotate c.ornB.conjugate nd.1
  let pA := r.q - smul rA nd.1
  some [⟨toObjectSpace pA c.posA c.ornA, smul rB normalB, nd.1, nd.2, .none, some (capFeat r.t), none⟩]

/-- The full statement for a capsule and a sphere. -/
def CapsuleSphereFull (eps : ℝ) : Prop :=
  ∀ (rA hl : ℝ) (a : Axis) (rB : ℝ) (c : Ctx), 0 < rA → 0 < hl → eps < 4 * hl * hl → 0 < rB → c.Ok →
    Right (Placed (capsuleSet rA hl a) c.posA c.ornA) (Placed (ballSet rB) c.posB c.ornB) c
      (capsuleSphere eps rA hl a rB c)

theorem cap_axis (hl : ℝ) (a : Axis) (pos : V3 ℝ) (orn : Quat ℝ) :
    capVertex1 hl a pos orn - capVertex0 hl a pos orn = smul (-2 * hl) (Quat.rotate orn a.vec) := by
  unfold capVertex0 capVertex1; ext <;> simp <;> ring

theorem cap_length (hl : ℝ) (a : Axis) (pos : V3 ℝ) {orn : Quat ℝ} (ho : orn.lengthSqr = 1) :
    lengthSqr (capVertex1 hl a pos orn - capVertex0 hl a pos orn) = 4 * hl * hl := by
  rw [cap_axis]
  have h := rotate_unit ho a.vec_unit
  rw [show lengthSqr (smul (-2 * hl) (Quat.rotate orn a.vec)) = 4 * hl * hl * lengthSqr (Quat.rotate orn a.vec) by
    simp [lengthSqr, dot]; ring, h, mul_one]

theorem seg_pair {v0 v1 q p : V3 ℝ} {t : ℝ} (t0 : 0 ≤ t) (t1 : t ≤ 1) (hq : q = v0 + smul t (v1 - v0))
    (hm : ∀ u, 0 ≤ u → u ≤ 1 → lengthSqr (p - q) ≤ lengthSqr (p - (v0 + smul u (v1 - v0)))) :
    ClosestPair (segSet v0 v1) (pointSet p) q p := by
  have flip : ∀ u v : V3 ℝ, lengthSqr (u - v) = lengthSqr (v - u) := by
    intro u v; simp [lengthSqr, dot]; ring
  refine ⟨⟨t, t0, t1, hq⟩, rfl, ?_⟩
  rintro _ b ⟨u, u0, u1, rfl⟩ hb
  have hb' : b = p := hb
  rw [hb', flip q, flip _ p]
  exact hm u u0 u1

/-- The feature at a parameter is right. -/
theorem capFeat_spec {v0 v1 : V3 ℝ} (h : v1 - v0 ≠ 0) {t : ℝ} (t0 : 0 ≤ t) (t1 : t ≤ 1) :
    CapFeature v0 v1 (v0 + smul t (v1 - v0)) (some (capFeat t)) := by
  have key : ∀ u : ℝ, smul u (v1 - v0) = 0 → u = 0 := by
    intro u hu
    by_contra hn
    apply h
    have e : v1 - v0 = smul (1 / u) (smul u (v1 - v0)) := by ext <;> simp <;> field_simp
    rw [e, hu]; ext <;> simp
  unfold capFeat CapFeature
  by_cases hi : 0 < t ∧ t < 1
  · rw [if_pos hi]
    left
    refine ⟨rfl, fun e => ?_, fun e => ?_⟩
    · have : smul t (v1 - v0) = 0 := by
        have e1 := congrArg V3.x e
        have e2 := congrArg V3.y e
        have e3 := congrArg V3.z e
        simp only [add_x, add_y, add_z] at e1 e2 e3
        ext <;> simp only [zero_x, zero_y, zero_z] <;> linarith
      have := key t this
      linarith [hi.1]
    · have : smul (t - 1) (v1 - v0) = 0 := by
        have e1 := congrArg V3.x e
        have e2 := congrArg V3.y e
        have e3 := congrArg V3.z e
        simp only [add_x, add_y, add_z, smul_x, smul_y, smul_z, sub_x, sub_y, sub_z] at e1 e2 e3
        ext <;> simp only [zero_x, zero_y, zero_z, smul_x, smul_y, smul_z, sub_x, sub_y, sub_z] <;> linarith
      have := key _ this
      linarith [hi.2]
  · rw [if_neg hi]
    right
    by_cases hz : t = 0
    · left
      rw [if_pos hz, hz]
      exact ⟨rfl, by ext <;> simp⟩
    · right
      have : t = 1 := by
        by_contra hne
        exact hi ⟨lt_of_le_of_ne t0 (Ne.symm hz), lt_of_le_of_ne t1 hne⟩
      rw [if_neg hz, this]
      exact ⟨rfl, by ext <;> simp⟩

/-- Any point of a segment is extreme along a direction orthogonal to the segment. -/
theorem seg_extreme_orth {v0 v1 n q : V3 ℝ} (hq : segSet v0 v1 q) (ho : dot (v1 - v0) n = 0) :
    Extreme (segSet v0 v1) n q := by
  refine ⟨hq, ?_⟩
  obtain ⟨t, _, _, rfl⟩ := hq
  rintro _ ⟨u, _, _, rfl⟩
  rw [dot_add_left, dot_add_left, dot_smul_left, dot_smul_left, ho]
  linarith

theorem minus_smul (p n : V3 ℝ) (r : ℝ) : p - smul r n = p + smul r (-n) := by ext <;> simp <;> ring

/-- **C71, a capsule and a sphere, partial.** The result is right if the centre of the sphere is further than
the tolerance from the middle segment, or lies on it and the axis of the capsule is not `z`; and the feature
says where on the middle segment the contact is.  Missing: see `capsule_sphere_refuted`. -/
theorem capsule_sphere_partial (eps rA hl : ℝ) (a : Axis) (rB : ℝ) (c : Ctx) (he : 0 ≤ eps) (ra : 0 < rA) (hh : 0 < hl)
    (hl4 : eps < 4 * hl * hl) (rb : 0 < rB) (hc : c.Ok)
    (h : (∀ w, segSet (capVertex0 hl a c.posA c.ornA) (capVertex1 hl a c.posA c.ornA) w →
        eps < lengthSqr (w - c.posB)) ∨
      (segSet (capVertex0 hl a c.posA c.ornA) (capVertex1 hl a c.posA c.ornA) c.posB ∧ a ≠ .z)) :
    Right (Placed (capsuleSet rA hl a) c.posA c.ornA) (Placed (ballSet rB) c.posB c.ornB) c
        (capsuleSphere eps rA hl a rB c) ∧
      ∀ l, capsuleSphere eps rA hl a rB c = some l → ∀ p ∈ l,
        CapFeature (capVertex0 hl a c.posA c.ornA) (capVertex1 hl a c.posA c.ornA) (c.wA p + smul rA p.n) p.fA := by
  obtain ⟨oA, oB, ht⟩ := hc
  rw [capsule_inflate rA hl hh a c.posA oA, ball_inflate rB c.posB oB]
  have hperp : a ≠ .z → dot (capVertex1 hl a c.posA c.ornA - capVertex0 hl a c.posA c.ornA) (Quat.rotate c.ornA ez) = 0 := by
    intro hz
    rw [cap_axis, dot_smul_left, rotate_dot c.ornA oA]
    cases a <;> simp_all [Axis.vec, dot, ex, ey, ez]
  have hlen := cap_length hl a c.posA oA
  unfold capsuleSphere
  simp only
  generalize capVertex0 hl a c.posA c.ornA = v0 at *
  generalize capVertex1 hl a c.posA c.ornA = v1 at *
  have hne : v1 - v0 ≠ 0 := by
    intro e
    rw [e] at hlen
    simp [lengthSqr, dot] at hlen
    rw [hlen] at hh; exact lt_irrefl _ hh
  obtain ⟨r, hr, ⟨t0, t1⟩, hq, hd, hmin⟩ := closest_segment_spec eps he v0 v1 c.posB (by rw [hlen]; exact hl4)
  rw [hr, Option.bind_some]
  have hpair := seg_pair t0 t1 hq hmin
  have hn := inflate_near hpair ra.le rb.le ht
  have hdist : r.distSqr = lengthSqr (r.q - c.posB) := by rw [hd]; simp [lengthSqr, dot]; ring
  rw [hdist]
  by_cases hfar : (rA + rB + c.thr) * (rA + rB + c.thr) < lengthSqr (r.q - c.posB)
  · rw [if_pos hfar]
    refine ⟨⟨[], rfl, by rw [hn]; simp [hfar], by simp⟩, ?_⟩
    intro l hl' p hp
    rw [Option.some.injEq] at hl'
    rw [← hl'] at hp; simp at hp
  · rw [if_neg hfar]
    have wB : ∀ n, toWorldSpace (smul rB (Quat.rotate c.ornB.conjugate n)) c.posB c.ornB = c.posB + smul rB n := by
      intro n; rw [← rotate_smul, world_rotated _ _ oB]
    have feat : ∀ n : V3 ℝ, CapFeature v0 v1 (r.q - smul rA n + smul rA n) (some (capFeat r.t)) := by
      intro n
      rw [show r.q - smul rA n + smul rA n = r.q by ext <;> simp, hq]
      exact capFeat_spec hne t0 t1
    refine ⟨⟨_, rfl, by rw [hn]; simpa using hfar, ?_⟩, ?_⟩
    · simp only [List.mem_singleton, forall_eq]
      by_cases hb : eps < lengthSqr (r.q - c.posB)
      · rw [if_pos hb]
        have hs := Real.mul_self_sqrt (lengthSqr_nonneg (r.q - c.posB))
        have hs0 : 0 < Real.sqrt (lengthSqr (r.q - c.posB)) := Real.sqrt_pos.mpr (by linarith)
        obtain ⟨g1, g2, g3, g4⟩ := inflate_good (seg_convex v0 v1) (point_convex c.posB) hpair ra.le rb.le hs0 hs
        refine ⟨g1, ?_, ?_, ?_⟩
        · simp only [Ctx.wA]; rw [world_object _ _ oA]; exact g2
        · simp only [Ctx.wB, wB]; exact g3
        · simp only [Ctx.wA, Ctx.wB, wB]; rw [world_object _ _ oA]; exact g4
      · rw [if_neg hb]
        rcases h with h | ⟨h, hz⟩
        · exact absurd (h r.q hpair.1) hb
        · have h0 : lengthSqr (r.q - c.posB) = 0 := by
            refine le_antisymm ?_ (lengthSqr_nonneg _)
            refine le_trans (hpair.2.2 c.posB c.posB h rfl) ?_
            simp [lengthSqr, dot]
          have heq : r.q = c.posB := by
            have := lengthSqr_eq_zero h0
            have e1 := congrArg V3.x this
            have e2 := congrArg V3.y this
            have e3 := congrArg V3.z this
            simp at e1 e2 e3
            ext <;> linarith
          have hu := rotate_unit oA ez_unit
          have ho := hperp hz
          generalize Quat.rotate c.ornA ez = n at hu ho ⊢
          refine ⟨hu, ?_, ?_, ?_⟩
          · simp only [Ctx.wA]; rw [world_object _ _ oA, minus_smul]
            exact inflate_extreme ra.le (neg_unit hu) (seg_extreme_orth hpair.1 (by rw [dot_neg_right, ho, neg_zero]))
          · simp only [Ctx.wB, wB]
            exact inflate_extreme rb.le hu (point_extreme c.posB n)
          · simp only [Ctx.wA, Ctx.wB, wB]; rw [world_object _ _ oA, heq]
            ext <;> simp <;> ring
    · intro l hl' p hp
      rw [Option.some.injEq] at hl'
      rw [← hl', List.mem_singleton] at hp
      rw [hp]
      simp only [Ctx.wA]
      rw [world_object _ _ oA]
      exact feat _

/-- A sphere with its centre in the middle of a capsule whose axis is `z`: the pivot is inside of the
capsule. -/
theorem capsule_sphere_refuted (eps : ℝ) (he : 0 ≤ eps) (he4 : eps < 4) : ¬ CapsuleSphereFull eps := by
  intro hf
  obtain ⟨l, h1, _, h3⟩ := hf 1 1 .z 1 ⟨0, 1, 0, 1, 0⟩ one_pos one_pos (by linarith) one_pos
    ⟨one_unit, one_unit, le_rfl⟩
  have e0 : capVertex0 1 .z 0 1 = ⟨0, 0, 1⟩ := by
    unfold capVertex0; rw [rotate_one]; ext <;> simp [Axis.vec, ez]
  have e1 : capVertex1 1 .z 0 1 = ⟨0, 0, -1⟩ := by
    unfold capVertex1; rw [rotate_one]; ext <;> simp [Axis.vec, ez]
  have hc : closestSegment eps ⟨0, 0, 1⟩ ⟨0, 0, -1⟩ 0 = some ⟨0, 1 / 2, 0⟩ := by
    unfold closestSegment
    simp only
    have hd : dot ((⟨0, 0, -1⟩ : V3 ℝ) - ⟨0, 0, 1⟩) (⟨0, 0, -1⟩ - ⟨0, 0, 1⟩) = 4 := by norm_num [dot]
    have hd2 : dot ((0 : V3 ℝ) - ⟨0, 0, 1⟩) (⟨0, 0, -1⟩ - ⟨0, 0, 1⟩) = 2 := by norm_num [dot]
    rw [hd, hd2, if_pos he4, show (2 : ℝ) / 4 = 1 / 2 by norm_num, clamp_of_mem (by norm_num) (by norm_num)]
    have hq : (⟨0, 0, 1⟩ : V3 ℝ) + smul (1 / 2) (⟨0, 0, -1⟩ - ⟨0, 0, 1⟩) = 0 := by ext <;> norm_num
    simp only [hq]
    simp [lengthSqr, dot]
  unfold capsuleSphere at h1
  simp only [e0, e1, hc, Option.bind_some] at h1
  have z : lengthSqr ((0 : V3 ℝ) - 0) = 0 := by simp [lengthSqr, dot]
  rw [if_neg (by norm_num), z, if_neg (not_lt.mpr he), Option.some.injEq] at h1
  have hg := h3 _ (by rw [← h1]; exact List.mem_singleton.mpr rfl)
  have hA := hg.onA.2 ⟨0, 0, -2⟩ ⟨⟨0, 0, -2⟩, ⟨-1, by norm_num, by norm_num [lengthSqr, dot, Axis.vec, ez]⟩, by
    rw [rotate_one]; ext <;> simp⟩
  simp only [Ctx.wA] at hA
  rw [world_object _ _ one_unit, rotate_one] at hA
  norm_num [dot, ez] at hA

/-- Not vacuous: a sphere beside an upright capsule. -/
example : ∀ w, segSet (capVertex0 1 .y 0 1) (capVertex1 1 .y 0 1) w →
    (1 / 100 : ℝ) < lengthSqr (w - ⟨3 / 2, 0, 0⟩) := by
  rintro _ ⟨t, _, _, rfl⟩
  unfold capVertex0 capVertex1
  rw [rotate_one]
  norm_num [lengthSqr, dot, Axis.vec, ey]
  nlinarith [mul_self_nonneg (1 + t * (-1 - 1))]

/-! ## A capsule and a plane -/

/-- `project_plane`, `vector3.hpp` 256-258. -/
noncomputable def projectPlane (p q n : V3 ℝ) : V3 ℝ := p - smul (dot (p - q) n) n

/-- One pass of the loop, `collide_capsule_plane.cpp` 27-37. -/
noncomputable def capsulePlanePoint (rA : ℝ) (n center v : V3 ℝ) (proj : ℝ) (f : Feat) (c : Ctx) : List Point :=
  let distance := proj - rA
  if c.thr < distance then [] else
  let pA := v - smul rA n
  [⟨toObjectSpace pA c.posA c.ornA, projectPlane v center n, n, distance, .onB, some f, none⟩]

/-- `collide` of a capsule and a plane, `collide_capsule_plane.cpp` 6-38.  The second pivot is left in world
space; `tol` is `support_feature_tolerance`. -/
noncomputable def capsulePlane (tol rA hl : ℝ) (a : Axis) (n : V3 ℝ) (k : ℝ) (c : Ctx) : Res :=
  let center := smul k n
  let v0 := capVertex0 hl a c.posA c.ornA
  let v1 := capVertex1 hl a c.posA c.ornA
  let p0 := dot (v0 - center) n
  let p1 := dot (v1 - center) n
  let f : Feat := if |p0 - p1| < tol then ⟨.capSide, none⟩ else ⟨.capHemisphere, some (if p0 < p1 then 0 else 1)⟩
  some (capsulePlanePoint rA n center v0 p0 f c ++ capsulePlanePoint rA n center v1 p1 f c)

/-- The full statement for a capsule and a plane. -/
def CapsulePlaneFull (tol : ℝ) : Prop :=
  ∀ (rA hl : ℝ) (a : Axis) (n : V3 ℝ) (k : ℝ) (c : Ctx), 0 < rA → 0 < hl → lengthSqr n = 1 → c.Fixed →
    Right (Placed (capsuleSet rA hl a) c.posA c.ornA) (halfSpace n k) c (capsulePlane tol rA hl a n k c)

/-- The lower end of a segment is extreme against the normal. -/
theorem seg_extreme_end {v0 v1 n : V3 ℝ} (h : dot v0 n ≤ dot v1 n) : Extreme (segSet v0 v1) (-n) v0 := by
  refine ⟨⟨0, le_rfl, zero_le_one, by ext <;> simp⟩, ?_⟩
  rintro _ ⟨t, t0, t1, rfl⟩
  rw [dot_neg_right, dot_neg_right, dot_add_left, dot_smul_left, dot_sub_left]
  nlinarith

theorem seg_comm (v0 v1 : V3 ℝ) : segSet v0 v1 = segSet v1 v0 := by
  funext w
  rw [eq_iff_iff]
  constructor <;>
  · rintro ⟨t, t0, t1, rfl⟩
    exact ⟨1 - t, by linarith, by linarith, by ext <;> simp <;> ring⟩

theorem center_dot {n : V3 ℝ} (hn : lengthSqr n = 1) (v : V3 ℝ) (k : ℝ) :
    dot (v - smul k n) n = dot n v - k := by
  rw [dot_sub_left, dot_smul_left, show dot n n = 1 from hn, dot_comm]; ring

/-- What every reported point satisfies. -/
theorem capsulePlanePoint_spec {rA : ℝ} (ra : 0 < rA) {n : V3 ℝ} (hn : lengthSqr n = 1) {k : ℝ} {v v' : V3 ℝ} {f : Feat}
    {c : Ctx} (hc : c.Fixed) {p : Point}
    (hp : p ∈ capsulePlanePoint rA n (smul k n) v (dot (v - smul k n) n) f c) :
    (p.n = n ∧ p.dist = dot n v - k - rA ∧ p.dist ≤ c.thr ∧ p.fA = some f) ∧
    c.wA p = v - smul rA n ∧ Inflate (segSet v v') rA (c.wA p) ∧ Extreme (halfSpace n k) n (c.wB p) ∧
      c.wA p - c.wB p = smul p.dist n := by
  obtain ⟨⟨oA, oB, _⟩, pB, qB⟩ := hc
  unfold capsulePlanePoint at hp
  simp only at hp
  rw [center_dot hn] at hp
  by_cases h : c.thr < dot n v - k - rA
  · rw [if_pos h] at hp; simp at hp
  rw [if_neg h, List.mem_singleton] at hp
  rw [hp]
  simp only [Ctx.wA, Ctx.wB]
  rw [world_object _ _ oA, pB, qB]
  have ew : toWorldSpace (projectPlane v (smul k n) n) 0 1 = v - smul (dot n v - k) n := by
    unfold toWorldSpace projectPlane
    rw [rotate_one, center_dot hn]; ext <;> simp
  rw [ew]
  refine ⟨⟨trivial, trivial, not_lt.mp h, trivial⟩, rfl, ⟨v, ⟨0, le_rfl, zero_le_one, by ext <;> simp⟩, ?_⟩, plane_extreme ?_, ?_⟩
  · rw [show lengthSqr (v - smul rA n - v) = rA * rA * lengthSqr n by simp [lengthSqr, dot]; ring, hn, mul_one]
  · rw [dot_sub_right, dot_smul_right, show dot n n = 1 from hn]; ring
  · ext <;> simp <;> ring

theorem capsulePlanePoint_nil {rA : ℝ} {n : V3 ℝ} (hn : lengthSqr n = 1) {k : ℝ} {v : V3 ℝ} {f : Feat} {c : Ctx} :
    capsulePlanePoint rA n (smul k n) v (dot (v - smul k n) n) f c ≠ [] ↔ dot n v - k - rA ≤ c.thr := by
  unfold capsulePlanePoint
  simp only
  rw [center_dot hn]
  by_cases h : c.thr < dot n v - k - rA
  · rw [if_pos h]; simp; linarith
  · rw [if_neg h]; simp; linarith

/-- **C71, a capsule and a plane, partial.** Points are reported exactly when the capsule is within the
threshold of the plane.  Every point has the normal of the plane, a second pivot on the plane, a first pivot
in the capsule and the right distance; the points with the least distance are good.  Missing: the other one,
see `capsule_plane_refuted`. -/
theorem capsule_plane_partial (tol rA hl : ℝ) (a : Axis) (n : V3 ℝ) (k : ℝ) (c : Ctx) (ra : 0 < rA) (hh : 0 < hl)
    (hn : lengthSqr n = 1) (hc : c.Fixed) :
    ∃ l, capsulePlane tol rA hl a n k c = some l ∧
      (l ≠ [] ↔ Near (Placed (capsuleSet rA hl a) c.posA c.ornA) (halfSpace n k) c.thr) ∧
      ∀ p ∈ l, p.n = n ∧ p.dist ≤ c.thr ∧ Placed (capsuleSet rA hl a) c.posA c.ornA (c.wA p) ∧
        Extreme (halfSpace n k) n (c.wB p) ∧ c.wA p - c.wB p = smul p.dist n ∧
        ((∀ q ∈ l, p.dist ≤ q.dist) → Good (Placed (capsuleSet rA hl a) c.posA c.ornA) (halfSpace n k) c p) := by
  have hc' := hc
  obtain ⟨⟨oA, oB, ht⟩, pB, qB⟩ := hc'
  rw [capsule_inflate rA hl hh a c.posA oA]
  unfold capsulePlane
  simp only
  generalize capVertex0 hl a c.posA c.ornA = v0
  generalize capVertex1 hl a c.posA c.ornA = v1
  generalize (if |dot (v0 - smul k n) n - dot (v1 - smul k n) n| < tol then (⟨.capSide, none⟩ : Feat) else
    ⟨.capHemisphere, some (if dot (v0 - smul k n) n < dot (v1 - smul k n) n then 0 else 1)⟩) = f
  have spec0 := fun p => @capsulePlanePoint_spec rA ra n hn k v0 v1 f c hc p
  have spec1 := fun p => @capsulePlanePoint_spec rA ra n hn k v1 v0 f c hc p
  have nil0 := @capsulePlanePoint_nil rA n hn k v0 f c
  have nil1 := @capsulePlanePoint_nil rA n hn k v1 f c
  generalize capsulePlanePoint rA n (smul k n) v0 (dot (v0 - smul k n) n) f c = l0 at *
  generalize capsulePlanePoint rA n (smul k n) v1 (dot (v1 - smul k n) n) f c = l1 at *
  refine ⟨_, rfl, ?_, ?_⟩
  · have : l0 ++ l1 ≠ [] ↔ l0 ≠ [] ∨ l1 ≠ [] := by
      cases l0 <;> cases l1 <;> simp
    rw [this, nil0, nil1]
    rcases le_total (dot v0 n) (dot v1 n) with h | h
    · rw [plane_near hn ra.le ht (seg_extreme_end h)]
      rw [dot_comm v0, dot_comm v1] at h
      constructor
      · rintro (h' | h') <;> linarith
      · exact Or.inl
    · rw [seg_comm, plane_near hn ra.le ht (seg_extreme_end h)]
      rw [dot_comm v0, dot_comm v1] at h
      constructor
      · rintro (h' | h') <;> linarith
      · exact Or.inr
  · -- an end point which is not lower than the other one, if reported, is good
    have good : ∀ (u v : V3 ℝ) (p : Point), segSet u v = segSet v0 v1 → dot n u ≤ dot n v →
        ((p.n = n ∧ p.dist = dot n u - k - rA ∧ p.dist ≤ c.thr ∧ p.fA = some f) ∧
          c.wA p = u - smul rA n ∧ Inflate (segSet u v) rA (c.wA p) ∧ Extreme (halfSpace n k) n (c.wB p) ∧
          c.wA p - c.wB p = smul p.dist n) → Good (Inflate (segSet v0 v1) rA) (halfSpace n k) c p := by
      rintro u v p hs hle ⟨⟨e1, e2, e3, _⟩, e4, e5, e6, e7⟩
      refine ⟨by rw [e1]; exact hn, ?_, by rw [e1]; exact e6, by rw [e1]; exact e7⟩
      rw [e1, e4, minus_smul, ← hs]
      apply inflate_extreme ra.le (neg_unit hn)
      apply seg_extreme_end
      rw [dot_comm u, dot_comm v]; exact hle
    intro p hp
    rcases List.mem_append.mp hp with hp' | hp'
    · have s := spec0 p hp'
      refine ⟨s.1.1, s.1.2.2.1, s.2.2.1, s.2.2.2.1, s.2.2.2.2, fun hmin => ?_⟩
      by_cases hle : dot n v0 ≤ dot n v1
      · exact good v0 v1 p rfl hle s
      · exfalso
        have : l1 ≠ [] := nil1.mpr (by linarith [s.1.2.1, s.1.2.2.1])
        obtain ⟨q, hq⟩ := List.exists_mem_of_ne_nil _ this
        have := hmin q (List.mem_append.mpr (Or.inr hq))
        rw [s.1.2.1, (spec1 q hq).1.2.1] at this
        linarith
    · have s := spec1 p hp'
      refine ⟨s.1.1, s.1.2.2.1, ?_, s.2.2.2.1, s.2.2.2.2, fun hmin => ?_⟩
      · rw [seg_comm]; exact s.2.2.1
      by_cases hle : dot n v1 ≤ dot n v0
      · exact good v1 v0 p (seg_comm _ _) hle s
      · exfalso
        have : l0 ≠ [] := nil0.mpr (by linarith [s.1.2.1, s.1.2.2.1])
        obtain ⟨q, hq⟩ := List.exists_mem_of_ne_nil _ this
        have := hmin q (List.mem_append.mpr (Or.inl hq))
        rw [s.1.2.1, (spec0 q hq).1.2.1] at this
        linarith

/-- The feature: the side exactly when the ends are at the same height up to the tolerance, and otherwise
the lower end. -/
theorem capsule_plane_feature (tol rA hl : ℝ) (a : Axis) (n : V3 ℝ) (k : ℝ) (c : Ctx) (hn : lengthSqr n = 1)
    (l : List Point) (h : capsulePlane tol rA hl a n k c = some l) (p : Point) (hp : p ∈ l) :
    let h0 := dot n (capVertex0 hl a c.posA c.ornA)
    let h1 := dot n (capVertex1 hl a c.posA c.ornA)
    (|h0 - h1| < tol → p.fA = some ⟨.capSide, none⟩) ∧
      (tol ≤ |h0 - h1| → (h0 < h1 → p.fA = some ⟨.capHemisphere, some 0⟩) ∧
        (h1 ≤ h0 → p.fA = some ⟨.capHemisphere, some 1⟩)) := by
  intro h0 h1
  unfold capsulePlane at h
  simp only [center_dot hn] at h
  have e : (dot n (capVertex0 hl a c.posA c.ornA) - k) - (dot n (capVertex1 hl a c.posA c.ornA) - k) = h0 - h1 := by
    simp only [h0, h1]; ring
  rw [e] at h
  have e2 : (dot n (capVertex0 hl a c.posA c.ornA) - k < dot n (capVertex1 hl a c.posA c.ornA) - k) ↔ h0 < h1 := by
    simp only [h0, h1]; constructor <;> intro <;> linarith
  simp only [e2] at h
  generalize hf : (if |h0 - h1| < tol then (⟨.capSide, none⟩ : Feat) else
    ⟨.capHemisphere, some (if h0 < h1 then 0 else 1)⟩) = f at h
  rw [Option.some.injEq] at h
  have hfa : p.fA = some f := by
    rw [← h] at hp
    unfold capsulePlanePoint at hp
    simp only at hp
    rcases List.mem_append.mp hp with hp | hp <;> split at hp <;> simp at hp <;> rw [hp]
  rw [hfa, ← hf]
  refine ⟨fun hlt => by rw [if_pos hlt], fun hge => ?_⟩
  rw [if_neg (not_lt.mpr hge)]
  exact ⟨fun hlt => by rw [if_pos hlt], fun hle => by rw [if_neg (not_lt.mpr hle)]⟩

/-- An upright capsule sunk into the ground up to its upper end: the second point is inside of the
capsule. -/
theorem capsule_plane_refuted (tol : ℝ) : ¬ CapsulePlaneFull tol := by
  intro hf
  obtain ⟨l, h1, _, h3⟩ := hf 1 1 .y ey 0 ⟨0, 1, 0, 1, 0⟩ one_pos one_pos ey_unit
    ⟨⟨one_unit, one_unit, le_rfl⟩, rfl, rfl⟩
  have e0 : capVertex0 1 .y 0 1 = ⟨0, 1, 0⟩ := by
    unfold capVertex0; rw [rotate_one]; ext <;> simp [Axis.vec, ey]
  have hd : dot ((⟨0, 1, 0⟩ : V3 ℝ) - smul 0 ey) ey = 1 := by norm_num [dot, ey]
  unfold capsulePlane capsulePlanePoint at h1
  simp only [e0, hd] at h1
  rw [if_neg (show ¬ (0 : ℝ) < 1 - 1 by norm_num), Option.some.injEq] at h1
  have hg := h3 _ (by rw [← h1]; exact List.mem_append.mpr (Or.inl (List.mem_singleton.mpr rfl)))
  have hA := hg.onA.2 ⟨0, -2, 0⟩ ⟨⟨0, -2, 0⟩, ⟨-1, by norm_num, by norm_num [lengthSqr, dot, Axis.vec, ey]⟩, by
    rw [rotate_one]; ext <;> simp⟩
  simp only [Ctx.wA] at hA
  rw [world_object _ _ one_unit] at hA
  norm_num [dot, ey] at hA

/-- Not vacuous: a lying capsule gives two points. -/
example : ∃ p q, capsulePlane (1 / 200) 1 2 .x ey 0 ⟨⟨0, 1, 0⟩, 1, 0, 1, 1 / 50⟩ = some [p, q] ∧ p.dist = 0 ∧ q.dist = 0 := by
  have e0 : capVertex0 2 .x ⟨0, 1, 0⟩ 1 = ⟨2, 1, 0⟩ := by
    unfold capVertex0; rw [rotate_one]; ext <;> simp [Axis.vec, ex]
  have e1 : capVertex1 2 .x ⟨0, 1, 0⟩ 1 = ⟨-2, 1, 0⟩ := by
    unfold capVertex1; rw [rotate_one]; ext <;> simp [Axis.vec, ex]
  have hd : ∀ x : ℝ, dot ((⟨x, 1, 0⟩ : V3 ℝ) - smul 0 ey) ey = 1 := by intro x; norm_num [dot, ey]
  unfold capsulePlane capsulePlanePoint
  simp only [e0, e1, hd]
  simp only [if_neg (show ¬ (1 / 50 : ℝ) < 1 - 1 by norm_num), List.singleton_append]
  exact ⟨_, _, rfl, sub_self 1, sub_self 1⟩

end Edyn.Collide
