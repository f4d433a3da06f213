import Verif.Collide.Capsule

/-!
# Contact points of two capsules (C71)

`src/edyn/collision/collide/collide_capsule_capsule.cpp`, over exact reals.  `eps` is `EDYN_EPSILON`, `tiny`
is the `1e-18` of `try_normalize`.
-/

namespace Edyn.Collide

open Edyn.Math hiding lengthSqr_nonneg
open V3 Edyn.Geom Edyn.Contact

/-- `try_normalize`, `vector3.hpp` 239-248: `none` if it returns false. -/
noncomputable def tryNormalize (tiny : ℝ) (v : V3 ℝ) : Option (V3 ℝ) :=
  if tiny < lengthSqr v then some (smul (1 / Real.sqrt (lengthSqr v)) v) else none

/-- The normal and the distance for segments which intersect, `collide_capsule_capsule.cpp` 39-53. -/
noncomputable def crossNormal (tiny : ℝ) (axisA axisB delta : V3 ℝ) : V3 ℝ :=
  let n := cross axisA axisB
  let n := if dot delta n < 0 then smul (-1) n else n
  match tryNormalize tiny n with
  | some m => m
  | none => ey

/-- `collide` of two capsules, `collide_capsule_capsule.cpp` 7-81. -/
noncomputable def capsuleCapsule (eps tiny rA hlA : ℝ) (aA : Axis) (rB hlB : ℝ) (aB : Axis) (c : Ctx) : Res :=
  let a0 := capVertex0 hlA aA c.posA c.ornA
  let a1 := capVertex1 hlA aA c.posA c.ornA
  let b0 := capVertex0 hlB aB c.posB c.ornB
  let b1 := capVertex1 hlB aB c.posB c.ornB
  let r := closestSegSeg eps true a0 a1 b0 b1
  let minDist := rA + rB + c.thr
  if minDist * minDist < r.distSqr then some [] else
  let nd := if eps < r.distSqr then
      let dist := Real.sqrt r.distSqr
      (smul (1 / dist) (r.c1 - r.c2), dist - rA - rB)
    else (crossNormal tiny (a1 - a0) (b1 - b0) (c.posA - c.posB), -(rA + rB))
  r.num.bind fun num =>
  let fA := if num = 2 then ⟨.capSide, some 0⟩ else capFeat r.s
  let fB := if num = 2 then ⟨.capSide, some 0⟩ else capFeat r.t
  let point (ca cb : V3 ℝ) : Point :=
    ⟨toObjectSpace (ca - smul rA nd.1) c.posA c.ornA, toObjectSpace (cb + smul rB nd.1) c.posB c.ornB, nd.1, nd.2,
      .none, some fA, some fB⟩
  if num = 2 then r.second.map fun x => [point r.c1 r.c2, point x.2.2.1 x.2.2.2]
  else some [point r.c1 r.c2]

/-- The full statement for two capsules. -/
def CapsuleCapsuleFull (eps tiny : ℝ) : Prop :=
  ∀ (rA hlA : ℝ) (aA : Axis) (rB hlB : ℝ) (aB : Axis) (c : Ctx), 0 < rA → 0 < hlA → eps < 4 * hlA * hlA →
    0 < rB → 0 < hlB → eps < 4 * hlB * hlB → c.Ok →
    Right (Placed (capsuleSet rA hlA aA) c.posA c.ornA) (Placed (capsuleSet rB hlB aB) c.posB c.ornB) c
      (capsuleCapsule eps tiny rA hlA aA rB hlB aB c)

/-! ## Facts about closest pairs -/

/-- All closest pairs of two convex sets have the same step between them. -/
theorem closest_pair_step {KA KB : V3 ℝ → Prop} (hA : Convex KA) (hB : Convex KB) {a b a' b' : V3 ℝ}
    (h : ClosestPair KA KB a b) (h' : ClosestPair KA KB a' b') : a' - b' = a - b := by
  have e1 := h.2.2 a' b' h'.1 h'.2.1
  have e2 := h'.2.2 a b h.1 h.2.1
  have e3 := h.2.2 _ _ (hA a a' h.1 h'.1 (1 / 2) (by norm_num) (by norm_num))
    (hB b b' h.2.1 h'.2.1 (1 / 2) (by norm_num) (by norm_num))
  have e4 : lengthSqr ((a' - b') - (a - b)) = 0 := by
    refine le_antisymm ?_ (lengthSqr_nonneg _)
    have : lengthSqr ((a' - b') - (a - b)) = 2 * lengthSqr (a - b) + 2 * lengthSqr (a' - b') -
        4 * lengthSqr (a + smul (1 / 2) (a' - a) - (b + smul (1 / 2) (b' - b))) := by
      simp [lengthSqr, dot]; ring
    rw [this]; linarith
  have := lengthSqr_eq_zero e4
  have x1 := congrArg V3.x this
  have x2 := congrArg V3.y this
  have x3 := congrArg V3.z this
  simp at x1 x2 x3
  ext <;> simp <;> linarith

/-- The result of the two-segment function, if right, is a closest pair. -/
theorem right_pair {p1 q1 p2 q2 : V3 ℝ} {r : SegSeg} (h : r.Right p1 q1 p2 q2) :
    ClosestPair (segSet p1 q1) (segSet p2 q2) r.c1 r.c2 := by
  obtain ⟨⟨s0, s1⟩, ⟨t0, t1⟩, e1, e2, _, hm⟩ := h
  refine ⟨⟨r.s, s0, s1, e1⟩, ⟨r.t, t0, t1, e2⟩, ?_⟩
  rintro _ _ ⟨s, s0, s1, rfl⟩ ⟨t, t0, t1, rfl⟩
  exact hm s t s0 s1 t0 t1

/-- Whether there are one or two pairs. -/
theorem seg_count {eps : ℝ} {p1 q1 p2 q2 : V3 ℝ} (h1 : eps < lengthSqr (q1 - p1)) (h2 : eps < lengthSqr (q2 - p2)) :
    let r := closestSegSeg eps true p1 q1 p2 q2
    r.num = some 1 ∨ (lengthSqr (cross (q1 - p1) (q2 - p2)) ≤ eps ∧ r.num = some 2 ∧ ∃ x, r.second = some x) := by
  intro r
  have h1' : eps < dot (q1 - p1) (q1 - p1) := h1
  have h2' : eps < dot (q2 - p2) (q2 - p2) := h2
  simp only [r]
  unfold closestSegSeg
  simp only
  rw [if_neg (by intro h; linarith [h.1]), if_neg (not_le.mpr h1'), if_neg (not_le.mpr h2')]
  by_cases hd : eps < dot (q1 - p1) (q1 - p1) * dot (q2 - p2) (q2 - p2) - dot (q1 - p1) (q2 - p2) * dot (q1 - p1) (q2 - p2)
  · rw [if_pos hd]; left; simp
  · rw [if_neg hd]
    rw [denom_eq] at hd
    simp only [if_true]
    split
    · right; exact ⟨not_lt.mp hd, rfl, _, rfl⟩
    · left; rfl

/-- Parallel vectors. -/
theorem parallel_smul {u v : V3 ℝ} (hu : lengthSqr u ≠ 0) (h : cross u v = 0) : v = smul (dot u v / lengthSqr u) u := by
  have c1 := congrArg V3.x h
  have c2 := congrArg V3.y h
  have c3 := congrArg V3.z h
  simp only [cross_x, cross_y, cross_z, zero_x, zero_y, zero_z] at c1 c2 c3
  have key : ∀ a b : ℝ, lengthSqr u * b = dot u v * a → b = dot u v / lengthSqr u * a := by
    intro a b e; field_simp; linarith
  ext
  · apply key; simp only [lengthSqr, dot]; linear_combination u.z * c2 - u.y * c3
  · apply key; simp only [lengthSqr, dot]; linear_combination u.x * c3 - u.z * c1
  · apply key; simp only [lengthSqr, dot]; linear_combination u.y * c1 - u.x * c2

theorem crossNormal_spec {tiny : ℝ} (ht : 0 ≤ tiny) {u v : V3 ℝ} (h : tiny < lengthSqr (cross u v)) (d : V3 ℝ) :
    lengthSqr (crossNormal tiny u v d) = 1 ∧ dot u (crossNormal tiny u v d) = 0 ∧ dot v (crossNormal tiny u v d) = 0 := by
  have flip : lengthSqr (smul (-1) (cross u v)) = lengthSqr (cross u v) := by simp [lengthSqr, dot]; ring
  have o1 : dot u (cross u v) = 0 := by simp only [dot, cross_x, cross_y, cross_z]; ring
  have o2 : dot v (cross u v) = 0 := by simp only [dot, cross_x, cross_y, cross_z]; ring
  have key : ∀ n : V3 ℝ, tiny < lengthSqr n → dot u n = 0 → dot v n = 0 →
      lengthSqr (smul (1 / Real.sqrt (lengthSqr n)) n) = 1 ∧ dot u (smul (1 / Real.sqrt (lengthSqr n)) n) = 0 ∧
        dot v (smul (1 / Real.sqrt (lengthSqr n)) n) = 0 := by
    intro n hn h1 h2
    rw [dot_smul_right, dot_smul_right, h1, h2, mul_zero]
    refine ⟨?_, rfl, rfl⟩
    have hp : 0 < lengthSqr n := lt_of_le_of_lt ht hn
    have hs := Real.mul_self_sqrt hp.le
    have hs0 : 0 < Real.sqrt (lengthSqr n) := Real.sqrt_pos.mpr hp
    rw [show lengthSqr (smul (1 / Real.sqrt (lengthSqr n)) n) =
      1 / Real.sqrt (lengthSqr n) * (1 / Real.sqrt (lengthSqr n)) * lengthSqr n by simp [lengthSqr, dot]; ring]
    generalize Real.sqrt (lengthSqr n) = s at hs hs0
    rw [← hs]; field_simp
  unfold crossNormal tryNormalize
  simp only
  by_cases hd : dot d (cross u v) < 0
  · rw [if_pos hd, if_pos (by rw [flip]; exact h)]
    exact key _ (by rw [flip]; exact h) (by rw [dot_smul_right, o1, mul_zero]) (by rw [dot_smul_right, o2, mul_zero])
  · rw [if_neg hd, if_pos h]
    exact key _ h o1 o2

/-- **C71, two capsules, partial.** The result is right and the features say where on the middle segments
the contact is, if: the axes are parallel, or not parallel by more than the tolerance; the middle segments
are further apart than the tolerance, or they cross and are not parallel; and, if the axes are parallel and
point the same way, the second segment starts in the first half of the first one or ends on it.  Missing:
see `capsule_capsule_refuted` (the last condition) and `capsule_capsule_collinear`. -/
theorem capsule_capsule_partial (eps tiny rA hlA : ℝ) (aA : Axis) (rB hlB : ℝ) (aB : Axis) (c : Ctx)
    (ht0 : 0 ≤ tiny) (hte : tiny ≤ eps) (ra : 0 < rA) (ha : 0 < hlA) (ha4 : eps < 4 * hlA * hlA)
    (rb : 0 < rB) (hb : 0 < hlB) (hb4 : eps < 4 * hlB * hlB) (hc : c.Ok) (a0 a1 b0 b1 : V3 ℝ)
    (ea0 : a0 = capVertex0 hlA aA c.posA c.ornA) (ea1 : a1 = capVertex1 hlA aA c.posA c.ornA)
    (eb0 : b0 = capVertex0 hlB aB c.posB c.ornB) (eb1 : b1 = capVertex1 hlB aB c.posB c.ornB)
    (hpar : cross (a1 - a0) (b1 - b0) = 0 ∨ eps < lengthSqr (cross (a1 - a0) (b1 - b0)))
    (hsep : (∀ a b, segSet a0 a1 a → segSet b0 b1 b → eps < lengthSqr (a - b)) ∨
      ((∃ w, segSet a0 a1 w ∧ segSet b0 b1 w) ∧ cross (a1 - a0) (b1 - b0) ≠ 0))
    (hfit : cross (a1 - a0) (b1 - b0) = 0 → dot (a1 - a0) (b1 - b0) < 0 ∨
      dot (a1 - a0) (b0 - a0) ≤ lengthSqr (a1 - a0) / 2 ∨ dot (a1 - a0) (b1 - a0) ≤ lengthSqr (a1 - a0)) :
    Right (Placed (capsuleSet rA hlA aA) c.posA c.ornA) (Placed (capsuleSet rB hlB aB) c.posB c.ornB) c
        (capsuleCapsule eps tiny rA hlA aA rB hlB aB c) ∧
      ∀ l, capsuleCapsule eps tiny rA hlA aA rB hlB aB c = some l → ∀ p ∈ l,
        (l.length = 1 → CapFeature a0 a1 (c.wA p + smul rA p.n) p.fA ∧ CapFeature b0 b1 (c.wB p - smul rB p.n) p.fB) ∧
        (l.length ≠ 1 → p.fA = some ⟨.capSide, some 0⟩ ∧ p.fB = some ⟨.capSide, some 0⟩) := by
  obtain ⟨oA, oB, ht⟩ := hc
  rw [capsule_inflate rA hlA ha aA c.posA oA, capsule_inflate rB hlB hb aB c.posB oB]
  have hlA' := cap_length hlA aA c.posA oA
  have hlB' := cap_length hlB aB c.posB oB
  unfold capsuleCapsule
  simp only
  rw [← ea0, ← ea1, ← eb0, ← eb1] at *
  have he : 0 ≤ eps := by linarith
  have nzA : lengthSqr (a1 - a0) ≠ 0 := by rw [hlA']; nlinarith
  have neA : a1 - a0 ≠ 0 := by
    intro e; rw [e] at hlA'; simp [lengthSqr, dot] at hlA'; linarith
  have neB : b1 - b0 ≠ 0 := by
    intro e; rw [e] at hlB'; simp [lengthSqr, dot] at hlB'; linarith
  have hright := closest_segments_partial eps he true a0 a1 b0 b1 (Or.inr (by rw [hlA']; exact ha4))
    (Or.inr (by rw [hlB']; exact hb4)) hpar
  have hpair := right_pair hright
  have hcount := seg_count (by rw [hlA']; exact ha4 : eps < lengthSqr (a1 - a0)) (by rw [hlB']; exact hb4)
  simp only at hcount
  have hsecond : ∀ sp tp d1 d2, cross (a1 - a0) (b1 - b0) = 0 →
      (closestSegSeg eps true a0 a1 b0 b1).second = some (sp, tp, d1, d2) →
      ClosestPair (segSet a0 a1) (segSet b0 b1) d1 d2 := by
    intro sp tp d1 d2 hx hs
    have hk := parallel_smul nzA hx
    have hpos : 0 < lengthSqr (a1 - a0) := lt_of_le_of_ne (lengthSqr_nonneg _) (Ne.symm nzA)
    obtain ⟨⟨s0, s1⟩, ⟨t0, t1⟩, e1, e2, hm⟩ := second_pair_partial eps he a0 a1 b0 b1 _ hk (by rw [hlA']; exact ha4)
      (by rw [hlB']; exact hb4) (by
        rcases hfit hx with h | h | h
        · left; exact div_neg_of_neg_of_pos h hpos
        · right; left; exact h
        · right; right; exact h) sp tp d1 d2 hs
    refine ⟨⟨sp, s0, s1, e1⟩, ⟨tp, t0, t1, e2⟩, ?_⟩
    rintro _ _ ⟨s, s0, s1, rfl⟩ ⟨t, t0, t1, rfl⟩
    exact hm s t s0 s1 t0 t1
  generalize closestSegSeg eps true a0 a1 b0 b1 = r at *
  have hn := inflate_near hpair ra.le rb.le ht
  obtain ⟨⟨s0, s1⟩, ⟨t0, t1⟩, ec1, ec2, edist, _⟩ := hright
  rw [edist]
  by_cases hfar : (rA + rB + c.thr) * (rA + rB + c.thr) < lengthSqr (r.c1 - r.c2)
  · rw [if_pos hfar]
    refine ⟨⟨[], rfl, by rw [hn]; simp [hfar], by simp⟩, ?_⟩
    intro l hl p hp
    rw [Option.some.injEq] at hl
    rw [← hl] at hp; simp at hp
  rw [if_neg hfar]
  -- the normal and the distance are right for every closest pair
  have good : ∃ n d, (if eps < lengthSqr (r.c1 - r.c2) then
      (smul (1 / Real.sqrt (lengthSqr (r.c1 - r.c2))) (r.c1 - r.c2), Real.sqrt (lengthSqr (r.c1 - r.c2)) - rA - rB)
      else (crossNormal tiny (a1 - a0) (b1 - b0) (c.posA - c.posB), -(rA + rB))) = (n, d) ∧
      ∀ d1 d2, ClosestPair (segSet a0 a1) (segSet b0 b1) d1 d2 → ∀ fA fB,
        Good (Inflate (segSet a0 a1) rA) (Inflate (segSet b0 b1) rB) c
          ⟨toObjectSpace (d1 - smul rA n) c.posA c.ornA, toObjectSpace (d2 + smul rB n) c.posB c.ornB, n, d,
            .none, fA, fB⟩ := by
    by_cases hb' : eps < lengthSqr (r.c1 - r.c2)
    · rw [if_pos hb']
      refine ⟨_, _, rfl, ?_⟩
      intro d1 d2 hd fA fB
      have hstep := closest_pair_step (seg_convex a0 a1) (seg_convex b0 b1) hpair hd
      have hs := Real.mul_self_sqrt (lengthSqr_nonneg (r.c1 - r.c2))
      have hs0 : 0 < Real.sqrt (lengthSqr (r.c1 - r.c2)) := Real.sqrt_pos.mpr (by linarith)
      rw [← hstep] at hs hs0 ⊢
      obtain ⟨g1, g2, g3, g4⟩ := inflate_good (seg_convex a0 a1) (seg_convex b0 b1) hd ra.le rb.le hs0 hs
      refine ⟨g1, ?_, ?_, ?_⟩
      · simp only [Ctx.wA]; rw [world_object _ _ oA]; exact g2
      · simp only [Ctx.wB]; rw [world_object _ _ oB]; exact g3
      · simp only [Ctx.wA, Ctx.wB]; rw [world_object _ _ oA, world_object _ _ oB]; exact g4
    · rw [if_neg hb']
      rcases hsep with hsep | ⟨⟨w, w1, w2⟩, hx⟩
      · exact absurd (hsep _ _ hpair.1 hpair.2.1) hb'
      refine ⟨_, _, rfl, ?_⟩
      intro d1 d2 hd fA fB
      have hx' : tiny < lengthSqr (cross (a1 - a0) (b1 - b0)) := by
        rcases hpar with h | h
        · exact absurd h hx
        · linarith
      obtain ⟨u, oa, ob⟩ := crossNormal_spec ht0 hx' (c.posA - c.posB)
      generalize crossNormal tiny (a1 - a0) (b1 - b0) (c.posA - c.posB) = n at u oa ob ⊢
      have hz : d1 = d2 := by
        have : lengthSqr (d1 - d2) = 0 := by
          refine le_antisymm (le_trans (hd.2.2 w w w1 w2) ?_) (lengthSqr_nonneg _)
          simp [lengthSqr, dot]
        have := lengthSqr_eq_zero this
        have e1 := congrArg V3.x this
        have e2 := congrArg V3.y this
        have e3 := congrArg V3.z this
        simp at e1 e2 e3
        ext <;> linarith
      refine ⟨u, ?_, ?_, ?_⟩
      · simp only [Ctx.wA]; rw [world_object _ _ oA, minus_smul]
        exact inflate_extreme ra.le (neg_unit u) (seg_extreme_orth hd.1 (by rw [dot_neg_right, oa, neg_zero]))
      · simp only [Ctx.wB]; rw [world_object _ _ oB]
        exact inflate_extreme rb.le u (seg_extreme_orth hd.2.1 ob)
      · simp only [Ctx.wA, Ctx.wB]; rw [world_object _ _ oA, world_object _ _ oB, hz]
        ext <;> simp <;> ring
  obtain ⟨n, d, hnd, hgood⟩ := good
  rw [hnd]
  rcases hcount with h1 | ⟨hx, h2, ⟨sp, tp, d1, d2⟩, hs⟩
  · rw [h1, Option.bind_some]
    simp only [show ¬ (1 = 2) by norm_num, if_false]
    refine ⟨⟨_, rfl, by rw [hn]; simpa using hfar, ?_⟩, ?_⟩
    · simp only [List.mem_singleton, forall_eq]
      exact hgood _ _ hpair _ _
    · intro l hl p hp
      rw [Option.some.injEq] at hl
      rw [← hl, List.mem_singleton] at hp
      rw [← hl, hp]
      refine ⟨fun _ => ?_, fun h => absurd rfl h⟩
      simp only [Ctx.wA, Ctx.wB]
      rw [world_object _ _ oA, world_object _ _ oB]
      rw [show r.c1 - smul rA n + smul rA n = r.c1 by ext <;> simp,
        show r.c2 + smul rB n - smul rB n = r.c2 by ext <;> simp, ec1, ec2]
      exact ⟨capFeat_spec neA s0 s1, capFeat_spec neB t0 t1⟩
  · have hx0 : cross (a1 - a0) (b1 - b0) = 0 := by
      rcases hpar with h | h
      · exact h
      · linarith
    have hp2 := hsecond sp tp d1 d2 hx0 hs
    rw [h2, Option.bind_some]
    simp only [if_true, hs, Option.map_some]
    refine ⟨⟨_, rfl, by rw [hn]; simpa using hfar, ?_⟩, ?_⟩
    · intro p hp
      simp only [List.mem_cons, List.not_mem_nil, or_false] at hp
      rcases hp with rfl | rfl
      · exact hgood _ _ hpair _ _
      · exact hgood _ _ hp2 _ _
    · intro l hl p hp
      rw [Option.some.injEq] at hl
      rw [← hl] at hp ⊢
      simp only [List.mem_cons, List.not_mem_nil, or_false] at hp
      refine ⟨fun h => by simp at h, fun _ => ?_⟩
      rcases hp with rfl | rfl <;> exact ⟨rfl, rfl⟩

/-- Two parallel capsules beside each other, the second one sticking out at the end: the pivots of the second
point are not opposite to each other. -/
theorem capsule_capsule_refuted (eps tiny : ℝ) (he : 0 ≤ eps) (he2 : eps < 1 / 10) : ¬ CapsuleCapsuleFull eps tiny := by
  intro hf
  obtain ⟨l, h1, _, h3⟩ := hf (1 / 2) (5 / 4) .x (1 / 2) (1 / 2) .x ⟨⟨3 / 4, 0, 1⟩, 1, ⟨-1 / 2, 0, 0⟩, 1, 0⟩
    (by norm_num) (by norm_num) (by linarith) (by norm_num) (by norm_num) (by linarith) ⟨one_unit, one_unit, le_rfl⟩
  have e0 : capVertex0 (5 / 4) .x ⟨3 / 4, 0, 1⟩ 1 = ⟨2, 0, 1⟩ := by
    unfold capVertex0; rw [rotate_one]; ext <;> norm_num [Axis.vec, ex]
  have e1 : capVertex1 (5 / 4) .x ⟨3 / 4, 0, 1⟩ 1 = ⟨-1 / 2, 0, 1⟩ := by
    unfold capVertex1; rw [rotate_one]; ext <;> norm_num [Axis.vec, ex]
  have e2 : capVertex0 (1 / 2) .x ⟨-1 / 2, 0, 0⟩ 1 = ⟨0, 0, 0⟩ := by
    unfold capVertex0; rw [rotate_one]; ext <;> norm_num [Axis.vec, ex]
  have e3 : capVertex1 (1 / 2) .x ⟨-1 / 2, 0, 0⟩ 1 = ⟨-1, 0, 0⟩ := by
    unfold capVertex1; rw [rotate_one]; ext <;> norm_num [Axis.vec, ex]
  have hc : closestSegSeg eps true ⟨2, 0, 1⟩ ⟨-1 / 2, 0, 1⟩ ⟨0, 0, 0⟩ ⟨-1, 0, 0⟩ =
      ⟨4 / 5, 0, ⟨0, 0, 1⟩, ⟨0, 0, 0⟩, 1, some 2, some (1, 1, ⟨-1 / 2, 0, 1⟩, ⟨-1, 0, 0⟩)⟩ := by
    have v1 : (⟨-1 / 2, 0, 1⟩ : V3 ℝ) - ⟨2, 0, 1⟩ = ⟨-5 / 2, 0, 0⟩ := by ext <;> norm_num
    have v2 : (⟨-1, 0, 0⟩ : V3 ℝ) - ⟨0, 0, 0⟩ = ⟨-1, 0, 0⟩ := by ext <;> norm_num
    have v3 : (⟨2, 0, 1⟩ : V3 ℝ) - ⟨0, 0, 0⟩ = ⟨2, 0, 1⟩ := by ext <;> norm_num
    have v4 : (⟨2, 0, 1⟩ : V3 ℝ) - ⟨-1, 0, 0⟩ = ⟨3, 0, 1⟩ := by ext <;> norm_num
    have v5 : (⟨0, 0, 0⟩ : V3 ℝ) - ⟨-1 / 2, 0, 1⟩ = ⟨1 / 2, 0, -1⟩ := by ext <;> norm_num
    have d1 : dot (⟨-5 / 2, 0, 0⟩ : V3 ℝ) ⟨-5 / 2, 0, 0⟩ = 25 / 4 := by norm_num [dot]
    have d2 : dot (⟨-1, 0, 0⟩ : V3 ℝ) ⟨-1, 0, 0⟩ = 1 := by norm_num [dot]
    have d3 : dot (⟨-1, 0, 0⟩ : V3 ℝ) ⟨2, 0, 1⟩ = -2 := by norm_num [dot]
    have d4 : dot (⟨-5 / 2, 0, 0⟩ : V3 ℝ) ⟨2, 0, 1⟩ = -5 := by norm_num [dot]
    have d5 : dot (⟨-5 / 2, 0, 0⟩ : V3 ℝ) ⟨-1, 0, 0⟩ = 5 / 2 := by norm_num [dot]
    have d6 : dot (⟨-5 / 2, 0, 0⟩ : V3 ℝ) ⟨3, 0, 1⟩ = -15 / 2 := by norm_num [dot]
    have d7 : dot (⟨-1, 0, 0⟩ : V3 ℝ) ⟨1 / 2, 0, -1⟩ = -1 / 2 := by norm_num [dot]
    unfold closestSegSeg
    simp only [v1, v2, v3, v4, v5, d1, d2, d3, d4, d5, d6, d7]
    rw [if_neg (by intro h; linarith [h.1]), if_neg (by linarith), if_neg (by linarith), if_neg (by linarith), if_pos trivial]
    have k1 : clampUnit (min (- -5 * (1 / (25 / 4))) (-(-15 / 2) * (1 / (25 / 4)))) = (4 / 5 : ℝ) := by
      norm_num; exact clamp_of_mem (by norm_num) (by norm_num)
    have k2 : clampUnit (max (- -5 * (1 / (25 / 4))) (-(-15 / 2) * (1 / (25 / 4)))) = (1 : ℝ) := by
      norm_num; exact clamp_of_ge (by norm_num)
    have k3 : clampUnit (max (- -2 * (1 / 1)) (-(-1 / 2) * (1 / 1))) = (1 : ℝ) := by
      norm_num; exact clamp_of_ge (by norm_num)
    rw [k1, k2, k3, if_pos (by norm_num; linarith)]
    have f1 : segFinish (25 / 4) (5 / 2) (-5) 1 (-2) (4 / 5) = (4 / 5, 0) := by
      unfold segFinish
      simp only
      rw [if_neg (by norm_num), if_neg (by norm_num)]; norm_num
    rw [f1]
    norm_num [lengthSqr, dot]
    refine ⟨?_, ?_, ?_, ?_⟩ <;> ext <;> norm_num
  unfold capsuleCapsule at h1
  simp only [e0, e1, e2, e3, hc] at h1
  rw [if_neg (by norm_num), if_pos (by linarith)] at h1
  simp only [Option.bind_some, if_true, Option.map_some, Option.some.injEq] at h1
  have hg := h3 _ (by rw [← h1]; exact List.mem_cons_of_mem _ (List.mem_singleton.mpr rfl))
  have hs := congrArg V3.x hg.step
  simp only [Ctx.wA, Ctx.wB] at hs
  rw [world_object _ _ one_unit, world_object _ _ one_unit] at hs
  norm_num at hs

theorem crossNormal_collinear (tiny : ℝ) (ht : 0 ≤ tiny) (u v d : V3 ℝ) (h : cross u v = 0) :
    crossNormal tiny u v d = ey := by
  unfold crossNormal tryNormalize
  simp only
  rw [h]
  have z : smul (-1) (0 : V3 ℝ) = 0 := by ext <;> simp
  rw [z, ite_self]
  have l0 : lengthSqr (0 : V3 ℝ) = 0 := by simp [lengthSqr, dot]
  rw [l0, if_neg (not_lt.mpr ht)]

/-- If the middle segments are parallel and have a common point, the normal is the world's `y` axis whatever
the direction of the capsules is: only good if the capsules happen to be horizontal. -/
theorem capsule_capsule_collinear (eps tiny rA hlA : ℝ) (aA : Axis) (rB hlB : ℝ) (aB : Axis) (c : Ctx)
    (ht0 : 0 ≤ tiny) (he : 0 ≤ eps) (ra : 0 < rA) (ha4 : eps < 4 * hlA * hlA)
    (rb : 0 < rB) (hb4 : eps < 4 * hlB * hlB) (hc : c.Ok) (a0 a1 b0 b1 : V3 ℝ)
    (ea0 : a0 = capVertex0 hlA aA c.posA c.ornA) (ea1 : a1 = capVertex1 hlA aA c.posA c.ornA)
    (eb0 : b0 = capVertex0 hlB aB c.posB c.ornB) (eb1 : b1 = capVertex1 hlB aB c.posB c.ornB)
    (hpar : cross (a1 - a0) (b1 - b0) = 0) (hw : ∃ w, segSet a0 a1 w ∧ segSet b0 b1 w) :
    ∃ p l, capsuleCapsule eps tiny rA hlA aA rB hlB aB c = some (p :: l) ∧
      ∀ q ∈ p :: l, q.n = ey ∧ q.dist = -(rA + rB) := by
  obtain ⟨oA, oB, ht⟩ := hc
  have hlA' := cap_length hlA aA c.posA oA
  have hlB' := cap_length hlB aB c.posB oB
  unfold capsuleCapsule
  simp only
  rw [← ea0, ← ea1, ← eb0, ← eb1] at *
  have hright := closest_segments_partial eps he true a0 a1 b0 b1 (Or.inr (by rw [hlA']; exact ha4))
    (Or.inr (by rw [hlB']; exact hb4)) (Or.inl hpar)
  have hpair := right_pair hright
  have hcount := seg_count (by rw [hlA']; exact ha4 : eps < lengthSqr (a1 - a0)) (by rw [hlB']; exact hb4)
  simp only at hcount
  generalize closestSegSeg eps true a0 a1 b0 b1 = r at *
  obtain ⟨w, w1, w2⟩ := hw
  have hz : lengthSqr (r.c1 - r.c2) = 0 := by
    refine le_antisymm (le_trans (hpair.2.2 w w w1 w2) ?_) (lengthSqr_nonneg _)
    simp [lengthSqr, dot]
  rw [hright.2.2.2.2.1, hz, if_neg (by nlinarith), if_neg (not_lt.mpr he), crossNormal_collinear tiny ht0 _ _ _ hpar]
  rcases hcount with h1 | ⟨_, h2, x, hs⟩
  · rw [h1, Option.bind_some]
    simp only [show ¬ (1 = 2) by norm_num, if_false]
    refine ⟨_, _, rfl, ?_⟩
    intro q hq
    simp only [List.mem_singleton] at hq
    rw [hq]; exact ⟨rfl, rfl⟩
  · rw [h2, Option.bind_some]
    simp only [if_true, hs, Option.map_some]
    refine ⟨_, _, rfl, ?_⟩
    intro q hq
    simp only [List.mem_cons, List.not_mem_nil, or_false] at hq
    rcases hq with rfl | rfl <;> exact ⟨rfl, rfl⟩

/-- A normal along the axis of a capsule is not good in the middle of it: no such point is extreme. -/
theorem capsule_axis_not_good (rA hl : ℝ) (hh : 0 < hl) (ra : 0 < rA) (q : V3 ℝ)
    (h : Extreme (Placed (capsuleSet rA hl .y) 0 1) (-ey) (q - smul rA ey)) : q.y = -hl := by
  rw [capsule_inflate rA hl hh .y 0 one_unit] at h
  have e0 : capVertex0 hl .y 0 1 = ⟨0, hl, 0⟩ := by
    unfold capVertex0; rw [rotate_one]; ext <;> simp [Axis.vec, ey]
  have e1 : capVertex1 hl .y 0 1 = ⟨0, -hl, 0⟩ := by
    unfold capVertex1; rw [rotate_one]; ext <;> simp [Axis.vec, ey]
  rw [e0, e1] at h
  obtain ⟨⟨k, ⟨t, t0, t1, rfl⟩, hk⟩, hm⟩ := h
  have := hm ⟨0, -hl - rA, 0⟩ ⟨⟨0, -hl, 0⟩, ⟨1, zero_le_one, le_rfl, by ext <;> simp⟩, by
    simp [lengthSqr, dot]; nlinarith⟩
  simp [dot, ey] at this
  have hk' := (dot_le_of_unit ra.le hk ey_unit).2
  simp [dot, ey] at hk'
  have h2 : t * hl ≤ hl := by nlinarith
  nlinarith

/-- Not vacuous: two crossing capsules, the axes orthogonal and one unit apart, meet the hypotheses of
`capsule_capsule_partial`. -/
example : ∀ a b : V3 ℝ, segSet ⟨1, 0, 0⟩ ⟨-1, 0, 0⟩ a → segSet ⟨0, 1, 1⟩ ⟨0, -1, 1⟩ b →
    (1 / 100 : ℝ) < lengthSqr (a - b) ∧
      (1 / 100 : ℝ) < lengthSqr (cross ((⟨-1, 0, 0⟩ : V3 ℝ) - ⟨1, 0, 0⟩) (⟨0, -1, 1⟩ - ⟨0, 1, 1⟩)) := by
  rintro _ _ ⟨s, _, _, rfl⟩ ⟨t, _, _, rfl⟩
  constructor
  · simp only [lengthSqr, dot, sub_x, sub_y, sub_z, add_x, add_y, add_z, smul_x, smul_y, smul_z]
    nlinarith [mul_self_nonneg (1 + s * (-1 - 1) - (0 + t * (0 - 0))), mul_self_nonneg (0 + s * (0 - 0) - (1 + t * (-1 - 1)))]
  · norm_num [lengthSqr, dot, cross]

end Edyn.Collide
