import Verif.Collide.Capsule
import Verif.Geom.RaycastCyl

/-!
# Contact points of cylinders with spheres (C71)

`src/edyn/collision/collide/collide_cylinder_sphere.cpp`, over exact reals.  `eps` is `EDYN_EPSILON`.
-/

namespace Edyn.Collide

open Edyn.Math hiding lengthSqr_nonneg
open V3 Edyn.Geom Edyn.Contact

/-- The part of the function for spheres beside the cylinder, `collide_cylinder_sphere.cpp` 29-49. -/
noncomputable def cylSphereSide (eps rA rB : ℝ) (pCyl : V3 ℝ) (c : Ctx) : Res :=
  let dir := pCyl - c.posB
  let distSqr := lengthSqr dir
  let minDist := rA + rB + c.thr
  if minDist * minDist < distSqr then some [] else
  let dist := Real.sqrt distSqr
  let normal := if eps < distSqr then smul (1 / dist) dir else ey
  some [⟨Quat.rotate c.ornA.conjugate (pCyl - smul rA normal - c.posA), Quat.rotate c.ornB.conjugate (smul rB normal),
    normal, dist - rA - rB, .none, some ⟨.cylSideEdge, some 0⟩, none⟩]

/-- The part of the function for spheres beyond a cap, `collide_cylinder_sphere.cpp` 52-85. -/
noncomputable def cylSphereCap (eps rA hl : ℝ) (a : Axis) (rB t : ℝ) (c : Ctx) : Res :=
  let axis := Quat.rotate c.ornA a.vec
  let idx := if t < 1 / 2 then 0 else 1
  let discPos := if t < 1 / 2 then c.posA + smul hl axis else c.posA - smul hl axis
  (closestDisc discPos c.ornA rA a c.posB).bind fun r =>
  let minDist := rB + c.thr
  if minDist * minDist < r.1 then some [] else
  let normal := r.2 - c.posB
  let lenSqr := lengthSqr normal
  let len := Real.sqrt lenSqr
  let normal := if eps < lenSqr then smul (1 / len) normal else smul (if 1 / 2 < t then 1 else -1) axis
  let proj := projectPlane c.posB c.posA axis
  let inside := lengthSqr (proj - c.posA) < rA * rA
  some [⟨Quat.rotate c.ornA.conjugate (r.2 - c.posA), Quat.rotate c.ornB.conjugate (smul rB normal), normal, len - rB,
    if inside then .onA else .none, some ⟨if inside then .cylFace else .cylSideEdge, some idx⟩, none⟩]

/-- `collide` of a cylinder and a sphere, `collide_cylinder_sphere.cpp` 8-86. -/
noncomputable def cylinderSphere (eps rA hl : ℝ) (a : Axis) (rB : ℝ) (c : Ctx) : Res :=
  let axis := Quat.rotate c.ornA a.vec
  let v0 := c.posA + smul hl axis
  let v1 := c.posA - smul hl axis
  let v := v1 - v0
  let w := c.posB - v0
  let denom := dot v v
  if denom ≤ eps then none else
  let t := dot w v / denom
  if 0 < t ∧ t < 1 then cylSphereSide eps rA rB (v0 + smul t v) c
  else cylSphereCap eps rA hl a rB t c

/-- The full statement for a cylinder and a sphere. -/
def CylinderSphereFull (eps : ℝ) : Prop :=
  ∀ (rA hl : ℝ) (a : Axis) (rB : ℝ) (c : Ctx), 0 < rA → 0 < hl → eps < 4 * hl * hl → 0 < rB → c.Ok →
    Right (Placed (cylinderSet rA hl a) c.posA c.ornA) (Placed (ballSet rB) c.posB c.ornB) c
      (cylinderSphere eps rA hl a rB c)

/-! ## Cylinders -/

/-- Extreme points at a distance along the normal: sets within the threshold are not further apart. -/
theorem near_le {SA SB : V3 ℝ → Prop} {n a b : V3 ℝ} {δ t : ℝ} (hn : lengthSqr n = 1) (ht : 0 ≤ t)
    (hA : Extreme SA (-n) a) (hB : Extreme SB n b) (hs : a - b = smul δ n) (h : Near SA SB t) : δ ≤ t := by
  obtain ⟨x, y, hx, hy, hl⟩ := h
  have h1 := hA.2 x hx
  have h2 := hB.2 y hy
  have h3 := (dot_le_of_unit ht hl hn).1
  have h4 : dot (a - b) n = δ := by rw [hs, dot_smul_left, show dot n n = 1 from hn, mul_one]
  rw [dot_neg_right, dot_neg_right] at h1
  rw [dot_sub_left] at h3 h4
  linarith

theorem cylinder_convex (r hl : ℝ) (hr : 0 ≤ r) (a : Axis) : Convex (cylinderSet r hl a) := by
  rintro p q ⟨p1, p2⟩ ⟨q1, q2⟩ t t0 t1
  rw [abs_le] at p1 q1
  have e : dot (p + smul t (q - p)) a.vec = dot p a.vec + t * (dot q a.vec - dot p a.vec) := by
    rw [dot_add_left, dot_smul_left, dot_sub_left]
  constructor
  · rw [e, abs_le]
    constructor <;> nlinarith
  · rw [e]
    set x := p - smul (dot p a.vec) a.vec
    set y := q - smul (dot q a.vec) a.vec
    have e2 : p + smul t (q - p) - smul (dot p a.vec + t * (dot q a.vec - dot p a.vec)) a.vec =
        smul (1 - t) x + smul t y := by
      simp only [x, y]; ext <;> simp <;> ring
    have l1 : lengthSqr (smul (1 - t) x) ≤ ((1 - t) * r) * ((1 - t) * r) := by
      rw [show lengthSqr (smul (1 - t) x) = (1 - t) * (1 - t) * lengthSqr x by simp [lengthSqr, dot]; ring]
      calc _ ≤ (1 - t) * (1 - t) * (r * r) := mul_le_mul_of_nonneg_left p2 (mul_self_nonneg _)
        _ = _ := by ring
    have l2 : lengthSqr (smul t y) ≤ (t * r) * (t * r) := by
      rw [show lengthSqr (smul t y) = t * t * lengthSqr y by simp [lengthSqr, dot]; ring]
      calc _ ≤ t * t * (r * r) := mul_le_mul_of_nonneg_left q2 (mul_self_nonneg _)
        _ = _ := by ring
    rw [e2]
    refine le_trans (length_add_le (by nlinarith) (by positivity) l1 l2) (le_of_eq ?_)
    ring

/-- The parameter along the axis, from the top. -/
theorem cyl_param {posA posB w : V3 ℝ} {hl : ℝ} (hw : lengthSqr w = 1) (hh : 0 < hl) :
    dot ((posA - smul hl w) - (posA + smul hl w)) ((posA - smul hl w) - (posA + smul hl w)) = 4 * hl * hl ∧
    dot (posB - (posA + smul hl w)) ((posA - smul hl w) - (posA + smul hl w)) / (4 * hl * hl) =
      (hl - height posA w posB) / (2 * hl) ∧
    (posA + smul hl w) + smul ((hl - height posA w posB) / (2 * hl)) ((posA - smul hl w) - (posA + smul hl w)) =
      posA + smul (height posA w posB) w := by
  have e : (posA - smul hl w) - (posA + smul hl w) = smul (-2 * hl) w := by ext <;> simp <;> ring
  have hww : dot w w = 1 := hw
  rw [e]
  refine ⟨?_, ?_, ?_⟩
  · rw [dot_smul_left, dot_smul_right, hww]; ring
  · rw [dot_smul_right]
    have : dot (posB - (posA + smul hl w)) w = height posA w posB - hl := by
      unfold height
      have e' : posB - (posA + smul hl w) = (posB - posA) - smul hl w := by ext <;> simp <;> ring
      rw [e', dot_sub_left, dot_smul_left, hww, mul_one]
    rw [this]; field_simp; ring
  · have : (hl - height posA w posB) / (2 * hl) * (-2 * hl) = height posA w posB - hl := by field_simp; ring
    have s : ∀ z : ℝ, (hl - height posA w posB) / (2 * hl) * (-2 * hl * z) = (height posA w posB - hl) * z := by
      intro z; rw [← mul_assoc, this]
    ext <;> simp only [add_x, add_y, add_z, smul_x, smul_y, smul_z] <;> rw [s] <;> ring

/-- What is right for a sphere beside the cylinder: any unit normal orthogonal to the axis along which the
point of the axis is reached from the centre. -/
theorem cyl_side {rA hl rB d t : ℝ} {a : Axis} {posA posB n : V3 ℝ} {ornA ornB : Quat ℝ} (oA : ornA.lengthSqr = 1)
    (oB : ornB.lengthSqr = 1) (ra : 0 < rA) (rb : 0 < rB) (ht : 0 ≤ t) (hd : 0 ≤ d) (hn : lengthSqr n = 1)
    (ho : dot n (Quat.rotate ornA a.vec) = 0) (hh : |height posA (Quat.rotate ornA a.vec) posB| ≤ hl)
    (hs : posA + smul (height posA (Quat.rotate ornA a.vec) posB) (Quat.rotate ornA a.vec) - posB = smul d n) :
    Extreme (Placed (cylinderSet rA hl a) posA ornA) (-n)
      (posA + smul (height posA (Quat.rotate ornA a.vec) posB) (Quat.rotate ornA a.vec) - smul rA n) ∧
    Extreme (Placed (ballSet rB) posB ornB) n (posB + smul rB n) ∧
    (posA + smul (height posA (Quat.rotate ornA a.vec) posB) (Quat.rotate ornA a.vec) - smul rA n) -
      (posB + smul rB n) = smul (d - rA - rB) n ∧
    (Near (Placed (cylinderSet rA hl a) posA ornA) (Placed (ballSet rB) posB ornB) t ↔ d ≤ rA + rB + t) := by
  have hw : lengthSqr (Quat.rotate ornA a.vec) = 1 := rotate_unit oA a.vec_unit
  have pc := fun x => @placed_cylinder rA hl a posA ornA oA x
  generalize Quat.rotate ornA a.vec = w at *
  set k := height posA w posB with hk
  have hww : dot w w = 1 := hw
  have hnn : dot n n = 1 := hn
  have ho' : dot w n = 0 := by rw [dot_comm]; exact ho
  -- points at the height of the centre
  have mem : ∀ α, 0 ≤ α → α ≤ rA → Placed (cylinderSet rA hl a) posA ornA (posA + smul k w - smul α n) := by
    intro α a0 a1
    rw [pc]
    have e1 : posA + smul k w - smul α n - posA = smul k w - smul α n := by ext <;> simp <;> ring
    have hgt : height posA w (posA + smul k w - smul α n) = k := by
      unfold height
      rw [e1, dot_sub_left, dot_smul_left, dot_smul_left, hww, ho]; ring
    have hrad : radial posA w (posA + smul k w - smul α n) = α * α := by
      have hgt' := hgt
      unfold height at hgt'
      unfold radial
      rw [hgt', e1]
      have : lengthSqr (smul k w - smul α n) = k * k * dot w w - 2 * (k * α) * dot w n + α * α * dot n n := by
        simp [lengthSqr, dot]; ring
      rw [this, hww, ho', hnn]; ring
    rw [hgt, hrad]
    exact ⟨hh, by nlinarith⟩
  have eA : Extreme (Placed (cylinderSet rA hl a) posA ornA) (-n) (posA + smul k w - smul rA n) := by
    refine ⟨mem rA ra.le le_rfl, fun x hx => ?_⟩
    rw [pc] at hx
    have hr := hx.2
    unfold radial at hr
    have hx' : lengthSqr (x - posA - smul (dot (x - posA) w) w) ≤ rA * rA := by
      have : lengthSqr (x - posA - smul (dot (x - posA) w) w) =
          lengthSqr (x - posA) - 2 * dot (x - posA) w * dot (x - posA) w +
            dot (x - posA) w * dot (x - posA) w * dot w w := by
        generalize x - posA = y
        generalize hs' : dot y w = s
        simp only [lengthSqr, dot, sub_x, sub_y, sub_z, smul_x, smul_y, smul_z] at hs' ⊢
        rw [← hs']; ring
      rw [this, hww]; linarith
    have h2 := (dot_le_of_unit ra.le hx' hn).2
    rw [dot_sub_left, dot_smul_left, ho', mul_zero, sub_zero, dot_sub_left] at h2
    rw [dot_neg_right, dot_neg_right, dot_sub_left, dot_add_left, dot_smul_left, dot_smul_left, ho', hnn]
    linarith
  have eB : Extreme (Placed (ballSet rB) posB ornB) n (posB + smul rB n) := by
    rw [ball_inflate rB posB oB]; exact inflate_extreme rb.le hn (point_extreme posB n)
  have st : posA + smul k w - smul rA n - (posB + smul rB n) = smul (d - rA - rB) n := by
    have e1 := congrArg V3.x hs
    have e2 := congrArg V3.y hs
    have e3 := congrArg V3.z hs
    simp at e1 e2 e3
    ext <;> simp <;> linarith
  refine ⟨eA, eB, st, ?_, ?_⟩
  · intro h
    have := near_le hn ht eA eB st h
    linarith
  · intro h
    obtain ⟨α, β, ⟨a0, a1⟩, ⟨b0, b1⟩, g0, g1⟩ := split_gap hd ra.le rb.le ht h
    refine ⟨_, posB + smul β n, mem α a0 a1, ?_, ?_⟩
    · rw [placed_ball rB posB oB]
      rw [show lengthSqr (posB + smul β n - posB) = β * β * dot n n by simp [lengthSqr, dot]; ring, hnn]
      nlinarith
    · have : posA + smul k w - smul α n - (posB + smul β n) = smul (d - α - β) n := by
        have e1 := congrArg V3.x hs
        have e2 := congrArg V3.y hs
        have e3 := congrArg V3.z hs
        simp at e1 e2 e3
        ext <;> simp <;> linarith
      rw [this, show lengthSqr (smul (d - α - β) n) = (d - α - β) * (d - α - β) * dot n n by
        simp [lengthSqr, dot]; ring, hnn]
      nlinarith

/-- The point of a cap closest to a point beyond it is the closest one of the cylinder. -/
theorem cap_pair {rA hl σ : ℝ} {a : Axis} {posA posB q : V3 ℝ} {ornA : Quat ℝ} (oA : ornA.lengthSqr = 1)
    (hh : 0 < hl) (hσ : (σ = 1 ∧ hl ≤ height posA (Quat.rotate ornA a.vec) posB) ∨
      (σ = -1 ∧ height posA (Quat.rotate ornA a.vec) posB ≤ -hl))
    (hq : discSet (posA + smul (σ * hl) (Quat.rotate ornA a.vec)) (Quat.rotate ornA a.vec) rA q)
    (hm : ∀ x, discSet (posA + smul (σ * hl) (Quat.rotate ornA a.vec)) (Quat.rotate ornA a.vec) rA x →
      lengthSqr (posB - q) ≤ lengthSqr (posB - x)) :
    ClosestPair (Placed (cylinderSet rA hl a) posA ornA) (pointSet posB) q posB ∧
      height posA (Quat.rotate ornA a.vec) q = σ * hl := by
  have hw : lengthSqr (Quat.rotate ornA a.vec) = 1 := rotate_unit oA a.vec_unit
  have pc := fun x => @placed_cylinder rA hl a posA ornA oA x
  generalize Quat.rotate ornA a.vec = w at *
  have hww : dot w w = 1 := hw
  have hss : σ * σ = 1 := by rcases hσ with ⟨h, _⟩ | ⟨h, _⟩ <;> rw [h] <;> norm_num
  -- a point is on the disc iff it is at its height and in the radius
  have disc : ∀ x, discSet (posA + smul (σ * hl) w) w rA x ↔ height posA w x = σ * hl ∧ radial posA w x ≤ rA * rA := by
    intro x
    unfold discSet height radial
    have e1 : dot (x - (posA + smul (σ * hl) w)) w = dot (x - posA) w - σ * hl := by
      rw [show x - (posA + smul (σ * hl) w) = x - posA - smul (σ * hl) w by ext <;> simp <;> ring, dot_sub_left,
        dot_smul_left, hww, mul_one]
    have e2 : lengthSqr (x - (posA + smul (σ * hl) w)) =
        lengthSqr (x - posA) - 2 * (σ * hl) * dot (x - posA) w + (σ * hl) * (σ * hl) * dot w w := by
      simp [lengthSqr, dot]; ring
    rw [e1, e2, hww]
    constructor
    · rintro ⟨h1, h2⟩
      have h3 : dot (x - posA) w = σ * hl := by linarith
      rw [h3] at h2 ⊢
      exact ⟨rfl, by linarith⟩
    · rintro ⟨h1, h2⟩
      rw [h1] at h2 ⊢
      exact ⟨by ring, by linarith⟩
  obtain ⟨q1, q2⟩ := (disc q).mp hq
  refine ⟨⟨?_, rfl, ?_⟩, q1⟩
  · rw [pc, q1]
    refine ⟨?_, q2⟩
    rcases hσ with ⟨h, _⟩ | ⟨h, _⟩ <;> rw [h, abs_le] <;> constructor <;> linarith
  · intro x y hx hy
    have hy' : y = posB := hy
    rw [hy']
    rw [pc] at hx
    obtain ⟨x1, x2⟩ := hx
    rw [abs_le] at x1
    set s := σ * hl - height posA w x with hs
    have hx' : discSet (posA + smul (σ * hl) w) w rA (x + smul s w) := by
      rw [disc]
      have e0 : x + smul s w - posA = (x - posA) + smul s w := by ext <;> simp <;> ring
      have e1 : height posA w (x + smul s w) = σ * hl := by
        have : height posA w (x + smul s w) = height posA w x + s := by
          unfold height; rw [e0, dot_add_left, dot_smul_left, hww, mul_one]
        rw [this, hs]; ring
      refine ⟨e1, le_trans (le_of_eq ?_) x2⟩
      unfold height at e1
      unfold radial
      rw [e1, e0]
      have e2 : lengthSqr (x - posA + smul s w) = lengthSqr (x - posA) + 2 * s * dot (x - posA) w + s * s * dot w w := by
        simp [lengthSqr, dot]; ring
      rw [e2, hww]
      have hs' : σ * hl = dot (x - posA) w + s := by rw [hs]; unfold height; ring
      rw [hs']; ring
    have h1 := hm _ hx'
    have e3 : lengthSqr (posB - (x + smul s w)) = lengthSqr (x - posB) + 2 * s * dot (x - posB) w + s * s * dot w w := by
      simp [lengthSqr, dot]; ring
    have e4 : dot (x - posB) w = height posA w x - height posA w posB := by
      unfold height; rw [← dot_sub_left]; congr 1; ext <;> simp
    have e5 : lengthSqr (q - posB) = lengthSqr (posB - q) := by simp [lengthSqr, dot]; ring
    rw [e3, e4, hww] at h1
    rw [e5]
    rcases hσ with ⟨h, hb⟩ | ⟨h, hb⟩ <;> rw [h] at hs <;> nlinarith

/-- **C71, a cylinder and a sphere, partial.** The result is right if the centre of the sphere, when beside
the cylinder, is further than the tolerance from the axis, or on it with the axis horizontal; and, when beyond
a cap, is further than the tolerance from the cylinder or on it.  Missing: see `cylinder_sphere_refuted`. -/
theorem cylinder_sphere_partial (eps rA hl : ℝ) (a : Axis) (rB : ℝ) (c : Ctx) (he : 0 ≤ eps) (ra : 0 < rA)
    (hh : 0 < hl) (hl4 : eps < 4 * hl * hl) (rb : 0 < rB) (hc : c.Ok) (w : V3 ℝ) (hw : w = Quat.rotate c.ornA a.vec)
    (hside : |dot (c.posB - c.posA) w| < hl →
      eps < lengthSqr (c.posB - c.posA - smul (dot (c.posB - c.posA) w) w) ∨
        (lengthSqr (c.posB - c.posA - smul (dot (c.posB - c.posA) w) w) = 0 ∧ dot ey w = 0))
    (hcap : hl ≤ |dot (c.posB - c.posA) w| → Placed (cylinderSet rA hl a) c.posA c.ornA c.posB ∨
      ∀ x, Placed (cylinderSet rA hl a) c.posA c.ornA x → eps < lengthSqr (x - c.posB)) :
    Right (Placed (cylinderSet rA hl a) c.posA c.ornA) (Placed (ballSet rB) c.posB c.ornB) c
      (cylinderSphere eps rA hl a rB c) := by
  obtain ⟨oA, oB, ht⟩ := hc
  have hwu : lengthSqr w = 1 := by rw [hw]; exact rotate_unit oA a.vec_unit
  have hww : dot w w = 1 := hwu
  obtain ⟨p1, p2, p3⟩ := @cyl_param c.posA c.posB w hl hwu hh
  have side := fun d n (h1 : 0 ≤ d) h2 h3 h4 h5 => @cyl_side rA hl rB d c.thr a c.posA c.posB n c.ornA c.ornB oA oB
    ra rb ht h1 h2 h3 h4 h5
  have wB : ∀ n, toWorldSpace (Quat.rotate c.ornB.conjugate (smul rB n)) c.posB c.ornB = c.posB + smul rB n :=
    fun n => world_rotated _ _ oB
  have wA : ∀ x : V3 ℝ, toWorldSpace (Quat.rotate c.ornA.conjugate (x - c.posA)) c.posA c.ornA = x := by
    intro x; rw [world_rotated _ _ oA]; ext <;> simp
  unfold cylinderSphere
  simp only
  rw [← hw] at side ⊢
  rw [p1, if_neg (not_le.mpr hl4), p2]
  set k := height c.posA w c.posB with hk
  have hkd : dot (c.posB - c.posA) w = k := rfl
  rw [hkd] at hside hcap
  have tpos : 0 < (hl - k) / (2 * hl) ↔ k < hl := by
    rw [div_pos_iff_of_pos_right (by linarith)]; constructor <;> intro <;> linarith
  have tlt : (hl - k) / (2 * hl) < 1 ↔ -hl < k := by
    rw [div_lt_one (by linarith)]; constructor <;> intro <;> linarith
  simp only [tpos, tlt]
  by_cases hin : k < hl ∧ -hl < k
  · rw [if_pos hin, p3]
    have habs : |k| < hl := abs_lt.mpr ⟨hin.2, hin.1⟩
    have hdir : lengthSqr (c.posA + smul k w - c.posB) = lengthSqr (c.posB - c.posA - smul k w) := by
      simp [lengthSqr, dot]; ring
    have hdw : dot (c.posA + smul k w - c.posB) w = 0 := by
      rw [show c.posA + smul k w - c.posB = smul k w - (c.posB - c.posA) by ext <;> simp <;> ring, dot_sub_left,
        dot_smul_left, hww, hkd]; ring
    have hsq := Real.mul_self_sqrt (lengthSqr_nonneg (c.posA + smul k w - c.posB))
    have hs0 := Real.sqrt_nonneg (lengthSqr (c.posA + smul k w - c.posB))
    have hfarle : ∀ d, 0 ≤ d → d * d = lengthSqr (c.posA + smul k w - c.posB) →
        (d ≤ rA + rB + c.thr ↔ ¬ (rA + rB + c.thr) * (rA + rB + c.thr) < lengthSqr (c.posA + smul k w - c.posB)) := by
      intro d d0 dd
      rw [← dd, not_lt]
      constructor
      · intro h; nlinarith
      · intro h; nlinarith
    unfold cylSphereSide
    simp only
    generalize Real.sqrt (lengthSqr (c.posA + smul k w - c.posB)) = d at hsq hs0 ⊢
    -- the normal
    have hnorm : ∃ n, (if eps < lengthSqr (c.posA + smul k w - c.posB) then smul (1 / d) (c.posA + smul k w - c.posB)
        else ey) = n ∧ lengthSqr n = 1 ∧ dot n w = 0 ∧ c.posA + smul k w - c.posB = smul d n := by
      by_cases hb : eps < lengthSqr (c.posA + smul k w - c.posB)
      · have hdp : 0 < d := by nlinarith
        rw [if_pos hb]
        refine ⟨_, rfl, ?_, ?_, ?_⟩
        · rw [show lengthSqr (smul (1 / d) (c.posA + smul k w - c.posB)) =
            1 / d * (1 / d) * lengthSqr (c.posA + smul k w - c.posB) by simp only [lengthSqr, dot_smul_left, dot_smul_right]; ring,
            ← hsq]
          field_simp
        · rw [dot_smul_left, hdw, mul_zero]
        · ext <;> simp <;> field_simp
      · rw [if_neg hb]
        rcases hside habs with h | ⟨h0, h1⟩
        · exact absurd (by rw [hdir]; exact h) hb
        · refine ⟨ey, rfl, ey_unit, h1, ?_⟩
          rw [← hdir] at h0
          have d0 : d = 0 := by nlinarith
          rw [lengthSqr_eq_zero h0, d0]; ext <;> simp
    obtain ⟨n, hne, hn1, hn2, hn3⟩ := hnorm
    rw [hne]
    obtain ⟨g1, g2, g3, g4⟩ := side d n hs0 hn1 hn2 habs.le hn3
    rw [hfarle d hs0 hsq] at g4
    by_cases hfar : (rA + rB + c.thr) * (rA + rB + c.thr) < lengthSqr (c.posA + smul k w - c.posB)
    · rw [if_pos hfar]
      exact ⟨[], rfl, by rw [g4]; simp [hfar], by simp⟩
    · rw [if_neg hfar]
      refine ⟨_, rfl, by rw [g4]; simpa using hfar, ?_⟩
      simp only [List.mem_singleton, forall_eq]
      exact ⟨hn1, by simp only [Ctx.wA, wA]; exact g1, by simp only [Ctx.wB, wB]; exact g2,
        by simp only [Ctx.wA, Ctx.wB, wA, wB]; exact g3⟩
  · rw [if_neg hin]
    have tlt2 : (hl - k) / (2 * hl) < 1 / 2 ↔ 0 < k := by
      rw [div_lt_iff₀ (by linarith)]; constructor <;> intro <;> linarith
    have tgt2 : 1 / 2 < (hl - k) / (2 * hl) ↔ k < 0 := by
      rw [lt_div_iff₀ (by linarith)]; constructor <;> intro <;> linarith
    have hσ : ∃ σ : ℝ, ((σ = 1 ∧ hl ≤ k) ∨ (σ = -1 ∧ k ≤ -hl)) := by
      by_cases h : k < hl
      · exact ⟨-1, Or.inr ⟨rfl, by by_contra h'; exact hin ⟨h, by linarith⟩⟩⟩
      · exact ⟨1, Or.inl ⟨rfl, not_lt.mp h⟩⟩
    obtain ⟨σ, hσ⟩ := hσ
    have hk1 : hl ≤ |k| := by
      rcases hσ with ⟨_, h⟩ | ⟨_, h⟩
      · exact le_trans h (le_abs_self k)
      · exact le_trans (by linarith) (neg_le_abs k)
    have hdisc : (if (hl - k) / (2 * hl) < 1 / 2 then c.posA + smul hl w else c.posA - smul hl w) =
        c.posA + smul (σ * hl) w := by
      rcases hσ with ⟨h, hb⟩ | ⟨h, hb⟩
      · rw [if_pos (tlt2.mpr (by linarith)), h]; ext <;> simp
      · rw [if_neg (by rw [tlt2]; linarith), h]; ext <;> simp <;> ring
    have hsign : (if 1 / 2 < (hl - k) / (2 * hl) then (1 : ℝ) else -1) = -σ := by
      rcases hσ with ⟨h, hb⟩ | ⟨h, hb⟩
      · rw [if_neg (by rw [tgt2]; linarith), h]
      · rw [if_pos (by rw [tgt2]; linarith), h]; norm_num
    unfold cylSphereCap
    simp only
    rw [← hw, hdisc, hsign]
    obtain ⟨dq, q, hq, hqd, hdq, hmin⟩ := closest_disc_spec (c.posA + smul (σ * hl) w) c.ornA oA rA ra a c.posB
    rw [hq, Option.bind_some, hdq]
    rw [← hw] at hqd hmin
    rw [hdq] at hmin
    obtain ⟨hpair, hqh⟩ := @cap_pair rA hl σ a c.posA c.posB q c.ornA oA hh (by rw [← hw]; exact hσ)
      (by rw [← hw]; exact hqd) (by rw [← hw]; exact hmin)
    rw [← hw] at hqh
    have hn := inflate_near hpair le_rfl rb.le ht
    rw [inflate_zero, ← ball_inflate rB c.posB oB, zero_add] at hn
    have hfl : lengthSqr (c.posB - q) = lengthSqr (q - c.posB) := by simp [lengthSqr, dot]; ring
    rw [hfl]
    by_cases hfar : (rB + c.thr) * (rB + c.thr) < lengthSqr (q - c.posB)
    · rw [if_pos hfar]
      exact ⟨[], rfl, by rw [hn]; simp [hfar], by simp⟩
    rw [if_neg hfar]
    refine ⟨_, rfl, by rw [hn]; simpa using hfar, ?_⟩
    simp only [List.mem_singleton, forall_eq]
    have hsq := Real.mul_self_sqrt (lengthSqr_nonneg (q - c.posB))
    by_cases hb : eps < lengthSqr (q - c.posB)
    · rw [if_pos hb]
      have hs0 : 0 < Real.sqrt (lengthSqr (q - c.posB)) := Real.sqrt_pos.mpr (by linarith)
      generalize Real.sqrt (lengthSqr (q - c.posB)) = d at hsq hs0 ⊢
      obtain ⟨g1, g2, g3, g4⟩ := inflate_good (rA := 0) (rB := rB)
        (placed_convex (cylinder_convex rA hl ra.le a) c.posA c.ornA) (point_convex c.posB) hpair le_rfl rb.le hs0 hsq
      rw [inflate_zero] at g2
      rw [← ball_inflate rB c.posB oB] at g3
      have z : ∀ v u : V3 ℝ, v - smul 0 u = v := by intro v u; ext <;> simp
      rw [z] at g2 g4
      rw [sub_zero] at g4
      exact ⟨g1, by simp only [Ctx.wA, wA]; exact g2, by simp only [Ctx.wB, wB]; exact g3,
        by simp only [Ctx.wA, Ctx.wB, wA, wB]; exact g4⟩
    · rw [if_neg hb]
      have hin' : Placed (cylinderSet rA hl a) c.posA c.ornA c.posB := by
        rcases hcap hk1 with h | h
        · exact h
        · exact absurd (h q hpair.1) hb
      have h0 : lengthSqr (q - c.posB) = 0 := by
        refine le_antisymm (le_trans (hpair.2.2 _ _ hin' rfl) ?_) (lengthSqr_nonneg _)
        simp [lengthSqr, dot]
      have heq : q = c.posB := by
        have := lengthSqr_eq_zero h0
        have e1 := congrArg V3.x this
        have e2 := congrArg V3.y this
        have e3 := congrArg V3.z this
        simp at e1 e2 e3
        ext <;> linarith
      have hss : σ * σ = 1 := by rcases hσ with ⟨h, _⟩ | ⟨h, _⟩ <;> rw [h] <;> norm_num
      have hu : lengthSqr (smul (-σ) w) = 1 := by
        rw [show lengthSqr (smul (-σ) w) = σ * σ * dot w w by simp [lengthSqr, dot]; ring, hss, hww]; norm_num
      rw [h0, Real.sqrt_zero]
      refine ⟨hu, ?_, ?_, ?_⟩
      · simp only [Ctx.wA, wA]
        refine ⟨hpair.1, fun x hx => ?_⟩
        rw [placed_cylinder oA, ← hw] at hx
        have hx1 := hx.1
        rw [abs_le] at hx1
        have en : -smul (-σ) w = smul σ w := by ext <;> simp
        rw [en, dot_smul_right, dot_smul_right]
        have d1 : dot x w = height c.posA w x + dot c.posA w := by unfold height; rw [dot_sub_left]; ring
        have d2 : dot q w = height c.posA w q + dot c.posA w := by unfold height; rw [dot_sub_left]; ring
        rw [d1, d2, hqh]
        rcases hσ with ⟨h, _⟩ | ⟨h, _⟩ <;> rw [h] <;> linarith
      · simp only [Ctx.wB, wB]
        rw [ball_inflate rB c.posB oB]; exact inflate_extreme rb.le hu (point_extreme c.posB _)
      · simp only [Ctx.wA, Ctx.wB, wA, wB]
        rw [heq]; ext <;> simp

/-- The feature and the attachment: beside the cylinder it is the side edge; beyond a cap it is that cap, with
the normal attached to it, when the centre projects into it, and otherwise the side edge as well. -/
theorem cylinder_sphere_feature (eps rA hl : ℝ) (a : Axis) (rB : ℝ) (c : Ctx) (hh : 0 < hl) (hc : c.Ok)
    (w : V3 ℝ) (hw : w = Quat.rotate c.ornA a.vec) (l : List Point) (h : cylinderSphere eps rA hl a rB c = some l)
    (p : Point) (hp : p ∈ l) :
    (|dot (c.posB - c.posA) w| < hl → p.fA = some ⟨.cylSideEdge, some 0⟩ ∧ p.att = .none) ∧
      (hl ≤ |dot (c.posB - c.posA) w| →
        (radial c.posA w c.posB < rA * rA → p.att = .onA ∧
          p.fA = some ⟨.cylFace, some (if 0 < dot (c.posB - c.posA) w then 0 else 1)⟩) ∧
        (rA * rA ≤ radial c.posA w c.posB → p.att = .none ∧
          p.fA = some ⟨.cylSideEdge, some (if 0 < dot (c.posB - c.posA) w then 0 else 1)⟩)) := by
  obtain ⟨oA, oB, ht⟩ := hc
  have hwu : lengthSqr w = 1 := by rw [hw]; exact rotate_unit oA a.vec_unit
  obtain ⟨p1, p2, p3⟩ := @cyl_param c.posA c.posB w hl hwu hh
  unfold cylinderSphere at h
  simp only at h
  rw [← hw, p1, p2] at h
  set k := height c.posA w c.posB with hk
  have hkd : dot (c.posB - c.posA) w = k := rfl
  rw [hkd]
  have tpos : 0 < (hl - k) / (2 * hl) ↔ k < hl := by
    rw [div_pos_iff_of_pos_right (by linarith)]; constructor <;> intro <;> linarith
  have tlt : (hl - k) / (2 * hl) < 1 ↔ -hl < k := by
    rw [div_lt_one (by linarith)]; constructor <;> intro <;> linarith
  have tlt2 : (hl - k) / (2 * hl) < 1 / 2 ↔ 0 < k := by
    rw [div_lt_iff₀ (by linarith)]; constructor <;> intro <;> linarith
  simp only [tpos, tlt] at h
  by_cases hd : 4 * hl * hl ≤ eps
  · rw [if_pos hd] at h; cases h
  rw [if_neg hd] at h
  by_cases hin : k < hl ∧ -hl < k
  · have habs : |k| < hl := abs_lt.mpr ⟨hin.2, hin.1⟩
    refine ⟨fun _ => ?_, fun h' => absurd habs (not_lt.mpr h')⟩
    rw [if_pos hin] at h
    unfold cylSphereSide at h
    simp only at h
    split at h
    · rw [Option.some.injEq] at h; rw [← h] at hp; simp at hp
    · rw [Option.some.injEq] at h; rw [← h, List.mem_singleton] at hp; rw [hp]; exact ⟨rfl, rfl⟩
  · have habs : ¬ |k| < hl := by rw [abs_lt]; tauto
    refine ⟨fun h' => absurd h' habs, fun _ => ?_⟩
    rw [if_neg hin] at h
    unfold cylSphereCap at h
    simp only [tlt2] at h
    rw [← hw] at h
    have hproj : lengthSqr (projectPlane c.posB c.posA w - c.posA) = radial c.posA w c.posB := by
      unfold projectPlane radial
      have hww : dot w w = 1 := hwu
      rw [show c.posB - smul (dot (c.posB - c.posA) w) w - c.posA = c.posB - c.posA - smul (dot (c.posB - c.posA) w) w by
        ext <;> simp <;> ring]
      generalize c.posB - c.posA = y
      have : ∀ s : ℝ, lengthSqr (y - smul s w) = lengthSqr y - 2 * s * dot y w + s * s * dot w w := by
        intro s; simp [lengthSqr, dot]; ring
      rw [this, hww]; ring
    rw [hproj] at h
    obtain ⟨r, _, hr⟩ := Option.bind_eq_some_iff.mp h
    split at hr
    · rw [Option.some.injEq] at hr; rw [← hr] at hp; simp at hp
    · rw [Option.some.injEq] at hr; rw [← hr, List.mem_singleton] at hp; rw [hp]
      constructor
      · intro h'
        simp only [if_pos h']
        exact ⟨trivial, trivial⟩
      · intro h'
        simp only [if_neg (not_lt.mpr h')]
        exact ⟨trivial, trivial⟩

/-- A sphere with its centre in the middle of an upright cylinder: the normal is vertical and the pivot is
inside of the cylinder. -/
theorem cylinder_sphere_refuted (eps : ℝ) (he : 0 ≤ eps) (he4 : eps < 16) : ¬ CylinderSphereFull eps := by
  intro hf
  obtain ⟨l, h1, _, h3⟩ := hf 1 2 .y 1 ⟨0, 1, 0, 1, 0⟩ one_pos (by norm_num) (by linarith) one_pos
    ⟨one_unit, one_unit, le_rfl⟩
  have hw : Quat.rotate (1 : Quat ℝ) Axis.y.vec = ey := by rw [rotate_one]; rfl
  obtain ⟨p1, p2, p3⟩ := @cyl_param 0 0 ey 2 ey_unit (by norm_num)
  have hk : height 0 ey 0 = 0 := by simp [height, dot]
  rw [hk] at p2 p3
  unfold cylinderSphere at h1
  simp only [hw] at h1
  rw [p1, p2, if_neg (by linarith), if_pos (by norm_num), p3] at h1
  unfold cylSphereSide at h1
  simp only at h1
  have hz : (0 : V3 ℝ) + smul 0 ey - 0 = 0 := by ext <;> simp
  have hl0 : lengthSqr (0 : V3 ℝ) = 0 := by simp [lengthSqr, dot]
  rw [hz, hl0, if_neg (by norm_num), if_neg (not_lt.mpr he), Option.some.injEq] at h1
  have hg := h3 _ (by rw [← h1]; exact List.mem_singleton.mpr rfl)
  have hA := hg.onA.2 ⟨0, -2, 0⟩ ⟨⟨0, -2, 0⟩, by norm_num [cylinderSet, dot, Axis.vec, ey, lengthSqr], by
    rw [rotate_one]; ext <;> simp⟩
  simp only [Ctx.wA] at hA
  rw [world_rotated _ _ one_unit] at hA
  norm_num [dot, ey] at hA

/-- Not vacuous: a sphere above a cylinder, and a sphere beside it. -/
example : (2 : ℝ) ≤ |dot ((⟨0, 3, 0⟩ : V3 ℝ) - 0) ey| ∧
    (∀ x, Placed (cylinderSet 1 2 .y) 0 1 x → (1 / 100 : ℝ) < lengthSqr (x - ⟨0, 3, 0⟩)) ∧
    |dot ((⟨2, 1, 0⟩ : V3 ℝ) - 0) ey| < 2 ∧
    (1 / 100 : ℝ) < lengthSqr ((⟨2, 1, 0⟩ : V3 ℝ) - 0 - smul (dot ((⟨2, 1, 0⟩ : V3 ℝ) - 0) ey) ey) := by
  refine ⟨by norm_num [dot, ey], ?_, by norm_num [dot, ey], by norm_num [dot, ey, lengthSqr]⟩
  rintro _ ⟨p, ⟨h1, _⟩, rfl⟩
  rw [rotate_one]
  rw [abs_le] at h1
  have h2 : p.y ≤ 2 := by have := h1.2; simp [dot, Axis.vec, ey] at this; exact this
  simp only [lengthSqr, dot, sub_x, sub_y, sub_z, add_x, add_y, add_z, zero_x, zero_y, zero_z]
  nlinarith [mul_self_nonneg p.x, mul_self_nonneg p.z]

end Edyn.Collide
