import Verif.Geom.Raycast
import Verif.Contact.Flip

/-!
# Contact points between shapes: specification and inflated sets (C71)

What it means that the result of `collide` is right, independently of the code: see `Right`.  Spheres and
capsules are points and segments inflated by a radius; the facts about closest pairs of points of inflated
sets are proved here once for all pairs of shapes.
-/

namespace Edyn.Collide

open Edyn.Math hiding lengthSqr_nonneg
open V3 Edyn.Geom Edyn.Contact

/-- The part of `collision_context`, `include/edyn/collision/collide.hpp` 11-20, the functions modelled here
read. -/
structure Ctx where
  posA : V3 ℝ
  ornA : Quat ℝ
  posB : V3 ℝ
  ornB : Quat ℝ
  thr : ℝ

/-- `collision_context::swapped`, `collide.hpp` 22-26. -/
def Ctx.swapped (c : Ctx) : Ctx := ⟨c.posB, c.ornB, c.posA, c.ornA, c.thr⟩

/-- The kind of a feature: `box_feature`, `capsule_feature`, `cylinder_feature`, `triangle_feature`. -/
inductive Kind
  | capSide | capHemisphere
  | cylFace | cylSideEdge | cylCapEdge
  | boxVertex | boxEdge | boxFace
  | triVertex | triEdge | triFace
deriving DecidableEq

/-- `collision_feature`, `include/edyn/collision/collision_feature.hpp` 8-19, without the part, which the
functions modelled here do not write.  The index is `none` where it is left uninitialised. -/
structure Feat where
  kind : Kind
  index : Option ℕ
deriving DecidableEq

abbrev Point := CPoint ℝ Feat

/-- What a call of `collide` with an empty result leaves in it.  `none`: an assertion fails or an
uninitialised variable is read. -/
abbrev Res := Option (List Point)

/-- `swap_collide`, `collide.hpp` 369-374: `f` is the function for the other order of the shapes. -/
noncomputable def swapCollide (f : Ctx → Res) (c : Ctx) : Res := (f c.swapped).map (·.map CPoint.swap)

/-! ## Specification -/

/-- The context is legal. -/
def Ctx.Ok (c : Ctx) : Prop := c.ornA.lengthSqr = 1 ∧ c.ornB.lengthSqr = 1 ∧ 0 ≤ c.thr

/-- The pivots of a point in the world. -/
noncomputable def Ctx.wA (c : Ctx) (p : Point) : V3 ℝ := toWorldSpace p.pA c.posA c.ornA
noncomputable def Ctx.wB (c : Ctx) (p : Point) : V3 ℝ := toWorldSpace p.pB c.posB c.ornB

/-- `w` is a point of the set and no point of the set is further along `n`. -/
def Extreme (S : V3 ℝ → Prop) (n w : V3 ℝ) : Prop := S w ∧ ∀ v, S v → dot v n ≤ dot w n

/-- `w` is a point of the set and there are points outside of the set as close to it as desired. -/
def Surface (S : V3 ℝ → Prop) (w : V3 ℝ) : Prop :=
  S w ∧ ∀ δ, 0 < δ → ∃ v, lengthSqr (v - w) ≤ δ * δ ∧ ¬ S v

/-- There are points of the two sets whose distance is at most the threshold. -/
def Near (SA SB : V3 ℝ → Prop) (thr : ℝ) : Prop := ∃ a b, SA a ∧ SB b ∧ lengthSqr (a - b) ≤ thr * thr

/-- What is expected of a contact point: the normal is a unit vector; the pivot on the first shape is the
point of it furthest against the normal, the pivot on the second shape is the point of it furthest along
the normal; the step from the second pivot to the first one is the distance times the normal. -/
structure Good (SA SB : V3 ℝ → Prop) (c : Ctx) (p : Point) : Prop where
  unit : lengthSqr p.n = 1
  onA : Extreme SA (-p.n) (c.wA p)
  onB : Extreme SB p.n (c.wB p)
  step : c.wA p - c.wB p = smul p.dist p.n

/-- The result is right: nothing fails, points are reported exactly when the shapes are within the
threshold, and every point is good. -/
def Right (SA SB : V3 ℝ → Prop) (c : Ctx) (r : Res) : Prop :=
  ∃ l, r = some l ∧ (l ≠ [] ↔ Near SA SB c.thr) ∧ ∀ p ∈ l, Good SA SB c p

/-! ## What a good point says -/

/-- An extreme point lies on the surface. -/
theorem Extreme.surface {S : V3 ℝ → Prop} {n w : V3 ℝ} (hn : lengthSqr n = 1) (h : Extreme S n w) :
    Surface S w := by
  refine ⟨h.1, fun δ hδ => ⟨w + smul δ n, ?_, fun hs => ?_⟩⟩
  · have : lengthSqr (w + smul δ n - w) = δ * δ * lengthSqr n := by
      simp [lengthSqr, dot]; ring
    rw [this, hn]; linarith
  · have := h.2 _ hs
    rw [dot_add_left, dot_smul_left, show dot n n = 1 from hn] at this
    linarith

theorem neg_unit {n : V3 ℝ} (hn : lengthSqr n = 1) : lengthSqr (-n) = 1 := by
  rw [← hn]; simp [lengthSqr, dot]

/-- The pivots of a good point lie on the surfaces of the shapes, its distance is the separation of the
pivots along the normal, and no two points of the shapes are closer along the normal. -/
theorem Good.facts {SA SB : V3 ℝ → Prop} {c : Ctx} {p : Point} (h : Good SA SB c p) :
    Surface SA (c.wA p) ∧ Surface SB (c.wB p) ∧ p.dist = dot (c.wA p - c.wB p) p.n ∧
      ∀ a b, SA a → SB b → p.dist ≤ dot (a - b) p.n := by
  have hd : p.dist = dot (c.wA p - c.wB p) p.n := by
    rw [h.step, dot_smul_left, show dot p.n p.n = 1 from h.unit, mul_one]
  refine ⟨h.onA.surface (neg_unit h.unit), h.onB.surface h.unit, hd, ?_⟩
  intro a b ha hb
  have h1 := h.onA.2 a ha
  have h2 := h.onB.2 b hb
  rw [dot_neg_right, dot_neg_right] at h1
  rw [hd, dot_sub_left, dot_sub_left]
  linarith

/-- A good point for two shapes is, swapped, a good point for the shapes in the other order. -/
theorem Good.swap {SA SB : V3 ℝ → Prop} {c : Ctx} {p : Point} (h : Good SA SB c.swapped p) :
    Good SB SA c p.swap := by
  obtain ⟨h1, h2, h3, h4⟩ := h
  have en : p.swap.n = -p.n := by simp only [CPoint.swap]; ext <;> simp
  have ea : c.wA p.swap = c.swapped.wB p := rfl
  have eb : c.wB p.swap = c.swapped.wA p := rfl
  refine ⟨?_, ?_, ?_, ?_⟩
  · rw [en]; exact neg_unit h1
  · rw [en, ea]
    have : - -p.n = p.n := by ext <;> simp
    rw [this]; exact h3
  · rw [en, eb]; exact h2
  · rw [en, ea, eb, show p.swap.dist = p.dist from rfl]
    have : c.swapped.wB p - c.swapped.wA p = -(c.swapped.wA p - c.swapped.wB p) := by ext <;> simp
    rw [this, h4]
    ext <;> simp

theorem Near.symm {SA SB : V3 ℝ → Prop} {t : ℝ} (h : Near SA SB t) : Near SB SA t := by
  obtain ⟨a, b, ha, hb, hl⟩ := h
  refine ⟨b, a, hb, ha, ?_⟩
  have : lengthSqr (b - a) = lengthSqr (a - b) := by simp [lengthSqr, dot]; ring
  rw [this]; exact hl

/-- **C71, both orders.** If the result for two shapes is right, so is the result for the shapes in the
other order. -/
theorem swap_right {SA SB : V3 ℝ → Prop} {c : Ctx} {f : Ctx → Res} (h : Right SA SB c.swapped (f c.swapped)) :
    Right SB SA c (swapCollide f c) := by
  obtain ⟨l, e, h1, h2⟩ := h
  refine ⟨l.map CPoint.swap, by simp [swapCollide, e], ?_, ?_⟩
  · rw [show (l.map CPoint.swap ≠ [] ↔ l ≠ []) by simp, h1]
    exact ⟨Near.symm, Near.symm⟩
  · intro p hp
    obtain ⟨q, hq, rfl⟩ := List.mem_map.mp hp
    exact (h2 q hq).swap

/-! ## Inflated sets -/

/-- All points within the radius of the set. -/
def Inflate (K : V3 ℝ → Prop) (r : ℝ) : V3 ℝ → Prop := fun w => ∃ k, K k ∧ lengthSqr (w - k) ≤ r * r

/-- The set contains the segments between its points. -/
def Convex (K : V3 ℝ → Prop) : Prop :=
  ∀ a b, K a → K b → ∀ t : ℝ, 0 ≤ t → t ≤ 1 → K (a + smul t (b - a))

/-- A closest pair of points of two sets. -/
def ClosestPair (KA KB : V3 ℝ → Prop) (a b : V3 ℝ) : Prop :=
  KA a ∧ KB b ∧ ∀ a' b', KA a' → KB b' → lengthSqr (a - b) ≤ lengthSqr (a' - b')

/-- The triangle inequality. -/
theorem length_add_le {u v : V3 ℝ} {x y : ℝ} (hx : 0 ≤ x) (hy : 0 ≤ y) (hu : lengthSqr u ≤ x * x)
    (hv : lengthSqr v ≤ y * y) : lengthSqr (u + v) ≤ (x + y) * (x + y) := by
  have h1 : lengthSqr (u + v) = lengthSqr u + 2 * dot u v + lengthSqr v := by
    simp [lengthSqr, dot]; ring
  have h2 := dot_sq_le u v
  have h3 : dot u v ≤ x * y := by
    have : dot u v * dot u v ≤ (x * y) * (x * y) := by
      calc _ ≤ _ := h2
        _ ≤ (x * x) * (y * y) := mul_le_mul hu hv (lengthSqr_nonneg v) (mul_nonneg hx hx)
        _ = _ := by ring
    exact le_of_abs_le (abs_le_of_sq_le_sq (by nlinarith) (mul_nonneg hx hy))
  rw [h1]; nlinarith

/-- An extreme point of a set gives one of the inflated set. -/
theorem inflate_extreme {K : V3 ℝ → Prop} {n k : V3 ℝ} {r : ℝ} (hr : 0 ≤ r) (hn : lengthSqr n = 1)
    (h : Extreme K n k) : Extreme (Inflate K r) n (k + smul r n) := by
  refine ⟨⟨k, h.1, ?_⟩, ?_⟩
  · have : lengthSqr (k + smul r n - k) = r * r * lengthSqr n := by simp [lengthSqr, dot]; ring
    rw [this, hn]; linarith
  · rintro v ⟨k', hk', hl⟩
    have h1 := h.2 k' hk'
    have h2 := (dot_le_of_unit hr hl hn).1
    rw [dot_sub_left] at h2
    rw [dot_add_left, dot_smul_left, show dot n n = 1 from hn]
    linarith

/-- The point of a convex set closest to `p` is the extreme one along the step to `p`. -/
theorem closest_extreme {K : V3 ℝ → Prop} (hK : Convex K) {p q : V3 ℝ} (hq : K q)
    (hmin : ∀ v, K v → lengthSqr (q - p) ≤ lengthSqr (v - p)) {d : ℝ} (hd : 0 < d) :
    Extreme K (smul (1 / d) (p - q)) q := by
  refine ⟨hq, fun v hv => ?_⟩
  have key : dot (v - q) (p - q) ≤ 0 := by
    by_contra hn
    push Not at hn
    set g := dot (v - q) (p - q) with hg
    set L := lengthSqr (v - q) with hL
    have hL0 : 0 ≤ L := lengthSqr_nonneg _
    have expand : ∀ t : ℝ, lengthSqr (q + smul t (v - q) - p) = lengthSqr (q - p) - 2 * t * g + t * t * L := by
      intro t; rw [hg, hL]; simp [lengthSqr, dot]; ring
    by_cases hb : L ≤ g
    · have := hmin _ (hK q v hq hv 1 (by norm_num) le_rfl)
      rw [expand] at this
      nlinarith
    · push Not at hb
      have hLp : 0 < L := by linarith
      have := hmin _ (hK q v hq hv (g / L) (by positivity) (by rw [div_le_one hLp]; linarith))
      rw [expand] at this
      have e : g / L * (g / L) * L = g / L * g := by field_simp
      rw [e] at this
      have : 0 < g / L * g := by positivity
      nlinarith
  rw [dot_smul_right, dot_smul_right]
  rw [dot_sub_left] at key
  have : 0 < 1 / d := by positivity
  nlinarith

/-- The two pivots made from a closest pair. -/
theorem inflate_good {KA KB : V3 ℝ → Prop} (hA : Convex KA) (hB : Convex KB) {ca cb : V3 ℝ}
    (h : ClosestPair KA KB ca cb) {rA rB d : ℝ} (ra : 0 ≤ rA) (rb : 0 ≤ rB) (hd : 0 < d)
    (hdd : d * d = lengthSqr (ca - cb)) :
    lengthSqr (smul (1 / d) (ca - cb)) = 1 ∧
    Extreme (Inflate KA rA) (-smul (1 / d) (ca - cb)) (ca - smul rA (smul (1 / d) (ca - cb))) ∧
    Extreme (Inflate KB rB) (smul (1 / d) (ca - cb)) (cb + smul rB (smul (1 / d) (ca - cb))) ∧
    (ca - smul rA (smul (1 / d) (ca - cb))) - (cb + smul rB (smul (1 / d) (ca - cb))) =
      smul (d - rA - rB) (smul (1 / d) (ca - cb)) := by
  obtain ⟨h1, h2, h3⟩ := h
  have flip : ∀ u v : V3 ℝ, lengthSqr (u - v) = lengthSqr (v - u) := by
    intro u v; simp [lengthSqr, dot]; ring
  have hu : lengthSqr (smul (1 / d) (ca - cb)) = 1 := by
    have : lengthSqr (smul (1 / d) (ca - cb)) = 1 / d * (1 / d) * lengthSqr (ca - cb) := by
      simp [lengthSqr, dot]; ring
    rw [this, ← hdd]; field_simp
  have neg : -smul (1 / d) (ca - cb) = smul (1 / d) (cb - ca) := by ext <;> simp <;> ring
  have eA : Extreme KA (-smul (1 / d) (ca - cb)) ca := by
    rw [neg]
    exact closest_extreme hA h1 (fun v hv => h3 v cb hv h2) hd
  have eB : Extreme KB (smul (1 / d) (ca - cb)) cb :=
    closest_extreme hB h2 (fun v hv => by rw [flip cb, flip v]; exact h3 ca v h1 hv) hd
  refine ⟨hu, ?_, inflate_extreme rb hu eB, ?_⟩
  · have := inflate_extreme ra (neg_unit hu) eA
    have e : ca - smul rA (smul (1 / d) (ca - cb)) = ca + smul rA (-smul (1 / d) (ca - cb)) := by
      ext <;> simp <;> ring
    rw [e]; exact this
  · have e : ca - cb = smul d (smul (1 / d) (ca - cb)) := by
      ext <;> simp <;> field_simp
    generalize smul (1 / d) (ca - cb) = n at e
    have e1 := congrArg V3.x e
    have e2 := congrArg V3.y e
    have e3 := congrArg V3.z e
    simp at e1 e2 e3
    ext <;> simp <;> linarith

theorem split_gap {d rA rB t : ℝ} (hd : 0 ≤ d) (ra : 0 ≤ rA) (rb : 0 ≤ rB) (ht : 0 ≤ t) (h : d ≤ rA + rB + t) :
    ∃ α β, (0 ≤ α ∧ α ≤ rA) ∧ (0 ≤ β ∧ β ≤ rB) ∧ 0 ≤ d - α - β ∧ d - α - β ≤ t := by
  by_cases h1 : d ≤ rA
  · exact ⟨d, 0, ⟨hd, h1⟩, ⟨le_rfl, rb⟩, by linarith, by linarith⟩
  · push Not at h1
    by_cases h2 : d ≤ rA + rB
    · exact ⟨rA, d - rA, ⟨ra, le_rfl⟩, ⟨by linarith, by linarith⟩, by linarith, by linarith⟩
    · push Not at h2
      exact ⟨rA, rB, ⟨ra, le_rfl⟩, ⟨rb, le_rfl⟩, by linarith, by linarith⟩

/-- Two inflated sets are within the threshold exactly when the distance of the closest pair is at most the
sum of the radii and the threshold. -/
theorem inflate_near {KA KB : V3 ℝ → Prop} {ca cb : V3 ℝ} (h : ClosestPair KA KB ca cb) {rA rB t : ℝ}
    (ra : 0 ≤ rA) (rb : 0 ≤ rB) (ht : 0 ≤ t) :
    Near (Inflate KA rA) (Inflate KB rB) t ↔ lengthSqr (ca - cb) ≤ (rA + rB + t) * (rA + rB + t) := by
  obtain ⟨h1, h2, h3⟩ := h
  constructor
  · rintro ⟨a, b, ⟨ka, hka, la⟩, ⟨kb, hkb, lb⟩, hab⟩
    have e : ka - kb = (ka - a) + (b - kb) + (a - b) := by ext <;> simp <;> ring
    have la' : lengthSqr (ka - a) ≤ rA * rA := by
      rw [show lengthSqr (ka - a) = lengthSqr (a - ka) by simp [lengthSqr, dot]; ring]; exact la
    refine le_trans (h3 ka kb hka hkb) ?_
    rw [e]
    exact length_add_le (by linarith) ht (length_add_le ra rb la' lb) hab
  · intro hl
    set d := Real.sqrt (lengthSqr (ca - cb)) with hd
    have hdd : d * d = lengthSqr (ca - cb) := Real.mul_self_sqrt (lengthSqr_nonneg _)
    have hd0 : 0 ≤ d := Real.sqrt_nonneg _
    have hdle : d ≤ rA + rB + t := by nlinarith
    by_cases hz : d = 0
    · have e0 : ca - cb = 0 := lengthSqr_eq_zero (by rw [← hdd, hz]; ring)
      have z : ∀ v : V3 ℝ, lengthSqr (v - v) = 0 := by intro v; simp [lengthSqr, dot]
      refine ⟨ca, cb, ⟨ca, h1, by rw [z]; positivity⟩, ⟨cb, h2, by rw [z]; positivity⟩, ?_⟩
      rw [e0]; simp [lengthSqr, dot]; positivity
    · have hp : 0 < d := lt_of_le_of_ne hd0 (Ne.symm hz)
      obtain ⟨α, β, ⟨a0, a1⟩, ⟨b0, b1⟩, g0, g1⟩ := split_gap hd0 ra rb ht hdle
      have ln : ∀ s : ℝ, lengthSqr (smul s (ca - cb)) = s * s * (d * d) := by
        intro s; rw [hdd]; simp [lengthSqr, dot]; ring
      refine ⟨ca + smul (-(α / d)) (ca - cb), cb + smul (β / d) (ca - cb), ⟨ca, h1, ?_⟩, ⟨cb, h2, ?_⟩, ?_⟩
      · rw [show ca + smul (-(α / d)) (ca - cb) - ca = smul (-(α / d)) (ca - cb) by ext <;> simp, ln]
        have : -(α / d) * -(α / d) * (d * d) = α * α := by field_simp
        rw [this]; nlinarith
      · rw [show cb + smul (β / d) (ca - cb) - cb = smul (β / d) (ca - cb) by ext <;> simp, ln]
        have : β / d * (β / d) * (d * d) = β * β := by field_simp
        rw [this]; nlinarith
      · rw [show ca + smul (-(α / d)) (ca - cb) - (cb + smul (β / d) (ca - cb)) =
          smul (1 - α / d - β / d) (ca - cb) by ext <;> simp <;> ring, ln]
        have : (1 - α / d - β / d) * (1 - α / d - β / d) * (d * d) = (d - α - β) * (d - α - β) := by field_simp
        rw [this]; nlinarith

/-! ## Shapes as inflated sets -/

/-- A point. -/
def pointSet (q : V3 ℝ) : V3 ℝ → Prop := fun p => p = q

/-- A segment. -/
def segSet (a b : V3 ℝ) : V3 ℝ → Prop := fun p => ∃ t : ℝ, 0 ≤ t ∧ t ≤ 1 ∧ p = a + smul t (b - a)

theorem point_convex (q : V3 ℝ) : Convex (pointSet q) := by
  rintro a b rfl rfl t _ _
  simp only [pointSet]
  ext <;> simp

theorem seg_convex (a b : V3 ℝ) : Convex (segSet a b) := by
  rintro _ _ ⟨s, s0, s1, rfl⟩ ⟨u, u0, u1, rfl⟩ t t0 t1
  refine ⟨s + t * (u - s), by nlinarith, by nlinarith, ?_⟩
  ext <;> simp <;> ring

theorem box_convex (h : V3 ℝ) : Convex (boxSet h) := by
  rintro a b ⟨a1, a2, a3⟩ ⟨b1, b2, b3⟩ t t0 t1
  rw [abs_le] at a1 a2 a3 b1 b2 b3
  refine ⟨?_, ?_, ?_⟩ <;> simp only [add_x, add_y, add_z, smul_x, smul_y, smul_z, sub_x, sub_y, sub_z] <;>
    rw [abs_le] <;> constructor <;> nlinarith

theorem placed_convex {S : Shape} (hS : Convex S) (pos : V3 ℝ) (orn : Quat ℝ) : Convex (Placed S pos orn) := by
  rintro _ _ ⟨p, hp, rfl⟩ ⟨q, hq, rfl⟩ t t0 t1
  refine ⟨p + smul t (q - p), hS p q hp hq t t0 t1, ?_⟩
  rw [rotate_add, rotate_smul, rotate_sub]
  ext <;> simp <;> ring

/-- A placed sphere. -/
theorem ball_inflate (r : ℝ) (pos : V3 ℝ) {orn : Quat ℝ} (ho : orn.lengthSqr = 1) :
    Placed (ballSet r) pos orn = Inflate (pointSet pos) r := by
  funext w
  rw [eq_iff_iff, placed_ball r pos ho w]
  constructor
  · intro h; exact ⟨pos, rfl, h⟩
  · rintro ⟨k, rfl, h⟩; exact h

/-- A set is itself, inflated by nothing. -/
theorem inflate_zero (K : V3 ℝ → Prop) : Inflate K 0 = K := by
  funext w
  rw [eq_iff_iff]
  constructor
  · rintro ⟨k, hk, h⟩
    have h0 : lengthSqr (w - k) = 0 := le_antisymm (by linarith) (lengthSqr_nonneg _)
    have := lengthSqr_eq_zero h0
    have : w = k := by
      have e1 := congrArg V3.x this
      have e2 := congrArg V3.y this
      have e3 := congrArg V3.z this
      simp at e1 e2 e3
      ext <;> linarith
    rw [this]; exact hk
  · intro h; exact ⟨w, h, by simp [lengthSqr, dot]⟩

/-- The ends of the middle segment of a capsule: `get_vertices`, `include/edyn/shapes/capsule_shape.hpp`
21-27. -/
noncomputable def capVertex0 (hl : ℝ) (a : Axis) (pos : V3 ℝ) (orn : Quat ℝ) : V3 ℝ := pos + smul hl (Quat.rotate orn a.vec)
noncomputable def capVertex1 (hl : ℝ) (a : Axis) (pos : V3 ℝ) (orn : Quat ℝ) : V3 ℝ := pos - smul hl (Quat.rotate orn a.vec)

/-- A placed capsule. -/
theorem capsule_inflate (r hl : ℝ) (hh : 0 < hl) (a : Axis) (pos : V3 ℝ) {orn : Quat ℝ} (ho : orn.lengthSqr = 1) :
    Placed (capsuleSet r hl a) pos orn = Inflate (segSet (capVertex0 hl a pos orn) (capVertex1 hl a pos orn)) r := by
  funext w
  rw [eq_iff_iff]
  constructor
  · rintro ⟨p, ⟨s, hs, h⟩, rfl⟩
    rw [abs_le] at hs
    refine ⟨pos + smul s (Quat.rotate orn a.vec), ⟨(hl - s) / (2 * hl), ?_, ?_, ?_⟩, ?_⟩
    · apply div_nonneg <;> linarith
    · rw [div_le_one (by linarith)]; linarith
    · have : (hl - s) / (2 * hl) * hl = (hl - s) / 2 := by field_simp
      unfold capVertex0 capVertex1
      generalize Quat.rotate orn a.vec = u
      generalize (hl - s) / (2 * hl) = k at this
      have k' : ∀ z : ℝ, k * (hl * z) = (hl - s) / 2 * z := by intro z; rw [← this]; ring
      ext <;> simp <;> linarith [k' u.x, k' u.y, k' u.z]
    · have : pos + Quat.rotate orn p - (pos + smul s (Quat.rotate orn a.vec)) = Quat.rotate orn (p - smul s a.vec) := by
        rw [rotate_sub, rotate_smul]; ext <;> simp
      rw [this, rotate_length orn ho]; exact h
  · rintro ⟨k, ⟨t, t0, t1, rfl⟩, h⟩
    refine ⟨Quat.rotate orn.conjugate (w - pos), ⟨hl - 2 * hl * t, ?_, ?_⟩, ?_⟩
    · rw [abs_le]; constructor <;> nlinarith
    · rw [← rotate_length orn ho, rotate_sub, rotate_smul, (rotate_conjugate orn ho _).2]
      have : w - pos - smul (hl - 2 * hl * t) (Quat.rotate orn a.vec) =
          w - (capVertex0 hl a pos orn + smul t (capVertex1 hl a pos orn - capVertex0 hl a pos orn)) := by
        unfold capVertex0 capVertex1; ext <;> simp <;> ring
      rw [this]; exact h
    · rw [(rotate_conjugate orn ho _).2]; ext <;> simp

/-- To the world and back. -/
theorem world_object (w pos : V3 ℝ) {orn : Quat ℝ} (ho : orn.lengthSqr = 1) :
    toWorldSpace (toObjectSpace w pos orn) pos orn = w := by
  unfold toWorldSpace toObjectSpace
  rw [(rotate_conjugate orn ho _).2]; ext <;> simp

end Edyn.Collide
