import Verif.Collide.Capsule
import Verif.Geom.Feature
import Verif.Contact.Insert

/-!
# Contact points of boxes and cylinders with planes (C71)

Scalars are exact reals.
-/

namespace Edyn.Collide

open Edyn.Math hiding lengthSqr_nonneg
open V3 Edyn.Geom Edyn.Contact

/-! ## Adding points to the result -/

/-- `maybe_add_point`, `src/edyn/collision/collision_result.cpp` 12-33.  `insertionPoint` is the model of
`insertion_point_index`; it also increments the number of points when the new one is appended. -/
noncomputable def maybeAdd {F : Type} (k : Consts ℝ) (l : List (CPoint ℝ F)) (p : CPoint ℝ F) : List (CPoint ℝ F) :=
  let r := insertionPoint k (l.map (·.pA)) p.pA
  let r := if r = .none then insertionPoint k (l.map (·.pB)) p.pB else r
  match r with
  | .none => l
  | .append => l ++ [p]
  | .similar i => l.set i p
  | .replace i => l.set i p

/-- Adding some points one after the other to an empty result. -/
noncomputable def maybeAddAll {F : Type} (k : Consts ℝ) (ps : List (CPoint ℝ F)) : List (CPoint ℝ F) :=
  ps.foldl (maybeAdd k) []

theorem maybeAdd_cases {F : Type} (k : Consts ℝ) (l : List (CPoint ℝ F)) (p : CPoint ℝ F) :
    maybeAdd k l p = l ∨ (maybeAdd k l p = l ++ [p] ∧ l.length < 4) ∨
      ∃ i, i < l.length ∧ maybeAdd k l p = l.set i p := by
  unfold maybeAdd
  simp only
  obtain ⟨a1, a2⟩ := insertion_in_range k (l.map (·.pA)) p.pA
  obtain ⟨b1, b2⟩ := insertion_in_range k (l.map (·.pB)) p.pB
  rw [List.length_map] at a1 a2 b1 b2
  by_cases h : insertionPoint k (l.map (·.pA)) p.pA = .none
  · rw [if_pos h]
    cases e : insertionPoint k (l.map (·.pB)) p.pB with
    | none => exact .inl rfl
    | append => exact .inr (.inl ⟨rfl, b1 e⟩)
    | similar i => exact .inr (.inr ⟨i, b2 i (.inl e), rfl⟩)
    | replace i => exact .inr (.inr ⟨i, b2 i (.inr e), rfl⟩)
  · rw [if_neg h]
    cases e : insertionPoint k (l.map (·.pA)) p.pA with
    | none => exact .inl rfl
    | append => exact .inr (.inl ⟨rfl, a1 e⟩)
    | similar i => exact .inr (.inr ⟨i, a2 i (.inl e), rfl⟩)
    | replace i => exact .inr (.inr ⟨i, a2 i (.inr e), rfl⟩)

/-- **C71, adding points.** However many points are added, there are at most four of them, all of them
have been added, and there is one if any has been added. -/
theorem maybe_add_all {F : Type} (k : Consts ℝ) (ps : List (CPoint ℝ F)) :
    (maybeAddAll k ps).length ≤ 4 ∧ (∀ p ∈ maybeAddAll k ps, p ∈ ps) ∧ (maybeAddAll k ps ≠ [] ↔ ps ≠ []) := by
  have main : ∀ (ps l : List (CPoint ℝ F)), l.length ≤ 4 → (ps.foldl (maybeAdd k) l).length ≤ 4 ∧
      (∀ p ∈ ps.foldl (maybeAdd k) l, p ∈ l ∨ p ∈ ps) ∧ (l ≠ [] → ps.foldl (maybeAdd k) l ≠ []) := by
    intro ps
    induction ps with
    | nil => intro l hl; exact ⟨hl, fun p hp => .inl hp, fun h => h⟩
    | cons q ps ih =>
      intro l hl
      rw [List.foldl_cons]
      have step : (maybeAdd k l q).length ≤ 4 ∧ (∀ p ∈ maybeAdd k l q, p ∈ l ∨ p = q) ∧
          (l ≠ [] → maybeAdd k l q ≠ []) := by
        rcases maybeAdd_cases k l q with e | ⟨e, h4⟩ | ⟨i, hi, e⟩ <;> rw [e]
        · exact ⟨hl, fun p hp => .inl hp, fun h => h⟩
        · refine ⟨by simp; omega, ?_, by simp⟩
          intro p hp
          simpa using hp
        · refine ⟨by simpa using hl, fun p hp => List.mem_or_eq_of_mem_set hp, ?_⟩
          intro h e
          apply h
          have := congrArg List.length e
          simpa using this
      obtain ⟨s1, s2, s3⟩ := step
      obtain ⟨i1, i2, i3⟩ := ih _ s1
      refine ⟨i1, fun p hp => ?_, fun h => i3 (s3 h)⟩
      rcases i2 p hp with h | h
      · rcases s2 p h with h | h
        · exact .inl h
        · right; rw [h]; exact List.mem_cons_self
      · exact .inr (List.mem_cons_of_mem _ h)
  obtain ⟨h1, h2, _⟩ := main ps [] (by simp)
  refine ⟨h1, fun p hp => ?_, ?_⟩
  · rcases h2 p hp with h | h
    · simp at h
    · exact h
  · cases ps with
    | nil => simp [maybeAddAll]
    | cons q ps =>
      have e0 : maybeAdd k [] q = [q] := by simp [maybeAdd, insertionPoint]
      have := (main ps [q] (by simp)).2.2 (by simp)
      simp only [maybeAddAll, List.foldl_cons, e0, ne_eq, reduceCtorEq, not_false_eq_true, iff_true]
      exact this

/-! ## What is expected -/

/-- What is expected of a contact point up to a tolerance: as `Good`, but the pivot on the first shape may be
less than the tolerance away from the furthest one against the normal. -/
structure GoodWithin (tol : ℝ) (SA SB : V3 ℝ → Prop) (c : Ctx) (p : Point) : Prop where
  unit : lengthSqr p.n = 1
  inA : SA (c.wA p)
  onA : ∀ v, SA v → dot v (-p.n) < dot (c.wA p) (-p.n) + tol
  onB : Extreme SB p.n (c.wB p)
  step : c.wA p - c.wB p = smul p.dist p.n

/-- The distance of a point which is good up to the tolerance is less than the tolerance above the true
separation along the normal. -/
theorem GoodWithin.facts {tol : ℝ} {SA SB : V3 ℝ → Prop} {c : Ctx} {p : Point} (h : GoodWithin tol SA SB c p) :
    p.dist = dot (c.wA p - c.wB p) p.n ∧ ∀ a b, SA a → SB b → p.dist < dot (a - b) p.n + tol := by
  have hd : p.dist = dot (c.wA p - c.wB p) p.n := by
    rw [h.step, dot_smul_left, show dot p.n p.n = 1 from h.unit, mul_one]
  refine ⟨hd, ?_⟩
  intro a b ha hb
  have h1 := h.onA a ha
  have h2 := h.onB.2 b hb
  rw [dot_neg_right, dot_neg_right] at h1
  rw [hd, dot_sub_left, dot_sub_left]
  linarith

/-- A set and a plane. -/
theorem plane_near_set {K : V3 ℝ → Prop} {n a : V3 ℝ} {t k : ℝ} (hn : lengthSqr n = 1) (ht : 0 ≤ t)
    (h : Extreme K (-n) a) : Near K (halfSpace n k) t ↔ dot n a - k ≤ t := by
  have := plane_near (r := 0) (k := k) hn le_rfl ht h
  rw [inflate_zero, sub_zero] at this
  exact this

/-- The pivot projected on the plane. -/
theorem plane_step {n w : V3 ℝ} (hn : lengthSqr n = 1) (k : ℝ) :
    Extreme (halfSpace n k) n (projectPlane w (smul k n) n) ∧
    w - projectPlane w (smul k n) n = smul (dot (w - projectPlane w (smul k n) n) n) n ∧
    dot (w - projectPlane w (smul k n) n) n = dot n w - k := by
  have hnn : dot n n = 1 := hn
  unfold projectPlane
  rw [center_dot hn]
  have e : w - (w - smul (dot n w - k) n) = smul (dot n w - k) n := by ext <;> simp
  rw [e, dot_smul_left, hnn, mul_one]
  refine ⟨plane_extreme ?_, rfl, rfl⟩
  rw [dot_sub_right, dot_smul_right, hnn]; ring

/-! ## A box and a plane -/

def boxKind : BoxFeat → Kind
  | .vertex => .boxVertex
  | .edge => .boxEdge
  | .face => .boxFace

/-- `collide` of a box and a plane, `collide_box_plane.cpp` 7-54; `tol` is `support_feature_tolerance`. -/
noncomputable def boxPlane (tol : ℝ) (h n : V3 ℝ) (k : ℝ) (c : Ctx) : Res :=
  let center := smul k n
  (boxSupportFeatureAt h c.posA c.ornA center (-n) tol).bind fun f =>
  let distance := -f.2.2
  if c.thr < distance then some [] else
  (boxFeatVerts h f.1 f.2.1).map fun vs => vs.map fun v =>
    let pAw := toWorldSpace v c.posA c.ornA
    let pBw := projectPlane pAw center n
    ⟨v, toObjectSpace pBw c.posB c.ornB, n, dot (pAw - pBw) n, .onB, some ⟨boxKind f.1, some f.2.1⟩, none⟩

/-- **C71, a box and a plane.** Points are reported exactly when the box is within the threshold of the plane,
wherever the body of the plane is.  They are the corners of one feature of the box; all of them are good up to
the tolerance, and the lowest one is good. -/
theorem box_plane_spec (tol : ℝ) (ht : 0 < tol) (h n : V3 ℝ) (k : ℝ) (c : Ctx) (hx : 0 ≤ h.x) (hy : 0 ≤ h.y)
    (hz : 0 ≤ h.z) (hn : lengthSqr n = 1) (hc : c.Ok) :
    ∃ l, boxPlane tol h n k c = some l ∧
      (l ≠ [] ↔ Near (Placed (boxSet h) c.posA c.ornA) (halfSpace n k) c.thr) ∧
      (∀ p ∈ l, GoodWithin tol (Placed (boxSet h) c.posA c.ornA) (halfSpace n k) c p ∧ p.n = n ∧ p.att = .onB) ∧
      (l ≠ [] → (∃ p ∈ l, Good (Placed (boxSet h) c.posA c.ornA) (halfSpace n k) c p) ∧
        ∃ f i, boxFeatVerts h f i = some (l.map (·.pA)) ∧ ∀ p ∈ l, p.fA = some ⟨boxKind f, some i⟩ ∧ p.fB = none) := by
  obtain ⟨oA, oB, ht0⟩ := hc
  obtain ⟨f, i, proj, vs, e1, e2, ⟨⟨q, hq, hqd⟩, hmax⟩, ⟨v, hv, hvd⟩, hall⟩ :=
    box_support_feature_at h hx hy hz c.posA c.ornA oA (smul k n) (-n) tol
  have hnn : dot n n = 1 := hn
  have cd : ∀ w : V3 ℝ, dot (w - smul k n) (-n) = -(dot n w - k) := by
    intro w; rw [dot_neg_right, center_dot hn]
  have cn : dot (smul k n) (-n) = -k := by rw [dot_smul_left, dot_neg_right, hnn]; ring
  rw [cn] at hqd hmax
  have ww : ∀ v : V3 ℝ, toWorldSpace v c.posA c.ornA = c.posA + Quat.rotate c.ornA v := fun v => rfl
  have hext : Extreme (Placed (boxSet h) c.posA c.ornA) (-n) q := ⟨hq, fun w hw => by rw [hqd]; exact hmax w hw⟩
  have hqn : dot n q - k = -proj := by
    rw [dot_neg_right, dot_comm] at hqd; linarith
  unfold boxPlane
  simp only [e1, Option.bind_some]
  rw [plane_near_set hn ht0 hext, hqn]
  by_cases hd : c.thr < -proj
  · rw [if_pos hd]
    exact ⟨[], rfl, by simp; linarith, by simp, by simp⟩
  rw [if_neg hd]
  simp only [e2, Option.map_some]
  have inB : ∀ v ∈ vs, Placed (boxSet h) c.posA c.ornA (c.posA + Quat.rotate c.ornA v) :=
    fun v hv => ⟨v, corner_box hx hy hz (hall v hv).1, rfl⟩
  have hne : vs ≠ [] := List.ne_nil_of_mem hv
  have pt : ∀ v ∈ vs, ∀ f, GoodWithin tol (Placed (boxSet h) c.posA c.ornA) (halfSpace n k) c
        ⟨v, toObjectSpace (projectPlane (toWorldSpace v c.posA c.ornA) (smul k n) n) c.posB c.ornB, n,
          dot (toWorldSpace v c.posA c.ornA - projectPlane (toWorldSpace v c.posA c.ornA) (smul k n) n) n, .onB, f, none⟩ ∧
      (dot (c.posA + Quat.rotate c.ornA v - smul k n) (-n) = proj →
        Good (Placed (boxSet h) c.posA c.ornA) (halfSpace n k) c
        ⟨v, toObjectSpace (projectPlane (toWorldSpace v c.posA c.ornA) (smul k n) n) c.posB c.ornB, n,
          dot (toWorldSpace v c.posA c.ornA - projectPlane (toWorldSpace v c.posA c.ornA) (smul k n) n) n, .onB, f, none⟩) := by
    intro v hv f
    obtain ⟨s1, s2, s3⟩ := plane_step (w := toWorldSpace v c.posA c.ornA) hn k
    have hw := (hall v hv).2
    rw [cd] at hw ⊢
    constructor
    · refine ⟨hn, inB v hv, fun w hw' => ?_, ?_, ?_⟩
      · have := hmax w hw'
        simp only [Ctx.wA]
        rw [dot_neg_right, dot_neg_right, ww, dot_comm _ n] at *
        rw [dot_comm _ n] at *
        rcases hw with hw | hw <;> linarith
      · simp only [Ctx.wB]; rw [world_object _ _ oB]; exact s1
      · simp only [Ctx.wA, Ctx.wB]; rw [world_object _ _ oB]; exact s2
    · intro hp
      refine ⟨hn, ⟨inB v hv, fun w hw' => ?_⟩, ?_, ?_⟩
      · have := hmax w hw'
        simp only [Ctx.wA]
        rw [dot_neg_right, dot_neg_right, ww, dot_comm _ n] at *
        rw [dot_comm _ n] at *
        linarith
      · simp only [Ctx.wB]; rw [world_object _ _ oB]; exact s1
      · simp only [Ctx.wA, Ctx.wB]; rw [world_object _ _ oB]; exact s2
  refine ⟨_, rfl, by simpa [hne] using not_lt.mp hd, ?_, fun _ => ⟨?_, f, i, ?_, ?_⟩⟩
  · intro p hp
    obtain ⟨v, hv, rfl⟩ := List.mem_map.mp hp
    exact ⟨(pt v hv _).1, rfl, rfl⟩
  · exact ⟨_, List.mem_map.mpr ⟨v, hv, rfl⟩, (pt v hv _).2 hvd⟩
  · rw [e2, List.map_map]; simp [Function.comp_def]
  · intro p hp
    obtain ⟨v, hv, rfl⟩ := List.mem_map.mp hp
    exact ⟨rfl, rfl⟩

/-- Not vacuous: a box on the ground. -/
example : ∃ l, boxPlane (1 / 200) ⟨1, 1, 1⟩ ey 0 ⟨⟨3, 1, 0⟩, 1, 0, 1, 1 / 50⟩ = some l ∧ l ≠ [] := by
  obtain ⟨l, h1, h2, _⟩ := box_plane_spec (1 / 200) (by norm_num) ⟨1, 1, 1⟩ ey 0 ⟨⟨3, 1, 0⟩, 1, 0, 1, 1 / 50⟩ (by norm_num)
    (by norm_num) (by norm_num) ey_unit ⟨one_unit, one_unit, by norm_num⟩
  refine ⟨l, h1, h2.mpr ⟨⟨3, 0, 0⟩, ⟨3, 0, 0⟩, ⟨⟨0, -1, 0⟩, ⟨?_, ?_, ?_⟩, ?_⟩, ?_, ?_⟩⟩
  · norm_num
  · norm_num
  · norm_num
  · rw [rotate_one]; ext <;> norm_num
  · norm_num [halfSpace, dot, ey]
  · norm_num [lengthSqr, dot]

/-! ## A cylinder and a plane -/

def cylKind : CylFeat → Kind
  | .face => .cylFace
  | .sideEdge => .cylSideEdge
  | .capEdge => .cylCapEdge

/-- The points on the first shape, in object space, which are added, `collide_cylinder_plane.cpp` 34-78.  The
side starts at the end against the axis. -/
noncomputable def cylPlanePivots (r hl : ℝ) (a : Axis) (n : V3 ℝ) (f : CylFeat × Option ℕ) (c : Ctx) : List (V3 ℝ) :=
  let s := if f.2 = some 0 then hl else -hl
  let axis := Quat.rotate c.ornA a.vec
  let d := -n - smul (dot (-n) axis) axis
  let dirA := smul (1 / Real.sqrt (lengthSqr d)) d
  match f.1 with
  | .face => [a.mk s (r * 0) (r * 1), a.mk s (r * 1) (r * 0), a.mk s (r * 0) (r * -1), a.mk s (r * -1) (r * 0)]
  | .sideEdge => [toObjectSpace (c.posA - smul hl axis + smul r dirA) c.posA c.ornA,
      toObjectSpace (c.posA + smul hl axis + smul r dirA) c.posA c.ornA]
  | .capEdge => [toObjectSpace (c.posA + smul s axis + smul r dirA) c.posA c.ornA]

/-- `collide` of a cylinder and a plane, `collide_cylinder_plane.cpp` 7-81; `tol` is `support_feature_tolerance`
and `eps` is `EDYN_EPSILON`.  The second pivot is left in world space; the pivot on the first shape is taken back to
world space for all features, while the code does so for the caps and keeps the point it started from otherwise. -/
noncomputable def cylinderPlane (eps tol : ℝ) (K : Consts ℝ) (r hl : ℝ) (a : Axis) (n : V3 ℝ) (k : ℝ) (c : Ctx) : Res :=
  let center := smul k n
  let projA := -cylinderProjection eps r hl a c.posA c.ornA (-n)
  let distance := projA - k
  if c.thr < distance then some [] else
  let f := cylFeatureAt r hl a c.ornA (-n) tol
  some (maybeAddAll K ((cylPlanePivots r hl a n f c).map fun v =>
    let pAw := toWorldSpace v c.posA c.ornA
    let pB := projectPlane pAw center n
    ⟨v, pB, n, dot (pAw - pB) n, .onB, some ⟨cylKind f.1, f.2⟩, none⟩))

/-- The point of the rim at a height, furthest in the direction. -/
theorem rim_best {r hl s : ℝ} (hr : 0 ≤ r) (a : Axis) (d : V3 ℝ) (hs : |s| ≤ hl) (hd : 0 < a.planar d) :
    let p := a.mk s (r / Real.sqrt (a.planar d) * a.c1 d) (r / Real.sqrt (a.planar d) * a.c2 d)
    cylinderSet r hl a p ∧ dot p a.vec = s ∧ dot p d = s * a.c0 d + r * Real.sqrt (a.planar d) ∧
    ∀ q, cylinderSet r hl a q → dot q d - a.c0 q * a.c0 d ≤ r * Real.sqrt (a.planar d) := by
  have hw := Real.sqrt_pos.mpr hd
  have hq := Real.mul_self_sqrt hd.le
  have hpl : a.planar d = a.c1 d * a.c1 d + a.c2 d * a.c2 d := rfl
  have acr : ∀ x y, x * x + y * y ≤ r * r → |x * a.c1 d + y * a.c2 d| ≤ r * Real.sqrt (a.planar d) :=
    fun x y h => across_le hr h
  generalize Real.sqrt (a.planar d) = w at hw hq acr ⊢
  intro p
  rw [hpl] at hq
  refine ⟨?_, ?_, ?_, ?_⟩
  · rw [cylinderSet_iff]; simp only [p, Axis.c0_mk, Axis.c1_mk, Axis.c2_mk]
    refine ⟨hs, ?_⟩
    have : r / w * a.c1 d * (r / w * a.c1 d) + r / w * a.c2 d * (r / w * a.c2 d) =
        r * r * (a.c1 d * a.c1 d + a.c2 d * a.c2 d) / (w * w) := by field_simp
    rw [this, ← hq]; apply le_of_eq; field_simp
  · rw [a.dot_vec]; simp only [p, Axis.c0_mk]
  · rw [a.dot_eq]; simp only [p, Axis.c0_mk, Axis.c1_mk, Axis.c2_mk]
    have : r / w * a.c1 d * a.c1 d + r / w * a.c2 d * a.c2 d = r * (a.c1 d * a.c1 d + a.c2 d * a.c2 d) / w := by
      field_simp
    rw [add_assoc, this, ← hq]; congr 1; field_simp
  · intro q hq'
    rw [cylinderSet_iff] at hq'
    have := (abs_le.mp (acr _ _ hq'.2)).2
    rw [a.dot_eq]; linarith

/-- The pivot of a side or an edge, in object space. -/
theorem edge_pivot (r s : ℝ) (a : Axis) (n pos : V3 ℝ) {orn : Quat ℝ} (ho : orn.lengthSqr = 1) :
    let axis := Quat.rotate orn a.vec
    let d := -n - smul (dot (-n) axis) axis
    let u := Quat.rotate orn.conjugate (-n)
    toObjectSpace (pos + smul s axis + smul r (smul (1 / Real.sqrt (lengthSqr d)) d)) pos orn =
      a.mk s (r / Real.sqrt (a.planar u) * a.c1 u) (r / Real.sqrt (a.planar u) * a.c2 u) := by
  intro axis d u
  have hoc : orn.conjugate.lengthSqr = 1 := conjugate_unit ho
  have e1 : dot (-n) axis = a.c0 u := by
    rw [← a.dot_vec]
    simp only [axis, u]
    rw [dot_comm, dot_rotate ho, dot_comm]
  have e2 : Quat.rotate orn.conjugate d = u - smul (a.c0 u) a.vec := by
    simp only [d]
    rw [e1, rotate_sub, rotate_smul]
    simp only [axis]
    rw [(rotate_conjugate orn ho _).1]
  have e3 : lengthSqr d = a.planar u := by
    rw [← rotate_length _ hoc, e2]
    cases a <;> simp [lengthSqr, dot, Axis.vec, Axis.c0, Axis.planar, Axis.c1, Axis.c2, ex, ey, ez] <;> ring
  unfold toObjectSpace
  rw [e3, show pos + smul s axis + smul r (smul (1 / Real.sqrt (a.planar u)) d) - pos =
    smul s axis + smul (r / Real.sqrt (a.planar u)) d by ext <;> simp <;> ring, rotate_add, rotate_smul, rotate_smul, e2]
  simp only [axis]
  rw [(rotate_conjugate orn ho _).1]
  cases a <;> ext <;> simp [Axis.mk, Axis.vec, Axis.c0, Axis.c1, Axis.c2, ex, ey, ez]

/-- All pivots belong to the part of the cylinder the feature stands for. -/
theorem cylPlane_part {tol r hl : ℝ} (ht : 0 < tol) (hr : 0 ≤ r) (hh : 0 ≤ hl) (a : Axis) (n : V3 ℝ) (c : Ctx)
    (oA : c.ornA.lengthSqr = 1) :
    let u := Quat.rotate c.ornA.conjugate (-n)
    let f := cylFeature r hl a u tol
    ∀ v ∈ cylPlanePivots r hl a n f c, CylPart r hl a u f v := by
  intro u f v hv
  have hs : |if f.2 = some 0 then hl else -hl| ≤ hl := by
    split_ifs
    · rw [abs_of_nonneg hh]
    · rw [abs_neg, abs_of_nonneg hh]
  have hpl : f.1 ≠ .face → 0 < a.planar u := by
    intro h
    rcases (a.planar_nonneg u).lt_or_eq with hp | hp
    · exact hp
    · exfalso
      apply h
      simp only [f, cylFeature]
      have : a.c1 u * a.c1 u + a.c2 u * a.c2 u = 0 := hp.symm
      rw [this, if_pos (by simp; positivity)]
  have minus : ∀ axis d : V3 ℝ, c.posA - smul hl axis + d = c.posA + smul (-hl) axis + d := by
    intro axis d; ext <;> simp <;> ring
  unfold cylPlanePivots at hv
  rcases hf : f with ⟨k, i⟩
  rw [hf] at hs hpl hv
  cases k with
  | face =>
    simp only [List.mem_cons, List.not_mem_nil, or_false] at hv
    rcases hv with rfl | rfl | rfl | rfl <;>
    · refine ⟨?_, by rw [a.dot_vec, Axis.c0_mk]⟩
      rw [cylinderSet_iff]; simp only [Axis.c0_mk, Axis.c1_mk, Axis.c2_mk]
      exact ⟨hs, by linarith⟩
  | sideEdge =>
    have side : ∀ s, |s| ≤ hl → CylPart r hl a u (CylFeat.sideEdge, i)
        (a.mk s (r / Real.sqrt (a.planar u) * a.c1 u) (r / Real.sqrt (a.planar u) * a.c2 u)) := by
      intro s hs
      obtain ⟨b1, b2, b3, b4⟩ := rim_best hr a u hs (hpl (by simp))
      refine ⟨b1, fun q hq => ?_⟩
      rw [dot_sub_left, dot_sub_left, dot_smul_left, dot_smul_left, b2, b3, a.dot_vec, dot_comm a.vec u, a.dot_vec]
      have := b4 q hq
      linarith
    simp only [List.mem_cons, List.not_mem_nil, or_false] at hv
    rcases hv with rfl | rfl
    · rw [minus, edge_pivot r (-hl) a n c.posA oA]
      exact side _ (by rw [abs_neg, abs_of_nonneg hh])
    · rw [edge_pivot r hl a n c.posA oA]
      exact side _ (by rw [abs_of_nonneg hh])
  | capEdge =>
    simp only [List.mem_cons, List.not_mem_nil, or_false] at hv
    rw [hv, edge_pivot r _ a n c.posA oA]
    obtain ⟨b1, b2, b3, b4⟩ := rim_best hr a u hs (hpl (by simp))
    refine ⟨⟨b1, b2⟩, fun q hq hqa => ?_⟩
    rw [b3]
    have := b4 q hq
    rw [← a.dot_vec q, hqa] at this
    linarith

/-- **C71, a cylinder and a plane.** At most four points are reported.  All of them are good up to the tolerance,
and good if the feature is a cap edge; they lie on the part of the cylinder the feature stands for.
Points are reported only when the cylinder is within the threshold of the plane, always when it is within a smaller
threshold by `2 r √ε`, and exactly when it is within the threshold if the normal is not almost along the axis. -/
theorem cylinder_plane_partial (eps tol : ℝ) (K : Consts ℝ) (r hl : ℝ) (a : Axis) (n : V3 ℝ) (k : ℝ) (c : Ctx)
    (he : 0 ≤ eps) (ht : 0 < tol) (hr : 0 ≤ r) (hh : 0 ≤ hl) (hn : lengthSqr n = 1) (hc : c.Fixed) :
    ∃ l, cylinderPlane eps tol K r hl a n k c = some l ∧ l.length ≤ 4 ∧
      (l ≠ [] → Near (Placed (cylinderSet r hl a) c.posA c.ornA) (halfSpace n k) c.thr) ∧
      (∀ t, 0 ≤ t → t + 2 * r * Real.sqrt eps ≤ c.thr →
        Near (Placed (cylinderSet r hl a) c.posA c.ornA) (halfSpace n k) t → l ≠ []) ∧
      (Across eps (Quat.rotate c.ornA a.vec) (-n) →
        (l ≠ [] ↔ Near (Placed (cylinderSet r hl a) c.posA c.ornA) (halfSpace n k) c.thr)) ∧
      ∀ p ∈ l, GoodWithin tol (Placed (cylinderSet r hl a) c.posA c.ornA) (halfSpace n k) c p ∧ p.att = .onB ∧
        ∃ f i, p.fA = some ⟨cylKind f, i⟩ ∧ CylPart r hl a (Quat.rotate c.ornA.conjugate (-n)) (f, i) p.pA ∧
          (f = .capEdge → Good (Placed (cylinderSet r hl a) c.posA c.ornA) (halfSpace n k) c p) := by
  obtain ⟨⟨oA, _, ht0⟩, pB, qB⟩ := hc
  have hnn : dot n n = 1 := hn
  obtain ⟨⟨m, ⟨⟨q, hq, hqd⟩, hmax⟩, _, hall⟩, _⟩ :=
    cylinder_feature_spec r hl hr hh a (Quat.rotate c.ornA.conjugate (-n)) tol ht
  have part := cylPlane_part ht hr hh a n c oA
  obtain ⟨g1, g2, g3⟩ := cylinder_support_slack eps r hl he hr hh a c.posA c.ornA oA (-n)
  have ex3 : ∀ v, dot (c.posA + Quat.rotate c.ornA v) (-n) = dot c.posA (-n) + dot v (Quat.rotate c.ornA.conjugate (-n)) := by
    intro v; rw [dot_add_left, dot_rotate oA]
  have hext : Extreme (Placed (cylinderSet r hl a) c.posA c.ornA) (-n) (c.posA + Quat.rotate c.ornA q) := by
    refine ⟨⟨q, hq, rfl⟩, ?_⟩
    rintro _ ⟨p, hp, rfl⟩
    rw [ex3, ex3, hqd]
    have := hmax p hp
    linarith
  have near := fun t (h : 0 ≤ t) => plane_near_set (k := k) hn h hext
  have eqn : dot n (c.posA + Quat.rotate c.ornA q) = -dot (c.posA + Quat.rotate c.ornA q) (-n) := by
    rw [dot_neg_right, dot_comm]; ring
  have lo := hext.2 _ g1
  have hi := g3 _ hext.1
  unfold cylinderPlane
  simp only
  by_cases hd : c.thr < -cylinderProjection eps r hl a c.posA c.ornA (-n) - k
  · rw [if_pos hd]
    refine ⟨[], rfl, by simp, by simp, ?_, ?_, by simp⟩
    · intro t t0 t1 hnear
      rw [near t t0, eqn] at hnear
      linarith
    · intro hac
      rw [near _ ht0, eqn]
      have := ((cylinder_support_partial eps r hl he hr hh a c.posA c.ornA oA (-n) hac).2).2 _ hext.1
      simp; linarith
  rw [if_neg hd]
  have hnear : Near (Placed (cylinderSet r hl a) c.posA c.ornA) (halfSpace n k) c.thr := by
    rw [near _ ht0, eqn]; linarith
  obtain ⟨a1, a2, a3⟩ := maybe_add_all K ((cylPlanePivots r hl a n (cylFeatureAt r hl a c.ornA (-n) tol) c).map fun v =>
    (⟨v, projectPlane (toWorldSpace v c.posA c.ornA) (smul k n) n, n,
      dot (toWorldSpace v c.posA c.ornA - projectPlane (toWorldSpace v c.posA c.ornA) (smul k n) n) n, .onB,
      some ⟨cylKind (cylFeatureAt r hl a c.ornA (-n) tol).1, (cylFeatureAt r hl a c.ornA (-n) tol).2⟩, none⟩ : Point))
  have hne : cylPlanePivots r hl a n (cylFeatureAt r hl a c.ornA (-n) tol) c ≠ [] := by
    unfold cylPlanePivots
    simp only
    cases (cylFeatureAt r hl a c.ornA (-n) tol).1 <;> simp
  have hl' := a3.mpr (by simpa using hne)
  refine ⟨_, rfl, a1, fun _ => hnear, fun _ _ _ _ => hl', fun _ => ⟨fun _ => hnear, fun _ => hl'⟩, ?_⟩
  intro p hp
  obtain ⟨v, hv, rfl⟩ := List.mem_map.mp (a2 p hp)
  obtain ⟨s1, s2, s3⟩ := plane_step (w := toWorldSpace v c.posA c.ornA) hn k
  have hP := part v hv
  have mem : cylinderSet r hl a v := by
    rcases hf : cylFeature r hl a (Quat.rotate c.ornA.conjugate (-n)) tol with ⟨f, i⟩
    rw [hf] at hP
    cases f
    · exact hP.1
    · exact hP.1
    · exact hP.1.1
  obtain ⟨w1, w2⟩ := hall v hP
  have wB : ∀ w, toWorldSpace w c.posB c.ornB = w := by
    intro w; rw [pB, qB]; unfold toWorldSpace; rw [rotate_one]; ext <;> simp
  refine ⟨⟨hn, ⟨v, mem, rfl⟩, ?_, ?_, ?_⟩, rfl, _, _, rfl, hP, fun hcap => ⟨hn, ⟨⟨v, mem, rfl⟩, ?_⟩, ?_, ?_⟩⟩
  · rintro _ ⟨p, hp, rfl⟩
    simp only [Ctx.wA]
    rw [show toWorldSpace v c.posA c.ornA = c.posA + Quat.rotate c.ornA v from rfl, ex3, ex3]
    have := hmax p hp
    linarith
  · simp only [Ctx.wB]; rw [wB]; exact s1
  · simp only [Ctx.wA, Ctx.wB]; rw [wB]; exact s2
  · rintro _ ⟨p, hp, rfl⟩
    simp only [Ctx.wA]
    rw [show toWorldSpace v c.posA c.ornA = c.posA + Quat.rotate c.ornA v from rfl, ex3, ex3, w2 hcap]
    have := hmax p hp
    linarith
  · simp only [Ctx.wB]; rw [wB]; exact s1
  · simp only [Ctx.wA, Ctx.wB]; rw [wB]; exact s2

/-- Not vacuous: an upright cylinder on the ground. -/
example (K : Consts ℝ) : ∃ l, cylinderPlane (1 / 8388608) (1 / 200) K 1 1 .y ey 0 ⟨⟨3, 1, 0⟩, 1, 0, 1, 1 / 50⟩ = some l ∧
    l ≠ [] := by
  obtain ⟨l, h1, _, _, _, h2, _⟩ := cylinder_plane_partial (1 / 8388608) (1 / 200) K 1 1 .y ey 0
    ⟨⟨3, 1, 0⟩, 1, 0, 1, 1 / 50⟩ (by norm_num) (by norm_num) (by norm_num) (by norm_num) ey_unit
    ⟨⟨one_unit, one_unit, by norm_num⟩, rfl, rfl⟩
  refine ⟨l, h1, (h2 (.inl ?_)).mpr ⟨⟨3, 0, 0⟩, ⟨3, 0, 0⟩, ⟨⟨0, -1, 0⟩, ⟨?_, ?_⟩, ?_⟩, ?_, ?_⟩⟩
  · rw [rotate_one]; norm_num [lengthSqr, dot, Axis.vec, ey]
  · norm_num [dot, Axis.vec, ey]
  · norm_num [lengthSqr, dot, Axis.vec, ey]
  · rw [rotate_one]; ext <;> norm_num
  · norm_num [halfSpace, dot, ey]
  · norm_num [lengthSqr, dot]

end Edyn.Collide
