import Verif.Collide.PolyCapExact
import Verif.Collide.BoxBox
import Verif.Collide.CapsuleCapsule

/-!
# The distance between a capsule and a box (C101)

The first part of `collide` for a capsule and a box, `src/edyn/collision/collide/collide_capsule_box.cpp` 14-83: the
direction of separation and its distance.  Scalars are exact reals; `eps` is `EDYN_EPSILON`, `tiny` is the `1e-18` of
`try_normalize`.
-/

namespace Edyn.Collide

open Edyn.Math hiding lengthSqr_nonneg
open V3 Edyn.Geom Edyn.Contact

/-! ## Model -/

/-- Both shapes moved so that A is at the origin, `collide_capsule_box.cpp` 16-20. -/
noncomputable def Ctx.fromA (c : Ctx) : Ctx := { c with posA := 0, posB := c.posB - c.posA }

/-- One pass of the first loop, `collide_capsule_box.cpp` 35-43: the distance and the direction. -/
noncomputable def capFace (v0 v1 : V3 ℝ) (r : ℝ) (c : Ctx) (b : V3 ℝ × ℝ) : ℝ × V3 ℝ :=
  let dir := towardsA c b.1
  (-capsuleProjection v0 v1 r (-dir) - (dot c.posB dir + b.2), dir)

/-- One pass of the second loop, `collide_capsule_box.cpp` 53-71.  `none`: there is no such edge; an empty list: the
pass is left early. -/
noncomputable def capBoxEdge (eps tiny : ℝ) (v0 v1 : V3 ℝ) (r : ℝ) (h : V3 ℝ) (c : Ctx) (i : ℕ) : Option (List (ℝ × V3 ℝ)) :=
  (edgeAt h i c.posB c.ornB).map fun e =>
    let s := closestSegSeg eps false e.1 e.2 v0 v1
    match tryNormalize tiny (s.c1 - s.c2) with
    | none => []
    | some u =>
      let dir := towardsA c u
      [(-capsuleProjection v0 v1 r (-dir) - boxProjection h c.posB c.ornB dir, dir)]

/-- `collide_capsule_box.cpp` 30-78, for given positions: the distance and the separating axis. -/
noncomputable def capBoxAxisAt (eps tiny r hl : ℝ) (a : Axis) (h : V3 ℝ) (c : Ctx) : Option (ℝ × V3 ℝ) :=
  let v0 := capVertex0 hl a c.posA c.ornA
  let v1 := capVertex1 hl a c.posA c.ornA
  ((List.range 12).mapM (capBoxEdge eps tiny v0 v1 r h c)).bind fun es =>
  ((boxAxes h c.ornB).map (capFace v0 v1 r c) ++ es.flatten).foldl betterAxis none

/-- `collide_capsule_box.cpp` 14-78: the distance and the separating axis.  In the code there are no points if and only
if this distance is above the threshold (80-82) or none is found for the features. -/
noncomputable def capBoxAxis (eps tiny r hl : ℝ) (a : Axis) (h : V3 ℝ) (c : Ctx) : Option (ℝ × V3 ℝ) :=
  capBoxAxisAt eps tiny r hl a h c.fromA

/-! ## Specification -/

/-- The capsule A of the context. -/
def Ctx.capA (c : Ctx) (r hl : ℝ) (a : Axis) : V3 ℝ → Prop := Placed (capsuleSet r hl a) c.posA c.ornA

/-- The axis of the capsule A. -/
def Ctx.axisA (c : Ctx) (hl : ℝ) (a : Axis) : V3 ℝ → Prop := segSet (capVertex0 hl a c.posA c.ornA) (capVertex1 hl a c.posA c.ornA)

/-- No edge of the box is too short, and each is parallel to the axis of the capsule or clearly not so. -/
def CapBoxClear (eps hl : ℝ) (a : Axis) (h : V3 ℝ) (c : Ctx) : Prop :=
  ∀ e ∈ [(ex, h.x), (ey, h.y), (ez, h.z)], eps < 4 * e.2 * e.2 ∧
    (cross (Quat.rotate c.ornB e.1) (Quat.rotate c.ornA a.vec) = 0 ∨
      eps < 16 * e.2 * e.2 * hl * hl * lengthSqr (cross (Quat.rotate c.ornB e.1) (Quat.rotate c.ornA a.vec)))

/-! ## Each direction -/

theorem tube_seg (v0 v1 : V3 ℝ) (r : ℝ) (w : V3 ℝ) : tubeSet v0 v1 r w ↔ Inflate (segSet v0 v1) r w := by
  constructor
  · rintro ⟨t, t0, t1, h⟩; exact ⟨_, ⟨t, t0, t1, rfl⟩, h⟩
  · rintro ⟨_, ⟨t, t0, t1, rfl⟩, h⟩; exact ⟨t, t0, t1, h⟩

theorem cap_box_gap {r hl : ℝ} (hr : 0 ≤ r) (hh : 0 < hl) (a : Axis) {h : V3 ℝ} (hp : PosExt h) {c : Ctx} (hc : c.Ok)
    {n : V3 ℝ} (hn : lengthSqr n = 1) :
    GapAlong (c.capA r hl a) (c.boxB h) n
      (-capsuleProjection (capVertex0 hl a c.posA c.ornA) (capVertex1 hl a c.posA c.ornA) r (-n) -
        boxProjection h c.posB c.ornB n) := by
  obtain ⟨-, ⟨b, hb, eb⟩, hB⟩ := box_support_spec h c.posB hp.1.le hp.2.1.le hp.2.2.le c.ornB hc.2.1 n
  obtain ⟨⟨k, hk, ek⟩, hA⟩ := capsule_support_partial (capVertex0 hl a c.posA c.ornA) (capVertex1 hl a c.posA c.ornA) r hr (-n)
    (by rw [show lengthSqr (-n) = lengthSqr n by simp [lengthSqr, dot]]; exact hn)
  have inC : ∀ w, c.capA r hl a w ↔ tubeSet (capVertex0 hl a c.posA c.ornA) (capVertex1 hl a c.posA c.ornA) r w := by
    intro w; rw [tube_seg, ← capsule_inflate r hl hh a c.posA hc.1]; rfl
  refine ⟨fun p q hp' hq => ?_, k, b, (inC k).2 hk, hb, ?_⟩
  · have h1 := hA p ((inC p).1 hp')
    have h2 := hB q hq
    rw [dot_neg_right] at h1
    rw [dot_sub_left]; linarith
  · rw [dot_neg_right] at ek
    rw [dot_sub_left]; linarith

/-- What a pass of one of the loops finds. -/
def CapFound (r hl : ℝ) (a : Axis) (h : V3 ℝ) (c : Ctx) (x : ℝ × V3 ℝ) : Prop :=
  lengthSqr x.2 = 1 ∧ GapAlong (c.capA r hl a) (c.boxB h) x.2 x.1 ∧ 0 ≤ dot (c.posA - c.posB) x.2

theorem capFace_found {r hl : ℝ} (hr : 0 ≤ r) (hh : 0 < hl) (a : Axis) {h : V3 ℝ} (hp : PosExt h) {c : Ctx} (hc : c.Ok)
    {b : V3 ℝ × ℝ} (hb : b ∈ boxAxes h c.ornB) :
    CapFound r hl a h c (capFace (capVertex0 hl a c.posA c.ornA) (capVertex1 hl a c.posA c.ornA) r c b) := by
  obtain ⟨b1, b2⟩ := ext1_axis hc.2.1 hb
  have hu := towardsA_unit (c := c) b1
  refine ⟨hu, ?_, by simp only [capFace]; rw [towardsA_dot]; exact abs_nonneg _⟩
  have := cap_box_gap hr hh a hp hc hu
  rw [boxProjection_eq, towardsA_ext, b2] at this
  exact this

theorem normalized_unit {tiny : ℝ} (ht : 0 ≤ tiny) {v u : V3 ℝ} (h : tryNormalize tiny v = some u) : lengthSqr u = 1 := by
  unfold tryNormalize at h
  split_ifs at h with h0
  simp only [Option.some.injEq] at h
  have hv : 0 < lengthSqr v := by linarith
  have hs : Real.sqrt (lengthSqr v) * Real.sqrt (lengthSqr v) = lengthSqr v := Real.mul_self_sqrt hv.le
  have hs0 : 0 < Real.sqrt (lengthSqr v) := Real.sqrt_pos.2 hv
  rw [← h, show lengthSqr (smul (1 / Real.sqrt (lengthSqr v)) v) = 1 / Real.sqrt (lengthSqr v) * (1 / Real.sqrt (lengthSqr v)) * lengthSqr v by
    simp [lengthSqr, dot]; ring]
  rw [div_mul_div_comm, hs]; field_simp

/-- The box has the twelve edges. -/
theorem edge_some (h : V3 ℝ) (pos : V3 ℝ) (orn : Quat ℝ) {i : ℕ} (hi : i < 12) : ∃ e, edgeAt h i pos orn = some e := by
  interval_cases i <;> exact ⟨_, rfl⟩

theorem mapM_every {α β : Type} {f : α → Option β} {l : List α} (h : ∀ x ∈ l, ∃ y, f x = some y) :
    ∃ ys, l.mapM f = some ys ∧ (∀ y ∈ ys, ∃ x ∈ l, f x = some y) ∧ ∀ x ∈ l, ∀ y, f x = some y → y ∈ ys := by
  induction l with
  | nil => exact ⟨[], by simp, by simp, by simp⟩
  | cons x l ih =>
    obtain ⟨y, hy⟩ := h x List.mem_cons_self
    obtain ⟨ys, h1, h2, h3⟩ := ih fun z hz => h z (List.mem_cons_of_mem _ hz)
    refine ⟨y :: ys, by simp [List.mapM_cons, hy, h1], ?_, ?_⟩
    · intro z hz
      rcases List.mem_cons.1 hz with rfl | hz
      · exact ⟨x, List.mem_cons_self, hy⟩
      · obtain ⟨w, hw, e⟩ := h2 z hz
        exact ⟨w, List.mem_cons_of_mem _ hw, e⟩
    · intro z hz w hw
      rcases List.mem_cons.1 hz with rfl | hz
      · rw [hy] at hw; simp only [Option.some.injEq] at hw; rw [hw]; exact List.mem_cons_self
      · exact List.mem_cons_of_mem _ (h3 z hz w hw)

/-- All passes. -/
theorem capAxisAt_spec {eps tiny r hl : ℝ} (ht : 0 ≤ tiny) (hr : 0 ≤ r) (hh : 0 < hl) (a : Axis) {h : V3 ℝ} (hp : PosExt h)
    {c : Ctx} (hc : c.Ok) :
    ∃ x, capBoxAxisAt eps tiny r hl a h c = some x ∧ CapFound r hl a h c x ∧
      (∀ b ∈ boxAxes h c.ornB, ∃ z, CapFound r hl a h c z ∧ z.2 = towardsA c b.1 ∧ z.1 ≤ x.1) ∧
      ∀ i e, i < 12 → edgeAt h i c.posB c.ornB = some e → ∀ u,
        tryNormalize tiny ((closestSegSeg eps false e.1 e.2 (capVertex0 hl a c.posA c.ornA) (capVertex1 hl a c.posA c.ornA)).c1 -
          (closestSegSeg eps false e.1 e.2 (capVertex0 hl a c.posA c.ornA) (capVertex1 hl a c.posA c.ornA)).c2) = some u →
        ∃ z, CapFound r hl a h c z ∧ z.2 = towardsA c u ∧ z.1 ≤ x.1 := by
  have edge : ∀ i e, edgeAt h i c.posB c.ornB = some e → ∀ u,
      tryNormalize tiny ((closestSegSeg eps false e.1 e.2 (capVertex0 hl a c.posA c.ornA) (capVertex1 hl a c.posA c.ornA)).c1 -
          (closestSegSeg eps false e.1 e.2 (capVertex0 hl a c.posA c.ornA) (capVertex1 hl a c.posA c.ornA)).c2) = some u →
      capBoxEdge eps tiny (capVertex0 hl a c.posA c.ornA) (capVertex1 hl a c.posA c.ornA) r h c i =
        some [(-capsuleProjection (capVertex0 hl a c.posA c.ornA) (capVertex1 hl a c.posA c.ornA) r (-towardsA c u) -
          boxProjection h c.posB c.ornB (towardsA c u), towardsA c u)] ∧
      CapFound r hl a h c (-capsuleProjection (capVertex0 hl a c.posA c.ornA) (capVertex1 hl a c.posA c.ornA) r (-towardsA c u) -
          boxProjection h c.posB c.ornB (towardsA c u), towardsA c u) := by
    intro i e he u hu
    have h1 := towardsA_unit (c := c) (normalized_unit ht hu)
    refine ⟨?_, h1, cap_box_gap hr hh a hp hc h1, by simp only; rw [towardsA_dot]; exact abs_nonneg _⟩
    unfold capBoxEdge
    simp only [he, Option.map_some, hu]
  obtain ⟨es, m1, m2, m3⟩ := mapM_every (f := capBoxEdge eps tiny (capVertex0 hl a c.posA c.ornA) (capVertex1 hl a c.posA c.ornA) r h c)
    (l := List.range 12) (by
      intro i hi
      obtain ⟨e, he⟩ := edge_some h c.posB c.ornB (List.mem_range.1 hi)
      exact ⟨_, by unfold capBoxEdge; rw [he]; rfl⟩)
  have found : ∀ z ∈ es.flatten, CapFound r hl a h c z := by
    intro z hz
    obtain ⟨l, hl1, hz⟩ := List.mem_flatten.1 hz
    obtain ⟨i, hi, e⟩ := m2 l hl1
    obtain ⟨ed, he⟩ := edge_some h c.posB c.ornB (List.mem_range.1 hi)
    cases hu : tryNormalize tiny ((closestSegSeg eps false ed.1 ed.2 (capVertex0 hl a c.posA c.ornA) (capVertex1 hl a c.posA c.ornA)).c1 -
          (closestSegSeg eps false ed.1 ed.2 (capVertex0 hl a c.posA c.ornA) (capVertex1 hl a c.posA c.ornA)).c2) with
    | none =>
      unfold capBoxEdge at e
      simp only [he, Option.map_some, hu, Option.some.injEq] at e
      rw [← e] at hz; simp at hz
    | some u =>
      obtain ⟨e1, e2⟩ := edge i ed he u hu
      rw [e1] at e
      simp only [Option.some.injEq] at e
      rw [← e, List.mem_singleton] at hz
      rw [hz]; exact e2
  have hfx : (Quat.rotate c.ornB ex, h.x) ∈ boxAxes h c.ornB := by simp [boxAxes]
  unfold capBoxAxisAt
  simp only [m1, Option.bind_some]
  obtain ⟨x, x1, x2, x3, x4⟩ := better_fold ([(Quat.rotate c.ornB ey, h.y), (Quat.rotate c.ornB ez, h.z)].map
      (capFace (capVertex0 hl a c.posA c.ornA) (capVertex1 hl a c.posA c.ornA) r c) ++ es.flatten)
    (capFace (capVertex0 hl a c.posA c.ornA) (capVertex1 hl a c.posA c.ornA) r c (Quat.rotate c.ornB ex, h.x))
  have all : ∀ z ∈ (boxAxes h c.ornB).map (capFace (capVertex0 hl a c.posA c.ornA) (capVertex1 hl a c.posA c.ornA) r c) ++ es.flatten,
      z.1 ≤ x.1 := by
    intro z hz
    simp only [boxAxes, List.map_cons, List.cons_append] at hz
    rcases List.mem_cons.1 hz with rfl | hz
    · exact x3
    · exact x4 z hz
  refine ⟨x, x1, ?_, ?_, ?_⟩
  · rcases x2 with rfl | x2
    · exact capFace_found hr hh a hp hc hfx
    · rcases List.mem_append.1 x2 with x2 | x2
      · obtain ⟨b, hb, rfl⟩ := List.mem_map.1 x2
        exact capFace_found hr hh a hp hc (by simp only [boxAxes]; exact List.mem_cons_of_mem _ hb)
      · exact found x x2
  · intro b hb
    exact ⟨_, capFace_found hr hh a hp hc hb, rfl, all _ (List.mem_append_left _ (List.mem_map_of_mem hb))⟩
  · intro i e hi he u hu
    obtain ⟨e1, e2⟩ := edge i e he u hu
    exact ⟨_, e2, rfl, all _ (List.mem_append_right _ (List.mem_flatten.2 ⟨_, m3 i (List.mem_range.2 hi) _ e1, List.mem_singleton.2 rfl⟩))⟩

/-! ## The direction between closest points -/

theorem gap_flip {S T : V3 ℝ → Prop} {n : V3 ℝ} {x : ℝ} (hg : GapAlong S T n x) : GapAlong T S (-n) x := by
  have e : ∀ a b : V3 ℝ, dot (b - a) (-n) = dot (a - b) n := by intro a b; simp [dot]; ring
  obtain ⟨h1, a, b, ha, hb, h2⟩ := hg
  exact ⟨fun p q hp hq => by rw [e]; exact h1 q p hq hp, b, a, hb, ha, by rw [e]; exact h2⟩

theorem neg_neg_v (n : V3 ℝ) : -(-n) = n := by ext <;> simp

/-- Either of the two directions is turned to the one towards A. -/
theorem towards_eq {c : Ctx} {m u : V3 ℝ} (hm : 0 < dot (c.posA - c.posB) m) (hu : u = m ∨ u = -m) : towardsA c u = m := by
  unfold towardsA
  rcases hu with rfl | rfl
  · rw [if_neg (by linarith)]
  · rw [if_pos (by rw [dot_neg_right]; linarith), neg_neg_v]

theorem coord_down {H s : ℝ} (hH : 0 < H) (hs : |s| ≤ H) : ∃ t, 0 ≤ t ∧ t ≤ 1 ∧ s = H + t * (-H - H) := by
  rw [abs_le] at hs
  refine ⟨(H - s) / (2 * H), div_nonneg (by linarith) (by linarith), by rw [div_le_one (by linarith)]; linarith, by field_simp; ring⟩

theorem coord_up {H s : ℝ} (hH : 0 < H) (hs : |s| ≤ H) : ∃ t, 0 ≤ t ∧ t ≤ 1 ∧ s = -H + t * (H - -H) := by
  rw [abs_le] at hs
  refine ⟨(H + s) / (2 * H), div_nonneg (by linarith) (by linarith), by rw [div_le_one (by linarith)]; linarith, by field_simp; ring⟩

/-- The edges, as vectors. -/
def EdgeVec (h v w : V3 ℝ) : Prop :=
  ∃ e ∈ [(ex, h.x), (ey, h.y), (ez, h.z)], ∃ s : ℝ, s * s = 1 ∧ w - v = smul (2 * s * e.2) e.1

theorem edge_vec (h v w : V3 ℝ) (i : ℕ) (hi : i < 12) (e : boxEdge h i = some [v, w]) : EdgeVec h v w := by
  interval_cases i <;> simp [boxEdge, boxEdges, boxVertex] at e <;> obtain ⟨rfl, rfl⟩ := e
  · exact ⟨_, List.mem_cons_of_mem _ List.mem_cons_self, -1, by norm_num, by ext <;> simp [ey] <;> ring1⟩
  · exact ⟨_, List.mem_cons_of_mem _ (List.mem_cons_of_mem _ List.mem_cons_self), -1, by norm_num, by ext <;> simp [ez] <;> ring1⟩
  · exact ⟨_, List.mem_cons_of_mem _ List.mem_cons_self, 1, by norm_num, by ext <;> simp [ey] <;> ring1⟩
  · exact ⟨_, List.mem_cons_of_mem _ (List.mem_cons_of_mem _ List.mem_cons_self), 1, by norm_num, by ext <;> simp [ez] <;> ring1⟩
  · exact ⟨_, List.mem_cons_of_mem _ (List.mem_cons_of_mem _ List.mem_cons_self), -1, by norm_num, by ext <;> simp [ez] <;> ring1⟩
  · exact ⟨_, List.mem_cons_of_mem _ List.mem_cons_self, -1, by norm_num, by ext <;> simp [ey] <;> ring1⟩
  · exact ⟨_, List.mem_cons_of_mem _ (List.mem_cons_of_mem _ List.mem_cons_self), 1, by norm_num, by ext <;> simp [ez] <;> ring1⟩
  · exact ⟨_, List.mem_cons_of_mem _ List.mem_cons_self, 1, by norm_num, by ext <;> simp [ey] <;> ring1⟩
  · exact ⟨_, List.mem_cons_self, -1, by norm_num, by ext <;> simp [ex] <;> ring1⟩
  · exact ⟨_, List.mem_cons_self, -1, by norm_num, by ext <;> simp [ex] <;> ring1⟩
  · exact ⟨_, List.mem_cons_self, -1, by norm_num, by ext <;> simp [ex] <;> ring1⟩
  · exact ⟨_, List.mem_cons_self, -1, by norm_num, by ext <;> simp [ex] <;> ring1⟩

theorem abs_side {s H : ℝ} (h : |s| = H) : s = H ∨ s = -H := by
  rcases abs_cases s with ⟨e, -⟩ | ⟨e, -⟩
  · left; linarith
  · right; linarith

/-- A point of the box at two of its sides is on an edge. -/
theorem on_edge {h : V3 ℝ} (hp : PosExt h) {w : V3 ℝ} (hw : boxSet h w)
    (h2 : (|w.x| = h.x ∧ |w.y| = h.y) ∨ (|w.x| = h.x ∧ |w.z| = h.z) ∨ (|w.y| = h.y ∧ |w.z| = h.z)) :
    ∃ i v v', i < 12 ∧ boxEdge h i = some [v, v'] ∧ segSet v v' w := by
  obtain ⟨wx, wy, wz⟩ := hw
  obtain ⟨xd, xd0, xd1, xde⟩ := coord_down hp.1 wx
  obtain ⟨yd, yd0, yd1, yde⟩ := coord_down hp.2.1 wy
  obtain ⟨yu, yu0, yu1, yue⟩ := coord_up hp.2.1 wy
  obtain ⟨zd, zd0, zd1, zde⟩ := coord_down hp.2.2 wz
  obtain ⟨zu, zu0, zu1, zue⟩ := coord_up hp.2.2 wz
  rcases h2 with ⟨a, b⟩ | ⟨a, b⟩ | ⟨a, b⟩ <;> rcases abs_side a with a | a <;> rcases abs_side b with b | b
  · exact ⟨3, _, _, by norm_num, rfl, zu, zu0, zu1, by ext <;> simp <;> linarith⟩
  · exact ⟨1, _, _, by norm_num, rfl, zd, zd0, zd1, by ext <;> simp <;> linarith⟩
  · exact ⟨4, _, _, by norm_num, rfl, zd, zd0, zd1, by ext <;> simp <;> linarith⟩
  · exact ⟨6, _, _, by norm_num, rfl, zu, zu0, zu1, by ext <;> simp <;> linarith⟩
  · exact ⟨0, _, _, by norm_num, rfl, yd, yd0, yd1, by ext <;> simp <;> linarith⟩
  · exact ⟨2, _, _, by norm_num, rfl, yu, yu0, yu1, by ext <;> simp <;> linarith⟩
  · exact ⟨7, _, _, by norm_num, rfl, yu, yu0, yu1, by ext <;> simp <;> linarith⟩
  · exact ⟨5, _, _, by norm_num, rfl, yd, yd0, yd1, by ext <;> simp <;> linarith⟩
  · exact ⟨8, _, _, by norm_num, rfl, xd, xd0, xd1, by ext <;> simp <;> linarith⟩
  · exact ⟨11, _, _, by norm_num, rfl, xd, xd0, xd1, by ext <;> simp <;> linarith⟩
  · exact ⟨9, _, _, by norm_num, rfl, xd, xd0, xd1, by ext <;> simp <;> linarith⟩
  · exact ⟨10, _, _, by norm_num, rfl, xd, xd0, xd1, by ext <;> simp <;> linarith⟩

/-- The edges are in the box. -/
theorem edge_in_box {h : V3 ℝ} (hp : PosExt h) {v v' w : V3 ℝ} {i : ℕ} (hi : i < 12) (he : boxEdge h i = some [v, v'])
    (hw : segSet v v' w) : boxSet h w := by
  obtain ⟨t, t0, t1, rfl⟩ := hw
  refine box_convex h v v' ?_ ?_ t t0 t1 <;>
  · have a1 := abs_of_pos hp.1
    have a2 := abs_of_pos hp.2.1
    have a3 := abs_of_pos hp.2.2
    interval_cases i <;> simp [boxEdge, boxEdges, boxVertex] at he <;> obtain ⟨rfl, rfl⟩ := he <;> simp [boxSet, a1, a2, a3]

/-- A point of the box lowest along `N` which is not on an edge: `N` is along an axis. -/
theorem inner_axis {h : V3 ℝ} (hp : PosExt h) {w N : V3 ℝ} (hw : boxSet h w) (hN : lengthSqr N = 1)
    (hmin : ∀ w', boxSet h w' → dot w N ≤ dot w' N)
    (h2 : ¬ ((|w.x| = h.x ∧ |w.y| = h.y) ∨ (|w.x| = h.x ∧ |w.z| = h.z) ∨ (|w.y| = h.y ∧ |w.z| = h.z))) :
    ∃ e ∈ [ex, ey, ez], N = e ∨ N = -e := by
  obtain ⟨wx, wy, wz⟩ := hw
  have flat : ∀ s H m : ℝ, |s| ≤ H → 0 < H → s * m ≤ H * m → s * m ≤ -H * m → |s| ≠ H → m = 0 := by
    intro s H m hs hH h1 h2 hne
    have hlt := lt_of_le_of_ne hs hne
    rw [abs_lt] at hlt
    rcases lt_trichotomy m 0 with hm | hm | hm
    · nlinarith
    · exact hm
    · nlinarith
  have ax := abs_of_pos hp.1
  have ay := abs_of_pos hp.2.1
  have az := abs_of_pos hp.2.2
  have hx1 := hmin ⟨h.x, w.y, w.z⟩ ⟨ax.le, wy, wz⟩
  have hx2 := hmin ⟨-h.x, w.y, w.z⟩ ⟨by rw [abs_neg]; exact ax.le, wy, wz⟩
  have hy1 := hmin ⟨w.x, h.y, w.z⟩ ⟨wx, ay.le, wz⟩
  have hy2 := hmin ⟨w.x, -h.y, w.z⟩ ⟨wx, by rw [abs_neg]; exact ay.le, wz⟩
  have hz1 := hmin ⟨w.x, w.y, h.z⟩ ⟨wx, wy, az.le⟩
  have hz2 := hmin ⟨w.x, w.y, -h.z⟩ ⟨wx, wy, by rw [abs_neg]; exact az.le⟩
  simp only [dot] at hx1 hx2 hy1 hy2 hz1 hz2
  have fx := flat w.x h.x N.x wx hp.1 (by linarith) (by linarith)
  have fy := flat w.y h.y N.y wy hp.2.1 (by linarith) (by linarith)
  have fz := flat w.z h.z N.z wz hp.2.2 (by linarith) (by linarith)
  have sq : ∀ m : ℝ, m * m = 1 → m = 1 ∨ m = -1 := fun m hm => mul_self_eq_one_iff.1 hm
  simp only [lengthSqr, dot] at hN
  by_cases cx : |w.x| = h.x
  · have ny := fy fun h => h2 (.inl ⟨cx, h⟩)
    have nz := fz fun h => h2 (.inr (.inl ⟨cx, h⟩))
    refine ⟨ex, by simp, ?_⟩
    rcases sq N.x (by rw [ny, nz] at hN; linarith) with hs | hs
    · left; ext <;> simp [ex, hs, ny, nz]
    · right; ext <;> simp [ex, hs, ny, nz]
  · have nx := fx cx
    by_cases cy : |w.y| = h.y
    · have nz := fz fun h => h2 (.inr (.inr ⟨cy, h⟩))
      refine ⟨ey, by simp, ?_⟩
      rcases sq N.y (by rw [nx, nz] at hN; linarith) with hs | hs
      · left; ext <;> simp [ey, hs, nx, nz]
      · right; ext <;> simp [ey, hs, nx, nz]
    · have ny := fy cy
      refine ⟨ez, by simp, ?_⟩
      rcases sq N.z (by rw [nx, ny] at hN; linarith) with hs | hs
      · left; ext <;> simp [ez, hs, nx, ny]
      · right; ext <;> simp [ez, hs, nx, ny]

/-- The step between closest points, turned towards the capsule. -/
theorem step_towards {r hl : ℝ} (hr : 0 ≤ r) (hh : 0 < hl) (a : Axis) {h : V3 ℝ} (hp : PosExt h) {c : Ctx} (hc : c.Ok) {p k : V3 ℝ}
    (hpk : ClosestPair (c.boxB h) (c.axisA hl a) p k) {D : ℝ} (hD : 0 < D) (hDD : D * D = lengthSqr (p - k)) :
    ∃ m, lengthSqr m = 1 ∧ p - k = smul D (-m) ∧ (∀ w, c.boxB h w → dot w m ≤ dot p m) ∧ 0 < dot (c.posA - c.posB) m ∧
      GapAlong (c.capA r hl a) (c.boxB h) m (D - r) := by
  obtain ⟨n, n1, n2, n3, n4, n5⟩ := closest_gap (placed_convex (box_convex h) c.posB c.ornB) (seg_convex _ _) hpk hr hD hDD
  refine ⟨-n, by rw [show lengthSqr (-n) = lengthSqr n by simp [lengthSqr, dot]]; exact n1, by rw [neg_neg_v]; exact n2, ?_, ?_, ?_⟩
  · intro w hw
    rw [dot_neg_right, dot_neg_right]; linarith [n3 w hw]
  · have h1 := n4 _ (axis_center hl a c.posA c.ornA)
    have h2 := n3 c.posB ⟨0, ⟨by simpa using hp.1.le, by simpa using hp.2.1.le, by simpa using hp.2.2.le⟩, by ext <;> simp [Quat.rotate]⟩
    have h3 : dot (p - k) n = D := by rw [n2, dot_smul_left, show dot n n = 1 from n1, mul_one]
    rw [dot_sub_left] at h3
    rw [dot_neg_right, dot_sub_left]; linarith
  · have := gap_flip n5
    unfold Ctx.capA
    rw [capsule_inflate r hl hh a c.posA hc.1]
    exact this

/-- With given positions the distance is exact. -/
theorem cap_box_exact_at {eps tiny r hl : ℝ} (he : 0 ≤ eps) (ht : 0 ≤ tiny) (hr : 0 ≤ r) (hh : 0 < hl) (h4 : eps < 4 * hl * hl)
    (a : Axis) {h : V3 ℝ} (hp : PosExt h) {c : Ctx} (hc : c.Ok) (hcl : CapBoxClear eps hl a h c) {p k : V3 ℝ}
    (hpk : ClosestPair (c.boxB h) (c.axisA hl a) p k) (hfar : tiny < lengthSqr (p - k)) {x : ℝ × V3 ℝ}
    (hx : capBoxAxisAt eps tiny r hl a h c = some x) : x.1 = Real.sqrt (lengthSqr (p - k)) - r := by
  obtain ⟨x', x1, x2, x3, x4⟩ := capAxisAt_spec (eps := eps) ht hr hh a hp hc
  rw [hx] at x1
  simp only [Option.some.injEq] at x1
  subst x1
  have hL : 0 < lengthSqr (p - k) := by linarith
  have hD : 0 < Real.sqrt (lengthSqr (p - k)) := Real.sqrt_pos.2 hL
  have hDD : Real.sqrt (lengthSqr (p - k)) * Real.sqrt (lengthSqr (p - k)) = lengthSqr (p - k) := Real.mul_self_sqrt hL.le
  generalize Real.sqrt (lengthSqr (p - k)) = D at *
  obtain ⟨xu, xg, -⟩ := x2
  apply le_antisymm
  · have inC : c.capA r hl a (k + smul r (-x.2)) := by
      unfold Ctx.capA
      rw [capsule_inflate r hl hh a c.posA hc.1]
      refine ⟨k, hpk.2.1, ?_⟩
      rw [show lengthSqr (k + smul r (-x.2) - k) = r * r * lengthSqr x.2 by simp [lengthSqr, dot]; ring, xu, mul_one]
    have h1 := xg.1 _ p inC hpk.1
    have h2 := (dot_le_of_unit hD.le (by rw [show lengthSqr (k - p) = lengthSqr (p - k) by simp [lengthSqr, dot]; ring]; exact hDD.ge) xu).1
    have h3 : dot (k + smul r (-x.2) - p) x.2 = dot (k - p) x.2 - r * lengthSqr x.2 := by simp [lengthSqr, dot]; ring
    rw [h3, xu] at h1
    linarith
  · obtain ⟨m, m1, m2, m3, m4, m5⟩ := step_towards hr hh a hp hc hpk hD hDD
    obtain ⟨w, hw, ew⟩ := hpk.1
    by_cases h2 : (|w.x| = h.x ∧ |w.y| = h.y) ∨ (|w.x| = h.x ∧ |w.z| = h.z) ∨ (|w.y| = h.y ∧ |w.z| = h.z)
    · obtain ⟨i, v, v', hi, hb, hs⟩ := on_edge hp hw h2
      have hed : edgeAt h i c.posB c.ornB = some (toWorldSpace v c.posB c.ornB, toWorldSpace v' c.posB c.ornB) := by
        unfold edgeAt; rw [hb]
      have hsub : toWorldSpace v' c.posB c.ornB - toWorldSpace v c.posB c.ornB = Quat.rotate c.ornB (v' - v) := by
        rw [rotate_sub]; unfold toWorldSpace; ext <;> simp
      have hcap := cap_axis hl a c.posA c.ornA
      have right := closest_segments_partial eps he false (toWorldSpace v c.posB c.ornB) (toWorldSpace v' c.posB c.ornB)
        (capVertex0 hl a c.posA c.ornA) (capVertex1 hl a c.posA c.ornA)
        (by
          right
          obtain ⟨e, he', s, s1, ev⟩ := edge_vec h v v' i hi hb
          have hu : lengthSqr e.1 = 1 := by
            simp only [List.mem_cons, List.not_mem_nil, or_false] at he'
            rcases he' with rfl | rfl | rfl
            · exact ex_unit
            · exact ey_unit
            · exact ez_unit
          rw [hsub, rotate_length _ hc.2.1, ev,
            show lengthSqr (smul (2 * s * e.2) e.1) = s * s * (4 * e.2 * e.2) * lengthSqr e.1 by simp [lengthSqr, dot]; ring, s1, hu]
          linarith [(hcl e he').1])
        (.inr (by rw [cap_length hl a c.posA hc.1]; exact h4))
        (by
          obtain ⟨e, he', s, s1, ev⟩ := edge_vec h v v' i hi hb
          have ec : cross (toWorldSpace v' c.posB c.ornB - toWorldSpace v c.posB c.ornB)
              (capVertex1 hl a c.posA c.ornA - capVertex0 hl a c.posA c.ornA) =
              smul (2 * s * e.2 * (-2 * hl)) (cross (Quat.rotate c.ornB e.1) (Quat.rotate c.ornA a.vec)) := by
            rw [hsub, hcap, ev, rotate_smul]
            generalize Quat.rotate c.ornB e.1 = A
            generalize Quat.rotate c.ornA a.vec = B
            ext <;> simp [cross] <;> ring
          rw [ec]
          rcases (hcl e he').2 with h0 | h0
          · left; rw [h0]; ext <;> simp
          · right
            generalize cross (Quat.rotate c.ornB e.1) (Quat.rotate c.ornA a.vec) = C at *
            rw [show lengthSqr (smul (2 * s * e.2 * (-2 * hl)) C) = s * s * (16 * e.2 * e.2 * hl * hl * lengthSqr C) by
              simp [lengthSqr, dot]; ring, s1]
            linarith)
      have cand := x4 i _ hi hed
      simp only at cand
      generalize closestSegSeg eps false (toWorldSpace v c.posB c.ornB) (toWorldSpace v' c.posB c.ornB)
        (capVertex0 hl a c.posA c.ornA) (capVertex1 hl a c.posA c.ornA) = S at *
      obtain ⟨⟨s0, s1⟩, ⟨t0, t1⟩, c1, c2, -, hmin⟩ := right
      -- the points found on the edge and on the axis are closest points, too
      have along : ∀ s : ℝ, toWorldSpace v c.posB c.ornB + smul s (toWorldSpace v' c.posB c.ornB - toWorldSpace v c.posB c.ornB) =
          c.posB + Quat.rotate c.ornB (v + smul s (v' - v)) := by
        intro s
        rw [hsub, rotate_add, rotate_smul]; unfold toWorldSpace; ext <;> simp <;> ring
      have inB : c.boxB h S.c1 := ⟨v + smul S.s (v' - v), edge_in_box hp hi hb ⟨S.s, s0, s1, rfl⟩, by rw [c1, along]⟩
      have inA : c.axisA hl a S.c2 := ⟨S.t, t0, t1, c2⟩
      obtain ⟨sw, sw0, sw1, esw⟩ := hs
      obtain ⟨tk, tk0, tk1, etk⟩ := hpk.2.1
      have le1 := hmin sw tk sw0 sw1 tk0 tk1
      rw [along, ← esw, ← ew, ← etk] at le1
      have pair : ClosestPair (c.boxB h) (c.axisA hl a) S.c1 S.c2 := ⟨inB, inA, fun a' b' ha hb => le1.trans (hpk.2.2 a' b' ha hb)⟩
      have same : lengthSqr (S.c1 - S.c2) = lengthSqr (p - k) := le_antisymm le1 (hpk.2.2 _ _ inB inA)
      obtain ⟨m', m1', m2', -, m4', m5'⟩ := step_towards hr hh a hp hc pair hD (by rw [same]; exact hDD)
      have norm : tryNormalize tiny (S.c1 - S.c2) = some (-m') := by
        unfold tryNormalize
        rw [if_pos (by rw [same]; exact hfar), same, ← hDD, Real.sqrt_mul_self hD.le, m2']
        congr 1
        ext <;> simp <;> field_simp
      obtain ⟨z, z1, z2, z3⟩ := cand _ norm
      rw [towards_eq m4' (.inr rfl)] at z2
      have := z1.2.1
      rw [z2] at this
      rw [gap_unique m5' this]; exact z3
    · have hN : lengthSqr (Quat.rotate c.ornB.conjugate (-m)) = 1 :=
        rotate_unit (conjugate_unit hc.2.1) (by rw [show lengthSqr (-m) = lengthSqr m by simp [lengthSqr, dot]]; exact m1)
      obtain ⟨e, he', hem⟩ := inner_axis hp hw hN (by
        intro w' hw'
        have h1 := m3 _ ⟨w', hw', rfl⟩
        rw [ew, dot_add_left, dot_add_left, dot_rotate hc.2.1, dot_rotate hc.2.1] at h1
        rw [show Quat.rotate c.ornB.conjugate (-m) = -Quat.rotate c.ornB.conjugate m from rotate_neg _ _, dot_neg_right, dot_neg_right]
        linarith) h2
      have hme : Quat.rotate c.ornB e = m ∨ Quat.rotate c.ornB e = -m := by
        have back := (rotate_conjugate c.ornB hc.2.1 (-m)).2
        rcases hem with hem | hem
        · right; rw [← back, hem]
        · left
          rw [hem, show Quat.rotate c.ornB (-e) = -Quat.rotate c.ornB e from rotate_neg _ _] at back
          rw [← neg_neg_v (Quat.rotate c.ornB e), back, neg_neg_v]
      obtain ⟨b, hb, eb⟩ : ∃ b ∈ boxAxes h c.ornB, b.1 = Quat.rotate c.ornB e := by
        simp only [List.mem_cons, List.not_mem_nil, or_false] at he'
        rcases he' with rfl | rfl | rfl
        · exact ⟨(Quat.rotate c.ornB ex, h.x), by simp [boxAxes], rfl⟩
        · exact ⟨(Quat.rotate c.ornB ey, h.y), by simp [boxAxes], rfl⟩
        · exact ⟨(Quat.rotate c.ornB ez, h.z), by simp [boxAxes], rfl⟩
      obtain ⟨z, z1, z2, z3⟩ := x3 b hb
      rw [eb, towards_eq m4 hme] at z2
      have := z1.2.1
      rw [z2] at this
      rw [gap_unique m5 this]; exact z3

/-! ## The theorems -/

theorem placed_shift (S : Shape) (pos v : V3 ℝ) (orn : Quat ℝ) (w : V3 ℝ) :
    Placed S (pos - v) orn (w - v) ↔ Placed S pos orn w := by
  constructor
  · rintro ⟨p, hp, e⟩
    refine ⟨p, hp, ?_⟩
    have ex := congrArg V3.x e
    have ey := congrArg V3.y e
    have ez := congrArg V3.z e
    simp only [sub_x, sub_y, sub_z, add_x, add_y, add_z] at ex ey ez
    ext <;> simp only [add_x, add_y, add_z] <;> linarith
  · rintro ⟨p, hp, rfl⟩
    exact ⟨p, hp, by ext <;> simp <;> ring⟩

theorem sub_self_v (v : V3 ℝ) : v - v = 0 := by ext <;> simp

theorem capA_from (c : Ctx) (r hl : ℝ) (a : Axis) (w : V3 ℝ) : c.fromA.capA r hl a (w - c.posA) ↔ c.capA r hl a w := by
  unfold Ctx.capA Ctx.fromA
  have := placed_shift (capsuleSet r hl a) c.posA c.posA c.ornA w
  rwa [sub_self_v] at this

theorem boxB_from (c : Ctx) (h w : V3 ℝ) : c.fromA.boxB h (w - c.posA) ↔ c.boxB h w := placed_shift _ _ _ _ _

theorem axisA_from (c : Ctx) (hl : ℝ) (a : Axis) (w : V3 ℝ) : c.fromA.axisA hl a (w - c.posA) ↔ c.axisA hl a w := by
  unfold Ctx.axisA Ctx.fromA segSet capVertex0 capVertex1
  simp only
  generalize smul hl (Quat.rotate c.ornA a.vec) = u
  refine exists_congr fun t => and_congr_right fun _ => and_congr_right fun _ => ?_
  constructor
  · intro e
    have ex := congrArg V3.x e
    have ey := congrArg V3.y e
    have ez := congrArg V3.z e
    simp at ex ey ez
    ext <;> simp <;> linarith
  · rintro rfl
    ext <;> simp <;> ring

theorem back_v (w v : V3 ℝ) : w + v - v = w := by ext <;> simp

theorem diff_v (a b v : V3 ℝ) : a - v - (b - v) = a - b := by ext <;> simp

theorem gap_from {c : Ctx} {r hl : ℝ} {a : Axis} {h n : V3 ℝ} {x : ℝ} :
    GapAlong (c.fromA.capA r hl a) (c.fromA.boxB h) n x ↔ GapAlong (c.capA r hl a) (c.boxB h) n x := by
  constructor
  · rintro ⟨h1, p, q, hp, hq, e⟩
    refine ⟨fun p q hp hq => ?_, p + c.posA, q + c.posA, ?_, ?_, ?_⟩
    · have := h1 _ _ ((capA_from c r hl a p).2 hp) ((boxB_from c h q).2 hq)
      rwa [diff_v] at this
    · rw [← capA_from, back_v]; exact hp
    · rw [← boxB_from, back_v]; exact hq
    · rw [← diff_v _ _ c.posA, back_v, back_v]; exact e
  · rintro ⟨h1, p, q, hp, hq, e⟩
    refine ⟨fun p q hp hq => ?_, p - c.posA, q - c.posA, (capA_from c r hl a p).2 hp, (boxB_from c h q).2 hq, by rw [diff_v]; exact e⟩
    have := h1 (p + c.posA) (q + c.posA) (by rw [← capA_from, back_v]; exact hp) (by rw [← boxB_from, back_v]; exact hq)
    rwa [← diff_v _ _ c.posA, back_v, back_v] at this

theorem from_delta (c : Ctx) (n : V3 ℝ) : dot (c.fromA.posA - c.fromA.posB) n = dot (c.posA - c.posB) n := by
  simp [Ctx.fromA, dot]

/-- **C101, the direction.** For every capsule and box there is one direction, a unit vector which points from the box
towards the capsule: the shapes are apart by the distance along it, and not further apart along the normal of any face of
the box which points towards the capsule.  If this distance is above the threshold, in which case the call makes no
points, the shapes are not within the threshold. -/
theorem capsule_box_axis (eps tiny r hl : ℝ) (ht : 0 ≤ tiny) (hr : 0 ≤ r) (hh : 0 < hl) (a : Axis) (h : V3 ℝ) (hp : PosExt h)
    (c : Ctx) (hc : c.Ok) :
    ∃ dist n, capBoxAxis eps tiny r hl a h c = some (dist, n) ∧ lengthSqr n = 1 ∧ 0 ≤ dot (c.posA - c.posB) n ∧
      GapAlong (c.capA r hl a) (c.boxB h) n dist ∧
      (∀ e ∈ [ex, ey, ez], ∀ d, d = Quat.rotate c.ornB e ∨ d = -Quat.rotate c.ornB e → 0 < dot (c.posA - c.posB) d →
        ∀ y, GapAlong (c.capA r hl a) (c.boxB h) d y → y ≤ dist) ∧
      (c.thr < dist → ¬ Near (c.capA r hl a) (c.boxB h) c.thr) := by
  have hc' : c.fromA.Ok := hc
  obtain ⟨x, x1, ⟨x2, x3, x4⟩, x5, -⟩ := capAxisAt_spec (eps := eps) ht hr hh a hp hc'
  rw [gap_from] at x3
  rw [from_delta] at x4
  refine ⟨x.1, x.2, x1, x2, x4, x3, ?_, fun hd => gap_far x2 hc.2.2 x3 hd⟩
  intro e he d hd hpos y hy
  obtain ⟨b, hb, eb⟩ : ∃ b ∈ boxAxes h c.fromA.ornB, b.1 = Quat.rotate c.ornB e := by
    simp only [List.mem_cons, List.not_mem_nil, or_false] at he
    rcases he with rfl | rfl | rfl
    · exact ⟨(Quat.rotate c.ornB ex, h.x), by simp [boxAxes, Ctx.fromA], rfl⟩
    · exact ⟨(Quat.rotate c.ornB ey, h.y), by simp [boxAxes, Ctx.fromA], rfl⟩
    · exact ⟨(Quat.rotate c.ornB ez, h.z), by simp [boxAxes, Ctx.fromA], rfl⟩
  obtain ⟨z, z1, z2, z3⟩ := x5 b hb
  rw [eb, towards_eq (m := d) (by rw [from_delta]; exact hpos)
    (by rcases hd with rfl | rfl
        · exact .inl rfl
        · right; rw [neg_neg_v])] at z2
  have hz := z1.2.1
  rw [z2, gap_from] at hz
  rw [gap_unique hy hz]; exact z3

/-- **C101, the distance, partial.** As long as the axis of the capsule is outside of the box, the distance is the one
between them: the distance between the closest points of the box and of the axis without the radius, and the direction is
the one from the closest point of the box to the one of the axis.  Missing: edges which
are almost parallel to the axis without being so. -/
theorem capsule_box_distance_partial (eps tiny r hl : ℝ) (he : 0 ≤ eps) (ht : 0 ≤ tiny) (hr : 0 ≤ r) (hh : 0 < hl)
    (h4 : eps < 4 * hl * hl) (a : Axis) (h : V3 ℝ) (hp : PosExt h) (c : Ctx) (hc : c.Ok) (hcl : CapBoxClear eps hl a h c)
    (p k : V3 ℝ) (hpk : ClosestPair (c.boxB h) (c.axisA hl a) p k) (hfar : tiny < lengthSqr (p - k)) :
    ∃ n, capBoxAxis eps tiny r hl a h c = some (Real.sqrt (lengthSqr (p - k)) - r, n) ∧
      k - p = smul (Real.sqrt (lengthSqr (p - k))) n := by
  have hc' : c.fromA.Ok := hc
  obtain ⟨x, x1, -⟩ := capAxisAt_spec (eps := eps) ht hr hh a hp hc'
  have pair : ClosestPair (c.fromA.boxB h) (c.fromA.axisA hl a) (p - c.posA) (k - c.posA) := by
    refine ⟨(boxB_from c h p).2 hpk.1, (axisA_from c hl a k).2 hpk.2.1, fun p' k' hp' hk' => ?_⟩
    have := hpk.2.2 (p' + c.posA) (k' + c.posA) (by rw [← boxB_from, back_v]; exact hp') (by rw [← axisA_from, back_v]; exact hk')
    rw [← diff_v _ _ c.posA, ← diff_v (p' + c.posA) _ c.posA, back_v, back_v] at this
    exact this
  have := cap_box_exact_at he ht hr hh h4 a hp hc' hcl pair (by rw [diff_v]; exact hfar) x1
  rw [diff_v] at this
  have hx : capBoxAxis eps tiny r hl a h c = some (Real.sqrt (lengthSqr (p - k)) - r, x.2) := by rw [← this]; exact x1
  refine ⟨x.2, hx, ?_⟩
  obtain ⟨dist, n, e1, e2, -, e3, -⟩ := capsule_box_axis eps tiny r hl ht hr hh a h hp c hc
  rw [hx] at e1
  simp only [Option.some.injEq, Prod.mk.injEq] at e1
  obtain ⟨rfl, rfl⟩ := e1
  have hL : 0 < lengthSqr (p - k) := by linarith
  have hD : 0 < Real.sqrt (lengthSqr (p - k)) := Real.sqrt_pos.2 hL
  have hDD : Real.sqrt (lengthSqr (p - k)) * Real.sqrt (lengthSqr (p - k)) = lengthSqr (p - k) := Real.mul_self_sqrt hL.le
  generalize Real.sqrt (lengthSqr (p - k)) = D at *
  have inC : c.capA r hl a (k + smul r (-x.2)) := by
    unfold Ctx.capA
    rw [capsule_inflate r hl hh a c.posA hc.1]
    refine ⟨k, hpk.2.1, ?_⟩
    rw [show lengthSqr (k + smul r (-x.2) - k) = r * r * lengthSqr x.2 by simp [lengthSqr, dot]; ring, e2, mul_one]
  have h1 := e3.1 _ p inC hpk.1
  rw [show dot (k + smul r (-x.2) - p) x.2 = dot (k - p) x.2 - r * lengthSqr x.2 by simp [lengthSqr, dot]; ring, e2] at h1
  have h2 : lengthSqr (k - p - smul D x.2) = lengthSqr (p - k) - 2 * D * dot (k - p) x.2 + D * D * lengthSqr x.2 := by
    simp [lengthSqr, dot]; ring
  have h3 : lengthSqr (k - p - smul D x.2) = 0 := le_antisymm (by rw [h2, e2, ← hDD]; nlinarith) (lengthSqr_nonneg _)
  have h5 := lengthSqr_eq_zero h3
  have gx := congrArg V3.x h5
  have gy := congrArg V3.y h5
  have gz := congrArg V3.z h5
  simp only [sub_x, sub_y, sub_z, zero_x, zero_y, zero_z, smul_x, smul_y, smul_z] at gx gy gz
  ext <;> simp only [sub_x, sub_y, sub_z, smul_x, smul_y, smul_z] <;> linarith

/-- A box and the axis of a capsule have closest points. -/
theorem cap_box_closest {h : V3 ℝ} (hp : PosExt h) (c : Ctx) (hl : ℝ) (a : Axis) :
    ∃ p k, ClosestPair (c.boxB h) (c.axisA hl a) p k := by
  have hK : IsCompact ((Set.Icc (-h.x) h.x ×ˢ Set.Icc (-h.y) h.y ×ˢ Set.Icc (-h.z) h.z) ×ˢ Set.Icc (0 : ℝ) 1) :=
    (isCompact_Icc.prod (isCompact_Icc.prod isCompact_Icc)).prod isCompact_Icc
  obtain ⟨⟨⟨x, y, z⟩, t⟩, ⟨⟨hx, hy, hz⟩, h2⟩, h3⟩ := hK.exists_isMinOn
    (f := fun p : (ℝ × ℝ × ℝ) × ℝ => lengthSqr (c.posB + Quat.rotate c.ornB ⟨p.1.1, p.1.2.1, p.1.2.2⟩ -
      (capVertex0 hl a c.posA c.ornA + smul p.2 (capVertex1 hl a c.posA c.ornA - capVertex0 hl a c.posA c.ornA))))
    ⟨((0, 0, 0), 0), ⟨⟨by simpa using hp.1.le, by simpa using hp.1.le⟩, ⟨by simpa using hp.2.1.le, by simpa using hp.2.1.le⟩,
      ⟨by simpa using hp.2.2.le, by simpa using hp.2.2.le⟩⟩, le_rfl, zero_le_one⟩
    (by
      generalize capVertex0 hl a c.posA c.ornA = u
      generalize capVertex1 hl a c.posA c.ornA = v
      simp [lengthSqr, dot, Quat.rotate]
      fun_prop)
  refine ⟨_, _, ⟨⟨x, y, z⟩, ⟨abs_le.2 hx, abs_le.2 hy, abs_le.2 hz⟩, rfl⟩, ⟨t, h2.1, h2.2, rfl⟩, ?_⟩
  rintro _ _ ⟨w, ⟨w1, w2, w3⟩, rfl⟩ ⟨s, s0, s1, rfl⟩
  exact h3 (show ((w.x, w.y, w.z), s) ∈ _ from ⟨⟨abs_le.1 w1, abs_le.1 w2, abs_le.1 w3⟩, s0, s1⟩)

/-- **C101, the threshold, partial.** As long as the axis of the capsule is outside of the box, the capsule and the box are
within the threshold if and only if the call goes on to look for points.  Missing: as above. -/
theorem capsule_box_near_partial (eps tiny r hl : ℝ) (he : 0 ≤ eps) (ht : 0 ≤ tiny) (hr : 0 ≤ r) (hh : 0 < hl)
    (h4 : eps < 4 * hl * hl) (a : Axis) (h : V3 ℝ) (hp : PosExt h) (c : Ctx) (hc : c.Ok) (hcl : CapBoxClear eps hl a h c)
    (hout : ∀ p k, c.boxB h p → c.axisA hl a k → tiny < lengthSqr (p - k)) :
    ∃ dist n, capBoxAxis eps tiny r hl a h c = some (dist, n) ∧ (Near (c.capA r hl a) (c.boxB h) c.thr ↔ dist ≤ c.thr) := by
  obtain ⟨p, k, hpk⟩ := cap_box_closest hp c hl a
  have hfar := hout p k hpk.1 hpk.2.1
  obtain ⟨n, hn, -⟩ := capsule_box_distance_partial eps tiny r hl he ht hr hh h4 a h hp c hc hcl p k hpk hfar
  obtain ⟨dist, n', e, -, -, -, -, hno⟩ := capsule_box_axis eps tiny r hl ht hr hh a h hp c hc
  rw [hn] at e
  simp only [Option.some.injEq, Prod.mk.injEq] at e
  obtain ⟨e, -⟩ := e
  refine ⟨_, n, hn, fun hnear => ?_, fun hd => ?_⟩
  · by_contra hlt
    exact hno (by rw [← e]; exact not_le.1 hlt) hnear
  have hL : 0 < lengthSqr (p - k) := by linarith
  have hD : 0 < Real.sqrt (lengthSqr (p - k)) := Real.sqrt_pos.2 hL
  have hDD : Real.sqrt (lengthSqr (p - k)) * Real.sqrt (lengthSqr (p - k)) = lengthSqr (p - k) := Real.mul_self_sqrt hL.le
  generalize Real.sqrt (lengthSqr (p - k)) = D at *
  have inC : ∀ w, lengthSqr (w - k) ≤ r * r → c.capA r hl a w := by
    intro w hw
    unfold Ctx.capA
    rw [capsule_inflate r hl hh a c.posA hc.1]
    exact ⟨k, hpk.2.1, hw⟩
  rcases le_or_gt D r with hDr | hDr
  · refine ⟨p, p, inC p (by rw [← hDD]; nlinarith), hpk.1, ?_⟩
    rw [sub_self_v, show lengthSqr (0 : V3 ℝ) = 0 by simp [lengthSqr, dot]]
    exact mul_self_nonneg _
  · refine ⟨k + smul (r / D) (p - k), p, inC _ ?_, hpk.1, ?_⟩
    · rw [show lengthSqr (k + smul (r / D) (p - k) - k) = r / D * (r / D) * lengthSqr (p - k) by simp [lengthSqr, dot]; ring, ← hDD]
      apply le_of_eq; field_simp
    · rw [show lengthSqr (k + smul (r / D) (p - k) - p) = (1 - r / D) * (1 - r / D) * lengthSqr (p - k) by simp [lengthSqr, dot]; ring, ← hDD]
      have : (1 - r / D) * (1 - r / D) * (D * D) = (D - r) * (D - r) := by field_simp
      rw [this]
      exact mul_self_le_mul_self (by linarith) hd

/-! ## Non-vacuity -/

/-- A capsule along the x axis above a cube. -/
noncomputable def capAboveCube : Ctx := ⟨⟨0, 3, 0⟩, ⟨0, 0, 0, 1⟩, ⟨0, 0, 0⟩, ⟨0, 0, 0, 1⟩, 2⟩

example : PosExt ⟨1, 1, 1⟩ ∧ capAboveCube.Ok ∧ CapBoxClear (1 / 100) 1 .x ⟨1, 1, 1⟩ capAboveCube ∧
    ∀ p k, capAboveCube.boxB ⟨1, 1, 1⟩ p → capAboveCube.axisA 1 .x k → (1 / 1000 : ℝ) < lengthSqr (p - k) := by
  refine ⟨by norm_num [PosExt], by norm_num [Ctx.Ok, capAboveCube, Quat.lengthSqr], ?_, ?_⟩
  · intro e he
    simp only [List.mem_cons, List.not_mem_nil, or_false] at he
    rcases he with rfl | rfl | rfl
    · exact ⟨by norm_num, .inl (by ext <;> simp [cross, Quat.rotate, capAboveCube, ex, Axis.vec])⟩
    · exact ⟨by norm_num, .inr (by norm_num [cross, Quat.rotate, capAboveCube, ey, ex, Axis.vec, lengthSqr, dot])⟩
    · exact ⟨by norm_num, .inr (by norm_num [cross, Quat.rotate, capAboveCube, ez, ex, Axis.vec, lengthSqr, dot])⟩
  · rintro _ _ ⟨w, ⟨w1, w2, w3⟩, rfl⟩ ⟨t, t0, t1, rfl⟩
    rw [abs_le] at w2
    simp only at w2
    have hy : (capAboveCube.posB + Quat.rotate capAboveCube.ornB w -
        (capVertex0 1 .x capAboveCube.posA capAboveCube.ornA + smul t (capVertex1 1 .x capAboveCube.posA capAboveCube.ornA -
          capVertex0 1 .x capAboveCube.posA capAboveCube.ornA))).y = w.y - 3 := by
      simp [capAboveCube, Quat.rotate, capVertex0, capVertex1, Axis.vec, ex]
    generalize (capAboveCube.posB + Quat.rotate capAboveCube.ornB w -
        (capVertex0 1 .x capAboveCube.posA capAboveCube.ornA + smul t (capVertex1 1 .x capAboveCube.posA capAboveCube.ornA -
          capVertex0 1 .x capAboveCube.posA capAboveCube.ornA))) = d at hy
    simp only [lengthSqr, dot]
    rw [hy]
    nlinarith [mul_self_nonneg d.x, mul_self_nonneg d.z]

end Edyn.Collide
