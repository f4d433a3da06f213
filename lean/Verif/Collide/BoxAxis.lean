import Verif.Collide.Sat
import Verif.Collide.Planes

/-!
# The axis of least penetration of two boxes (C87)

The first part of `collide` for two boxes, `src/edyn/collision/collide/collide_box_box.cpp` 24-99.  Scalars are
exact reals; `eps` is `EDYN_EPSILON`.
-/

namespace Edyn.Collide

open Edyn.Math hiding lengthSqr_nonneg
open V3 Edyn.Geom

/-! ## Model -/

/-- `axesA` and `axesB`, `collide_box_box.cpp` 24-34, with `quaternion_x`, `quaternion_y` and `quaternion_z`,
`include/edyn/math/quaternion.hpp` 193-206, each with the matching half extent. -/
noncomputable def boxAxes (h : V3 ℝ) (orn : Quat ℝ) : List (V3 ℝ × ℝ) :=
  [(Quat.rotate orn ex, h.x), (Quat.rotate orn ey, h.y), (Quat.rotate orn ez, h.z)]

/-- The direction, turned towards A, `collide_box_box.cpp` 42-44, 59-61 and 85-88. -/
noncomputable def towardsA (c : Ctx) (dir : V3 ℝ) : V3 ℝ := if dot (c.posA - c.posB) dir < 0 then -dir else dir

/-- One pass of the first loop, `collide_box_box.cpp` 41-48: the distance and the direction. -/
noncomputable def candFaceA (hB : V3 ℝ) (c : Ctx) (a : V3 ℝ × ℝ) : ℝ × V3 ℝ :=
  let dir := towardsA c a.1
  (dot c.posA dir - a.2 - boxProjection hB c.posB c.ornB dir, dir)

/-- One pass of the second loop, `collide_box_box.cpp` 58-65. -/
noncomputable def candFaceB (hA : V3 ℝ) (c : Ctx) (b : V3 ℝ × ℝ) : ℝ × V3 ℝ :=
  let dir := towardsA c b.1
  (-boxProjection hA c.posA c.ornA (-dir) - (dot c.posB dir + b.2), dir)

/-- One pass of the third loop, `collide_box_box.cpp` 76-92; nothing if the pass is left early. -/
noncomputable def candEdge (eps : ℝ) (hA hB : V3 ℝ) (c : Ctx) (a b : V3 ℝ × ℝ) : List (ℝ × V3 ℝ) :=
  let dir := cross a.1 b.1
  let l := lengthSqr dir
  if eps < l then
    let dir := towardsA c (smul (1 / Real.sqrt l) dir)
    [(-boxProjection hA c.posA c.ornA (-dir) - boxProjection hB c.posB c.ornB dir, dir)]
  else []

/-- The update at the end of each pass, `collide_box_box.cpp` 50-53, 67-70 and 94-97.  Every distance is above
the lowest scalar the loops start with. -/
noncomputable def betterAxis (best : Option (ℝ × V3 ℝ)) (x : ℝ × V3 ℝ) : Option (ℝ × V3 ℝ) :=
  match best with
  | none => some x
  | some y => if y.1 < x.1 then some x else some y

/-- All passes of the three loops. -/
noncomputable def boxBoxCands (eps : ℝ) (hA hB : V3 ℝ) (c : Ctx) : List (ℝ × V3 ℝ) :=
  (boxAxes hA c.ornA).map (candFaceA hB c) ++ (boxAxes hB c.ornB).map (candFaceB hA c) ++
  (boxAxes hA c.ornA).flatMap fun a => (boxAxes hB c.ornB).flatMap fun b => candEdge eps hA hB c a b

/-- `collide_box_box.cpp` 36-99: the distance and the separating axis. -/
noncomputable def boxBoxAxis (eps : ℝ) (hA hB : V3 ℝ) (c : Ctx) : Option (ℝ × V3 ℝ) :=
  (boxBoxCands eps hA hB c).foldl betterAxis none

/-! ## Specification -/

/-- The box A, and the box B, of the context. -/
def Ctx.boxA (c : Ctx) (h : V3 ℝ) : V3 ℝ → Prop := Placed (boxSet h) c.posA c.ornA
def Ctx.boxB (c : Ctx) (h : V3 ℝ) : V3 ℝ → Prop := Placed (boxSet h) c.posB c.ornB

/-- The set moved by `v`. -/
def Moved (S : V3 ℝ → Prop) (v : V3 ℝ) : V3 ℝ → Prop := fun w => S (w - v)

/-- The sets have a point in common. -/
def Meet (S T : V3 ℝ → Prop) : Prop := ∃ w, S w ∧ T w

/-- `x` is the signed distance between the sets along `n`: points of the first set are at least that far ahead of
points of the second one, and some are not further. -/
def GapAlong (S T : V3 ℝ → Prop) (n : V3 ℝ) (x : ℝ) : Prop :=
  (∀ a b, S a → T b → x ≤ dot (a - b) n) ∧ ∃ a b, S a ∧ T b ∧ dot (a - b) n = x

/-- The edges of the boxes are parallel or clearly not so. -/
def ClearEdges (eps : ℝ) (c : Ctx) : Prop :=
  ∀ e ∈ [ex, ey, ez], ∀ f ∈ [ex, ey, ez], cross (Quat.rotate c.ornA e) (Quat.rotate c.ornB f) = 0 ∨
    eps < lengthSqr (cross (Quat.rotate c.ornA e) (Quat.rotate c.ornB f))

def PosExt (h : V3 ℝ) : Prop := 0 < h.x ∧ 0 < h.y ∧ 0 < h.z

/-! ## Boxes and directions -/

/-- Half the extent of a box along a direction. -/
noncomputable def ext1 (h : V3 ℝ) (orn : Quat ℝ) (u : V3 ℝ) : ℝ := boxExtent h (Quat.rotate orn.conjugate u)

theorem boxProjection_eq (h pos : V3 ℝ) (orn : Quat ℝ) (u : V3 ℝ) :
    boxProjection h pos orn u = dot pos u + ext1 h orn u := by
  simp only [boxProjection, supportBox_dot, ext1]

theorem ext1_smul (h : V3 ℝ) (orn : Quat ℝ) (s : ℝ) (u : V3 ℝ) : ext1 h orn (smul s u) = |s| * ext1 h orn u := by
  unfold ext1
  rw [rotate_smul]
  simp only [boxExtent, smul, abs_mul]; ring

theorem ext1_neg (h : V3 ℝ) (orn : Quat ℝ) (u : V3 ℝ) : ext1 h orn (-u) = ext1 h orn u := by
  have : -u = smul (-1) u := by ext <;> simp [smul]
  rw [this, ext1_smul]; simp

theorem ext1_eq {orn : Quat ℝ} (ho : orn.lengthSqr = 1) (h u : V3 ℝ) :
    ext1 h orn u = h.x * |dot (Quat.rotate orn ex) u| + h.y * |dot (Quat.rotate orn ey) u|
      + h.z * |dot (Quat.rotate orn ez) u| := by
  rw [dot_rotate ho, dot_rotate ho, dot_rotate ho]
  simp only [ext1, boxExtent, dot, ex, ey, ez]
  simp
  try ring

theorem ext1_nonneg {h : V3 ℝ} (hp : PosExt h) (orn : Quat ℝ) (u : V3 ℝ) : 0 ≤ ext1 h orn u := by
  have := hp.1; have := hp.2.1; have := hp.2.2
  unfold ext1 boxExtent
  positivity

/-- The signed distance between the boxes along a direction. -/
noncomputable def gap (hA hB : V3 ℝ) (c : Ctx) (u : V3 ℝ) : ℝ :=
  |dot (c.posA - c.posB) u| - ext1 hA c.ornA u - ext1 hB c.ornB u

theorem gap_smul (hA hB : V3 ℝ) (c : Ctx) (s : ℝ) (u : V3 ℝ) : gap hA hB c (smul s u) = |s| * gap hA hB c u := by
  unfold gap
  rw [ext1_smul, ext1_smul, dot_smul_right, abs_mul]; ring

theorem gap_neg (hA hB : V3 ℝ) (c : Ctx) (u : V3 ℝ) : gap hA hB c (-u) = gap hA hB c u := by
  unfold gap
  rw [ext1_neg, ext1_neg, dot_neg_right, abs_neg]

theorem towardsA_dot (c : Ctx) (u : V3 ℝ) :
    dot (c.posA - c.posB) (towardsA c u) = |dot (c.posA - c.posB) u| := by
  unfold towardsA
  split_ifs with h
  · rw [dot_neg_right, abs_of_neg h]
  · rw [abs_of_nonneg (not_lt.1 h)]

theorem towardsA_cases (c : Ctx) (u : V3 ℝ) : towardsA c u = u ∨ towardsA c u = -u := by
  unfold towardsA; split_ifs
  · exact .inr rfl
  · exact .inl rfl

theorem towardsA_ext (c : Ctx) (h : V3 ℝ) (orn : Quat ℝ) (u : V3 ℝ) : ext1 h orn (towardsA c u) = ext1 h orn u := by
  rcases towardsA_cases c u with e | e <;> rw [e]
  exact ext1_neg _ _ _

theorem towardsA_unit {c : Ctx} {u : V3 ℝ} (hu : lengthSqr u = 1) : lengthSqr (towardsA c u) = 1 := by
  rcases towardsA_cases c u with e | e <;> rw [e]
  · exact hu
  · exact neg_unit hu

theorem towardsA_gap (hA hB : V3 ℝ) (c : Ctx) (u : V3 ℝ) : gap hA hB c (towardsA c u) = gap hA hB c u := by
  rcases towardsA_cases c u with e | e <;> rw [e]
  exact gap_neg _ _ _ _

/-- The extent of a box along one of its axes. -/
theorem ext1_axis {h : V3 ℝ} {orn : Quat ℝ} (ho : orn.lengthSqr = 1) {a : V3 ℝ × ℝ} (ha : a ∈ boxAxes h orn) :
    lengthSqr a.1 = 1 ∧ ext1 h orn a.1 = a.2 := by
  simp only [boxAxes, List.mem_cons, List.not_mem_nil, or_false] at ha
  unfold ext1 boxExtent
  rcases ha with rfl | rfl | rfl <;> simp only [(rotate_conjugate _ ho _).1]
  · exact ⟨rotate_unit ho ex_unit, by simp [ex]⟩
  · exact ⟨rotate_unit ho ey_unit, by simp [ey]⟩
  · exact ⟨rotate_unit ho ez_unit, by simp [ez]⟩

/-- What a pass of one of the loops finds. -/
def FoundAt (hA hB : V3 ℝ) (c : Ctx) (x : ℝ × V3 ℝ) : Prop :=
  lengthSqr x.2 = 1 ∧ x.1 = gap hA hB c x.2 ∧ 0 ≤ dot (c.posA - c.posB) x.2

theorem found_towards {hA hB : V3 ℝ} {c : Ctx} {u : V3 ℝ} {x : ℝ} (hu : lengthSqr u = 1) (hx : x = gap hA hB c u) :
    FoundAt hA hB c (x, towardsA c u) :=
  ⟨towardsA_unit hu, by rw [towardsA_gap, hx], by rw [towardsA_dot]; exact abs_nonneg _⟩

theorem candFaceA_found (hA hB : V3 ℝ) {c : Ctx} (hc : c.Ok) {a : V3 ℝ × ℝ} (ha : a ∈ boxAxes hA c.ornA) :
    FoundAt hA hB c (candFaceA hB c a) ∧ (candFaceA hB c a).1 = gap hA hB c a.1 := by
  obtain ⟨h1, h2⟩ := ext1_axis hc.1 ha
  have e : (candFaceA hB c a).1 = gap hA hB c a.1 := by
    simp only [candFaceA]
    rw [boxProjection_eq, towardsA_ext, gap, h2, ← towardsA_dot, dot_sub_left]; ring
  exact ⟨found_towards h1 e, e⟩

theorem candFaceB_found (hA hB : V3 ℝ) {c : Ctx} (hc : c.Ok) {b : V3 ℝ × ℝ} (hb : b ∈ boxAxes hB c.ornB) :
    FoundAt hA hB c (candFaceB hA c b) ∧ (candFaceB hA c b).1 = gap hA hB c b.1 := by
  obtain ⟨h1, h2⟩ := ext1_axis hc.2.1 hb
  have e : (candFaceB hA c b).1 = gap hA hB c b.1 := by
    simp only [candFaceB]
    rw [boxProjection_eq, ext1_neg, towardsA_ext, gap, h2, ← towardsA_dot, dot_sub_left, dot_neg_right]; ring
  exact ⟨found_towards h1 e, e⟩

theorem unit_of_len {v : V3 ℝ} (h : 0 < lengthSqr v) : lengthSqr (smul (1 / Real.sqrt (lengthSqr v)) v) = 1 := by
  have hs : Real.sqrt (lengthSqr v) * Real.sqrt (lengthSqr v) = lengthSqr v := Real.mul_self_sqrt h.le
  have hs0 : Real.sqrt (lengthSqr v) ≠ 0 := (Real.sqrt_pos.2 h).ne'
  have e : lengthSqr (smul (1 / Real.sqrt (lengthSqr v)) v)
      = lengthSqr v / (Real.sqrt (lengthSqr v) * Real.sqrt (lengthSqr v)) := by
    simp only [lengthSqr, dot, smul]; field_simp
  rw [e, hs, div_self h.ne']

theorem candEdge_found {eps : ℝ} (he : 0 ≤ eps) (hA hB : V3 ℝ) (c : Ctx) (a b : V3 ℝ × ℝ) :
    (∀ x ∈ candEdge eps hA hB c a b, FoundAt hA hB c x) ∧
    (eps < lengthSqr (cross a.1 b.1) → ∃ x ∈ candEdge eps hA hB c a b,
      x.1 = 1 / Real.sqrt (lengthSqr (cross a.1 b.1)) * gap hA hB c (cross a.1 b.1)) := by
  unfold candEdge
  simp only
  by_cases h : eps < lengthSqr (cross a.1 b.1)
  · rw [if_pos h]
    have hl : 0 < lengthSqr (cross a.1 b.1) := by linarith
    set u := smul (1 / Real.sqrt (lengthSqr (cross a.1 b.1))) (cross a.1 b.1) with hu
    have e : -boxProjection hA c.posA c.ornA (-towardsA c u) - boxProjection hB c.posB c.ornB (towardsA c u)
        = gap hA hB c u := by
      rw [boxProjection_eq, boxProjection_eq, ext1_neg, towardsA_ext, towardsA_ext, gap, ← towardsA_dot, dot_sub_left,
        dot_neg_right]; ring
    refine ⟨?_, fun _ => ⟨_, List.mem_singleton.2 rfl, ?_⟩⟩
    · intro x hx
      rw [List.mem_singleton.1 hx]
      exact found_towards (unit_of_len hl) e
    · show -boxProjection hA c.posA c.ornA (-towardsA c u) - boxProjection hB c.posB c.ornB (towardsA c u) = _
      rw [e, hu, gap_smul, abs_of_nonneg (by positivity)]
  · rw [if_neg h]
    exact ⟨by simp, fun h' => absurd h' h⟩

/-! ## The best axis -/

theorem better_fold (l : List (ℝ × V3 ℝ)) (y : ℝ × V3 ℝ) :
    ∃ z, l.foldl betterAxis (some y) = some z ∧ (z = y ∨ z ∈ l) ∧ y.1 ≤ z.1 ∧ ∀ x ∈ l, x.1 ≤ z.1 := by
  induction l generalizing y with
  | nil => exact ⟨y, rfl, .inl rfl, le_rfl, by simp⟩
  | cons x l ih =>
    rw [List.foldl_cons]
    by_cases h : y.1 < x.1
    · have e : betterAxis (some y) x = some x := by simp [betterAxis, h]
      rw [e]
      obtain ⟨z, h1, h2, h3, h4⟩ := ih x
      refine ⟨z, h1, .inr ?_, by linarith, ?_⟩
      · rcases h2 with rfl | h2
        · exact List.mem_cons_self
        · exact List.mem_cons_of_mem _ h2
      · intro w hw
        rcases List.mem_cons.1 hw with rfl | hw
        · exact h3
        · exact h4 w hw
    · have e : betterAxis (some y) x = some y := by simp [betterAxis, h]
      rw [e]
      obtain ⟨z, h1, h2, h3, h4⟩ := ih y
      refine ⟨z, h1, ?_, h3, ?_⟩
      · rcases h2 with rfl | h2
        · exact .inl rfl
        · exact .inr (List.mem_cons_of_mem _ h2)
      · intro w hw
        rcases List.mem_cons.1 hw with rfl | hw
        · linarith [not_lt.1 h]
        · exact h4 w hw

/-- The result of the search is one of the candidates, and no candidate is better. -/
theorem axis_found {eps : ℝ} (he : 0 ≤ eps) (hA hB : V3 ℝ) {c : Ctx} (hc : c.Ok) :
    ∃ x n, boxBoxAxis eps hA hB c = some (x, n) ∧ (x, n) ∈ boxBoxCands eps hA hB c ∧ FoundAt hA hB c (x, n) ∧
      (∀ e ∈ [ex, ey, ez], gap hA hB c (Quat.rotate c.ornA e) ≤ x) ∧
      (∀ e ∈ [ex, ey, ez], gap hA hB c (Quat.rotate c.ornB e) ≤ x) ∧
      ∀ e ∈ [ex, ey, ez], ∀ f ∈ [ex, ey, ez],
        eps < lengthSqr (cross (Quat.rotate c.ornA e) (Quat.rotate c.ornB f)) →
        gap hA hB c (cross (Quat.rotate c.ornA e) (Quat.rotate c.ornB f)) ≤
          x * Real.sqrt (lengthSqr (cross (Quat.rotate c.ornA e) (Quat.rotate c.ornB f))) := by
  obtain ⟨y, l, hl⟩ : ∃ y l, boxBoxCands eps hA hB c = y :: l := ⟨_, _, rfl⟩
  have hfold : boxBoxAxis eps hA hB c = l.foldl betterAxis (some y) := by
    rw [boxBoxAxis, hl]; rfl
  obtain ⟨z, h1, h2, h3, h4⟩ := better_fold l y
  have hmem : z ∈ boxBoxCands eps hA hB c := by
    rw [hl]
    rcases h2 with rfl | h2
    · exact List.mem_cons_self
    · exact List.mem_cons_of_mem _ h2
  have hmax : ∀ x ∈ boxBoxCands eps hA hB c, x.1 ≤ z.1 := by
    intro x hx
    rw [hl] at hx
    rcases List.mem_cons.1 hx with rfl | hx
    · exact h3
    · exact h4 x hx
  have memA : ∀ a ∈ boxAxes hA c.ornA, candFaceA hB c a ∈ boxBoxCands eps hA hB c := by
    intro a ha
    unfold boxBoxCands
    exact List.mem_append_left _ (List.mem_append_left _ (List.mem_map_of_mem ha))
  have memB : ∀ b ∈ boxAxes hB c.ornB, candFaceB hA c b ∈ boxBoxCands eps hA hB c := by
    intro b hb
    unfold boxBoxCands
    exact List.mem_append_left _ (List.mem_append_right _ (List.mem_map_of_mem hb))
  have memE : ∀ a ∈ boxAxes hA c.ornA, ∀ b ∈ boxAxes hB c.ornB, ∀ x ∈ candEdge eps hA hB c a b,
      x ∈ boxBoxCands eps hA hB c := by
    intro a ha b hb x hx
    unfold boxBoxCands
    exact List.mem_append_right _ (List.mem_flatMap.2 ⟨a, ha, List.mem_flatMap.2 ⟨b, hb, hx⟩⟩)
  have axA : ∀ e ∈ [ex, ey, ez], ∃ k, (Quat.rotate c.ornA e, k) ∈ boxAxes hA c.ornA := by
    intro e he
    simp only [List.mem_cons, List.not_mem_nil, or_false] at he
    rcases he with rfl | rfl | rfl
    · exact ⟨hA.x, by simp [boxAxes]⟩
    · exact ⟨hA.y, by simp [boxAxes]⟩
    · exact ⟨hA.z, by simp [boxAxes]⟩
  have axB : ∀ e ∈ [ex, ey, ez], ∃ k, (Quat.rotate c.ornB e, k) ∈ boxAxes hB c.ornB := by
    intro e he
    simp only [List.mem_cons, List.not_mem_nil, or_false] at he
    rcases he with rfl | rfl | rfl
    · exact ⟨hB.x, by simp [boxAxes]⟩
    · exact ⟨hB.y, by simp [boxAxes]⟩
    · exact ⟨hB.z, by simp [boxAxes]⟩
  refine ⟨z.1, z.2, by rw [hfold, h1], hmem, ?_, ?_, ?_, ?_⟩
  · have : z ∈ boxBoxCands eps hA hB c := hmem
    unfold boxBoxCands at this
    rcases List.mem_append.1 this with h | h
    · rcases List.mem_append.1 h with h | h
      · obtain ⟨a, ha, rfl⟩ := List.mem_map.1 h
        exact (candFaceA_found hA hB hc ha).1
      · obtain ⟨b, hb, rfl⟩ := List.mem_map.1 h
        exact (candFaceB_found hA hB hc hb).1
    · obtain ⟨a, ha, h⟩ := List.mem_flatMap.1 h
      obtain ⟨b, hb, h⟩ := List.mem_flatMap.1 h
      exact (candEdge_found he hA hB c a b).1 _ h
  · intro e he
    obtain ⟨k, hk⟩ := axA e he
    have := hmax _ (memA _ hk)
    rwa [(candFaceA_found hA hB hc hk).2] at this
  · intro e he
    obtain ⟨k, hk⟩ := axB e he
    have := hmax _ (memB _ hk)
    rwa [(candFaceB_found hA hB hc hk).2] at this
  · intro e hE f hF hl
    obtain ⟨k, hk⟩ := axA e hE
    obtain ⟨k', hk'⟩ := axB f hF
    obtain ⟨x, hx, ex⟩ := (candEdge_found he hA hB c (Quat.rotate c.ornA e, k) (Quat.rotate c.ornB f, k')).2 hl
    have := hmax x (memE _ hk _ hk' _ hx)
    rw [ex] at this
    have hs : 0 < Real.sqrt (lengthSqr (cross (Quat.rotate c.ornA e) (Quat.rotate c.ornB f))) :=
      Real.sqrt_pos.2 (by linarith)
    simp only at this
    rw [one_div, inv_mul_le_iff₀ hs] at this
    linarith

/-! ## Boxes that meet -/

/-- The half edges of both boxes. -/
noncomputable def halfEdges (hA hB : V3 ℝ) (c : Ctx) : Fin 3 ⊕ Fin 3 → V3 ℝ
  | .inl i => ![smul hA.x (Quat.rotate c.ornA ex), smul hA.y (Quat.rotate c.ornA ey), smul hA.z (Quat.rotate c.ornA ez)] i
  | .inr i => ![smul hB.x (Quat.rotate c.ornB ex), smul hB.y (Quat.rotate c.ornB ey), smul hB.z (Quat.rotate c.ornB ez)] i

theorem halfEdges_sum {hA hB : V3 ℝ} (pA : PosExt hA) (pB : PosExt hB) {c : Ctx} (hc : c.Ok) (u : V3 ℝ) :
    ∑ k, |dot (halfEdges hA hB c k) u| = ext1 hA c.ornA u + ext1 hB c.ornB u := by
  rw [ext1_eq hc.1, ext1_eq hc.2.1, Fintype.sum_sum_type, Fin.sum_univ_three, Fin.sum_univ_three]
  simp only [halfEdges, Matrix.cons_val_zero, Matrix.cons_val_one, Matrix.cons_val, dot_smul_left, abs_mul,
    abs_of_pos pA.1, abs_of_pos pA.2.1, abs_of_pos pA.2.2, abs_of_pos pB.1, abs_of_pos pB.2.1, abs_of_pos pB.2.2]

theorem rot_split {orn : Quat ℝ} (v : V3 ℝ) : Quat.rotate orn v =
    smul v.x (Quat.rotate orn ex) + smul v.y (Quat.rotate orn ey) + smul v.z (Quat.rotate orn ez) := by
  have : v = smul v.x ex + smul v.y ey + smul v.z ez := by ext <;> simp [smul, ex, ey, ez]
  conv_lhs => rw [this]
  rw [rotate_add, rotate_add, rotate_smul, rotate_smul, rotate_smul]

/-- Boxes meet exactly when the difference of their positions is a combination of the half edges. -/
theorem meet_zono {hA hB : V3 ℝ} (pA : PosExt hA) (pB : PosExt hB) (c : Ctx) :
    InZono (halfEdges hA hB c) (c.posA - c.posB) ↔ Meet (c.boxA hA) (c.boxB hB) := by
  have comp : ∀ t : Fin 3 ⊕ Fin 3 → ℝ,
      (⟨∑ k, t k * (halfEdges hA hB c k).x, ∑ k, t k * (halfEdges hA hB c k).y, ∑ k, t k * (halfEdges hA hB c k).z⟩ : V3 ℝ)
      = Quat.rotate c.ornA ⟨t (.inl 0) * hA.x, t (.inl 1) * hA.y, t (.inl 2) * hA.z⟩
        + Quat.rotate c.ornB ⟨t (.inr 0) * hB.x, t (.inr 1) * hB.y, t (.inr 2) * hB.z⟩ := by
    intro t
    rw [rot_split, rot_split (orn := c.ornB)]
    simp only [Fintype.sum_sum_type, Fin.sum_univ_three, halfEdges, Matrix.cons_val_zero, Matrix.cons_val_one,
      Matrix.cons_val]
    ext <;> simp only [smul, V3.add_x, V3.add_y, V3.add_z] <;> ring
  constructor
  · rintro ⟨t, ht, he⟩
    rw [comp t] at he
    refine ⟨c.posA + Quat.rotate c.ornA (-⟨t (.inl 0) * hA.x, t (.inl 1) * hA.y, t (.inl 2) * hA.z⟩), ⟨_, ?_, rfl⟩,
      ⟨⟨t (.inr 0) * hB.x, t (.inr 1) * hB.y, t (.inr 2) * hB.z⟩, ?_, ?_⟩⟩
    · have h0 := ht (.inl 0); have h1 := ht (.inl 1); have h2 := ht (.inl 2)
      simp only [boxSet, V3.neg_x, V3.neg_y, V3.neg_z, abs_neg, abs_mul, abs_of_pos pA.1, abs_of_pos pA.2.1,
        abs_of_pos pA.2.2]
      refine ⟨?_, ?_, ?_⟩
      · nlinarith [pA.1]
      · nlinarith [pA.2.1]
      · nlinarith [pA.2.2]
    · have h0 := ht (.inr 0); have h1 := ht (.inr 1); have h2 := ht (.inr 2)
      simp only [boxSet, abs_mul, abs_of_pos pB.1, abs_of_pos pB.2.1, abs_of_pos pB.2.2]
      refine ⟨?_, ?_, ?_⟩
      · nlinarith [pB.1]
      · nlinarith [pB.2.1]
      · nlinarith [pB.2.2]
    · rw [rotate_neg]
      have hx := congrArg V3.x he; have hy := congrArg V3.y he; have hz := congrArg V3.z he
      simp only [V3.sub_x, V3.add_x, V3.sub_y, V3.add_y, V3.sub_z, V3.add_z] at hx hy hz
      ext <;> simp only [V3.add_x, V3.add_y, V3.add_z, V3.neg_x, V3.neg_y, V3.neg_z] <;> linarith
  · rintro ⟨w, ⟨p, hp, e1⟩, ⟨q, hq, e2⟩⟩
    refine ⟨fun k => match k with
      | .inl i => ![-p.x / hA.x, -p.y / hA.y, -p.z / hA.z] i
      | .inr i => ![q.x / hB.x, q.y / hB.y, q.z / hB.z] i, ?_, ?_⟩
    · have n0 : ∀ a b : ℝ, 0 < b → |a| ≤ b → |a / b| ≤ 1 := by
        intro a b hb hab
        rw [abs_div, abs_of_pos hb, div_le_one hb]; exact hab
      obtain ⟨p1, p2, p3⟩ := hp
      obtain ⟨q1, q2, q3⟩ := hq
      rintro (i | i) <;> fin_cases i
      · exact n0 _ _ pA.1 (by rwa [abs_neg])
      · exact n0 _ _ pA.2.1 (by rwa [abs_neg])
      · exact n0 _ _ pA.2.2 (by rwa [abs_neg])
      · exact n0 _ _ pB.1 q1
      · exact n0 _ _ pB.2.1 q2
      · exact n0 _ _ pB.2.2 q3
    · rw [comp]
      simp only [Matrix.cons_val_zero, Matrix.cons_val_one, Matrix.cons_val]
      have ep : (⟨-p.x / hA.x * hA.x, -p.y / hA.y * hA.y, -p.z / hA.z * hA.z⟩ : V3 ℝ) = -p := by
        ext <;> simp only [V3.neg_x, V3.neg_y, V3.neg_z]
        · exact div_mul_cancel₀ _ pA.1.ne'
        · exact div_mul_cancel₀ _ pA.2.1.ne'
        · exact div_mul_cancel₀ _ pA.2.2.ne'
      have eq : (⟨q.x / hB.x * hB.x, q.y / hB.y * hB.y, q.z / hB.z * hB.z⟩ : V3 ℝ) = q := by
        ext
        · exact div_mul_cancel₀ _ pB.1.ne'
        · exact div_mul_cancel₀ _ pB.2.1.ne'
        · exact div_mul_cancel₀ _ pB.2.2.ne'
      rw [ep, eq, rotate_neg]
      rw [e1] at e2
      have hx := congrArg V3.x e2; have hy := congrArg V3.y e2; have hz := congrArg V3.z e2
      simp only [V3.add_x, V3.add_y, V3.add_z] at hx hy hz
      ext <;> simp only [V3.add_x, V3.add_y, V3.add_z, V3.sub_x, V3.sub_y, V3.sub_z, V3.neg_x, V3.neg_y, V3.neg_z] <;>
        linarith

/-- The cross products of the axes of one box are its axes. -/
theorem axes_cross {orn : Quat ℝ} (ho : orn.lengthSqr = 1) {P : V3 ℝ → Prop} (h0 : P 0)
    (hs : ∀ s u, P u → P (smul s u)) (h : ∀ e ∈ [ex, ey, ez], P (Quat.rotate orn e)) (a b : V3 ℝ)
    (ha : a ∈ [ex, ey, ez]) (hb : b ∈ [ex, ey, ez]) : P (cross (Quat.rotate orn a) (Quat.rotate orn b)) := by
  rw [← rotate_cross _ ho]
  have hn : ∀ u, P (Quat.rotate orn u) → P (Quat.rotate orn (-u)) := by
    intro u hu
    have := hs (-1) _ hu
    rw [← rotate_smul] at this
    convert this using 2
    ext <;> simp [smul]
  have hx := h ex (by simp)
  have hy := h ey (by simp)
  have hz := h ez (by simp)
  have hz0 : P (Quat.rotate orn 0) := by
    have := hs 0 _ hx
    rw [← rotate_smul] at this
    convert this using 2
    ext <;> simp [smul]
  simp only [List.mem_cons, List.not_mem_nil, or_false] at ha hb
  rcases ha with rfl | rfl | rfl <;> rcases hb with rfl | rfl | rfl
  · convert hz0 using 2; ext <;> simp [cross, ex]
  · convert hz using 2; ext <;> simp [cross, ex, ey, ez]
  · convert hn _ hy using 2; ext <;> simp [cross, ex, ey, ez]
  · convert hn _ hz using 2; ext <;> simp [cross, ex, ey, ez]
  · convert hz0 using 2; ext <;> simp [cross, ey]
  · convert hx using 2; ext <;> simp [cross, ex, ey, ez]
  · convert hy using 2; ext <;> simp [cross, ex, ey, ez]
  · convert hn _ hx using 2; ext <;> simp [cross, ex, ey, ez]
  · convert hz0 using 2; ext <;> simp [cross, ez]

/-- **The 15 axes suffice.** Boxes that none of them tells apart meet. -/
theorem boxes_meet {hA hB : V3 ℝ} (pA : PosExt hA) (pB : PosExt hB) {c : Ctx} (hc : c.Ok)
    (h1 : ∀ e ∈ [ex, ey, ez], gap hA hB c (Quat.rotate c.ornA e) ≤ 0)
    (h2 : ∀ e ∈ [ex, ey, ez], gap hA hB c (Quat.rotate c.ornB e) ≤ 0)
    (h3 : ∀ e ∈ [ex, ey, ez], ∀ f ∈ [ex, ey, ez],
      gap hA hB c (cross (Quat.rotate c.ornA e) (Quat.rotate c.ornB f)) ≤ 0) :
    Meet (c.boxA hA) (c.boxB hB) := by
  rw [← meet_zono pA pB]
  have hs : ∀ s u, gap hA hB c u ≤ 0 → gap hA hB c (smul s u) ≤ 0 := by
    intro s u hu
    rw [gap_smul]
    exact mul_nonpos_of_nonneg_of_nonpos (abs_nonneg _) hu
  have h0 : gap hA hB c 0 ≤ 0 := by
    have := hs 0 (Quat.rotate c.ornA ex) (h1 ex (by simp))
    convert this using 2
    ext <;> simp [smul]
  refine zono_axes _ ?_ _ ?_
  · intro m hm
    by_contra hno
    push Not at hno
    apply hm
    have e : Quat.rotate c.ornA.conjugate m = 0 := by
      have ax := hno (.inl 0); have ay := hno (.inl 1); have az := hno (.inl 2)
      simp only [halfEdges, Matrix.cons_val_zero, Matrix.cons_val_one, Matrix.cons_val, dot_smul_left, dot_rotate hc.1,
        mul_eq_zero, pA.1.ne', pA.2.1.ne', pA.2.2.ne', false_or] at ax ay az
      ext
      · simpa [dot, ex] using ax
      · simpa [dot, ey] using ay
      · simpa [dot, ez] using az
    have := (rotate_conjugate c.ornA hc.1 m).2
    rw [e] at this
    rw [← this]
    have z : (0 : V3 ℝ) = smul 0 m := by ext <;> simp [smul]
    rw [z, rotate_smul]
    ext <;> simp [smul]
  · have key : ∀ u, gap hA hB c u ≤ 0 → |dot (c.posA - c.posB) u| ≤ ∑ k, |dot (halfEdges hA hB c k) u| := by
      intro u hu
      rw [halfEdges_sum pA pB hc]
      unfold gap at hu
      linarith
    have memA : ∀ i, ∃ s, ∃ e ∈ [ex, ey, ez], halfEdges hA hB c (.inl i) = smul s (Quat.rotate c.ornA e) := by
      intro i; fin_cases i
      · exact ⟨hA.x, ex, by simp, rfl⟩
      · exact ⟨hA.y, ey, by simp, rfl⟩
      · exact ⟨hA.z, ez, by simp, rfl⟩
    have memB : ∀ i, ∃ s, ∃ e ∈ [ex, ey, ez], halfEdges hA hB c (.inr i) = smul s (Quat.rotate c.ornB e) := by
      intro i; fin_cases i
      · exact ⟨hB.x, ex, by simp, rfl⟩
      · exact ⟨hB.y, ey, by simp, rfl⟩
      · exact ⟨hB.z, ez, by simp, rfl⟩
    have cs : ∀ s t (a b : V3 ℝ), cross (smul s a) (smul t b) = smul (s * t) (cross a b) := by
      intro s t a b; ext <;> simp only [cross, smul] <;> ring
    have cc : ∀ a b : V3 ℝ, cross a b = smul (-1) (cross b a) := by
      intro a b; ext <;> simp only [cross, smul] <;> ring
    rintro (i | i) (j | j) -
    · obtain ⟨s, e, he, es⟩ := memA i
      obtain ⟨t, f, hf, et⟩ := memA j
      rw [es, et, cs]
      exact key _ (hs _ _ (axes_cross hc.1 (P := fun u => gap hA hB c u ≤ 0) h0 hs h1 e f he hf))
    · obtain ⟨s, e, he, es⟩ := memA i
      obtain ⟨t, f, hf, et⟩ := memB j
      rw [es, et, cs]
      exact key _ (hs _ _ (h3 e he f hf))
    · obtain ⟨s, e, he, es⟩ := memB i
      obtain ⟨t, f, hf, et⟩ := memA j
      rw [es, et, cs, cc]
      exact key _ (hs _ _ (hs _ _ (h3 f hf e he)))
    · obtain ⟨s, e, he, es⟩ := memB i
      obtain ⟨t, f, hf, et⟩ := memB j
      rw [es, et, cs]
      exact key _ (hs _ _ (axes_cross hc.2.1 (P := fun u => gap hA hB c u ≤ 0) h0 hs h2 e f he hf))

/-- The signed distance along a direction towards A. -/
theorem gap_along {hA hB : V3 ℝ} (pA : PosExt hA) (pB : PosExt hB) {c : Ctx} (hc : c.Ok) {n : V3 ℝ}
    (hn : 0 ≤ dot (c.posA - c.posB) n) : GapAlong (c.boxA hA) (c.boxB hB) n (gap hA hB c n) := by
  obtain ⟨-, ⟨a, ha, ea⟩, hA'⟩ := box_support_spec hA c.posA pA.1.le pA.2.1.le pA.2.2.le c.ornA hc.1 (-n)
  obtain ⟨-, ⟨b, hb, eb⟩, hB'⟩ := box_support_spec hB c.posB pB.1.le pB.2.1.le pB.2.2.le c.ornB hc.2.1 n
  rw [boxProjection_eq, ext1_neg, dot_neg_right] at ea hA'
  rw [boxProjection_eq] at eb hB'
  unfold gap
  rw [abs_of_nonneg hn, dot_sub_left]
  refine ⟨fun p q hp hq => ?_, a, b, ha, hb, ?_⟩
  · have h1 := hA' p hp
    have h2 := hB' q hq
    rw [dot_neg_right] at h1
    rw [dot_sub_left]
    linarith
  · rw [dot_neg_right] at ea
    rw [dot_sub_left]
    linarith

/-- The context with A moved. -/
noncomputable def Ctx.move (c : Ctx) (v : V3 ℝ) : Ctx := { c with posA := c.posA + v }

theorem moved_box (c : Ctx) (h v : V3 ℝ) : Moved (c.boxA h) v = (c.move v).boxA h := by
  funext w
  apply propext
  constructor
  · rintro ⟨p, hp, e⟩
    refine ⟨p, hp, ?_⟩
    have hx := congrArg V3.x e; have hy := congrArg V3.y e; have hz := congrArg V3.z e
    simp only [V3.sub_x, V3.sub_y, V3.sub_z, V3.add_x, V3.add_y, V3.add_z] at hx hy hz
    ext <;> simp only [Ctx.move, V3.add_x, V3.add_y, V3.add_z] <;> linarith
  · rintro ⟨p, hp, e⟩
    refine ⟨p, hp, ?_⟩
    rw [e]
    ext <;> simp only [Ctx.move, V3.add_x, V3.add_y, V3.add_z, V3.sub_x, V3.sub_y, V3.sub_z] <;> ring

theorem gap_move (hA hB : V3 ℝ) (c : Ctx) (v u : V3 ℝ) : gap hA hB (c.move v) u ≤ gap hA hB c u + |dot v u| := by
  unfold gap
  have e : dot ((c.move v).posA - (c.move v).posB) u = dot (c.posA - c.posB) u + dot v u := by
    simp only [Ctx.move, dot, V3.add_x, V3.add_y, V3.add_z, V3.sub_x, V3.sub_y, V3.sub_z]; ring
  rw [e]
  have := abs_add_le (dot (c.posA - c.posB) u) (dot v u)
  show _ - ext1 hA c.ornA u - ext1 hB c.ornB u ≤ _
  linarith

/-! ## What is proved of the search -/

/-- **C87, the axis.** The search finds a unit vector from B towards A and the exact signed distance between the
boxes along it. -/
theorem box_box_axis {eps : ℝ} (he : 0 ≤ eps) {hA hB : V3 ℝ} (pA : PosExt hA) (pB : PosExt hB) {c : Ctx} (hc : c.Ok) :
    ∃ x n, boxBoxAxis eps hA hB c = some (x, n) ∧ lengthSqr n = 1 ∧ 0 ≤ dot (c.posA - c.posB) n ∧
      GapAlong (c.boxA hA) (c.boxB hB) n x := by
  obtain ⟨x, n, h1, -, ⟨h2, h3, h4⟩, -⟩ := axis_found he hA hB hc
  refine ⟨x, n, h1, h2, h4, ?_⟩
  have := gap_along pA pB hc h4
  have h3 : x = gap hA hB c n := h3
  rwa [← h3] at this

/-- **C87, penetration depth.** For boxes whose edges are parallel or clearly not so: if the distance found is not
positive, the boxes still meet after any move of A by at most that much, in whatever direction, and no longer
meet after a move along the axis by more than that. -/
theorem box_box_depth_partial {eps : ℝ} (he : 0 ≤ eps) {hA hB : V3 ℝ} (pA : PosExt hA) (pB : PosExt hB) {c : Ctx}
    (hc : c.Ok) (hE : ClearEdges eps c) {x : ℝ} {n : V3 ℝ} (hx : boxBoxAxis eps hA hB c = some (x, n)) :
    (∀ v, x ≤ 0 → lengthSqr v ≤ x * x → Meet (Moved (c.boxA hA) v) (c.boxB hB)) ∧
    ∀ s, -x < s → ¬ Meet (Moved (c.boxA hA) (smul s n)) (c.boxB hB) := by
  obtain ⟨x', n', h1, -, ⟨hu, h3, h4⟩, hfa, hfb, hee⟩ := axis_found he hA hB hc
  rw [hx] at h1
  obtain ⟨rfl, rfl⟩ := Prod.mk.inj (Option.some.inj h1)
  constructor
  · intro v hx0 hv
    rw [moved_box]
    have hv' : lengthSqr v ≤ (-x) * (-x) := by linarith
    have step : ∀ u, lengthSqr u = 1 → |dot v u| ≤ -x := fun u hu =>
      abs_le.2 ⟨(dot_le_of_unit (by linarith) hv' hu).2, (dot_le_of_unit (by linarith) hv' hu).1⟩
    have unit : ∀ e ∈ [ex, ey, ez], lengthSqr e = 1 := by
      intro e he
      simp only [List.mem_cons, List.not_mem_nil, or_false] at he
      rcases he with rfl | rfl | rfl
      · exact ex_unit
      · exact ey_unit
      · exact ez_unit
    refine boxes_meet pA pB (c := c.move v) hc ?_ ?_ ?_
    · intro e he
      have := gap_move hA hB c v (Quat.rotate c.ornA e)
      have h5 := hfa e he
      have h6 := step _ (rotate_unit hc.1 (unit e he))
      show gap hA hB (c.move v) (Quat.rotate c.ornA e) ≤ 0
      linarith
    · intro e he
      have := gap_move hA hB c v (Quat.rotate c.ornB e)
      have h5 := hfb e he
      have h6 := step _ (rotate_unit hc.2.1 (unit e he))
      show gap hA hB (c.move v) (Quat.rotate c.ornB e) ≤ 0
      linarith
    · intro e he f hf
      show gap hA hB (c.move v) (cross (Quat.rotate c.ornA e) (Quat.rotate c.ornB f)) ≤ 0
      rcases hE e he f hf with h0 | hl
      · rw [h0]
        have : (0 : V3 ℝ) = smul 0 0 := by ext <;> simp [smul]
        rw [this, gap_smul]; simp
      · set w := cross (Quat.rotate c.ornA e) (Quat.rotate c.ornB f) with hw
        have hl0 : 0 < lengthSqr w := by linarith
        have h5 := hee e he f hf hl
        have h6 := step _ (unit_of_len hl0)
        have hs : 0 < Real.sqrt (lengthSqr w) := Real.sqrt_pos.2 hl0
        rw [dot_smul_right, abs_mul, abs_of_nonneg (by positivity), one_div, inv_mul_le_iff₀ hs] at h6
        have h7 := gap_move hA hB c v w
        rw [← hw] at h5
        nlinarith
  · rintro s hs ⟨w, hw, hb⟩
    have h3 : x = gap hA hB c n := h3
    have := (gap_along pA pB hc h4).1 _ _ hw hb
    rw [← h3] at this
    have hnn : dot n n = 1 := hu
    have e : dot (w - smul s n - w) n = - (s * dot n n) := by
      simp only [dot, V3.sub_x, V3.sub_y, V3.sub_z, smul]; ring
    rw [e, hnn] at this
    linarith

/-- **C87, overlap.** The distance found is not positive exactly when the boxes have a point in common. -/
theorem box_box_overlap_partial {eps : ℝ} (he : 0 ≤ eps) {hA hB : V3 ℝ} (pA : PosExt hA) (pB : PosExt hB) {c : Ctx}
    (hc : c.Ok) (hE : ClearEdges eps c) {x : ℝ} {n : V3 ℝ} (hx : boxBoxAxis eps hA hB c = some (x, n)) :
    x ≤ 0 ↔ Meet (c.boxA hA) (c.boxB hB) := by
  obtain ⟨d1, d2⟩ := box_box_depth_partial he pA pB hc hE hx
  have e0 : ∀ S : V3 ℝ → Prop, Moved S 0 = S := by
    intro S; funext w; unfold Moved; congr 1; ext <;> simp
  constructor
  · intro h
    have := d1 0 h (by simp [lengthSqr, dot]; exact mul_self_nonneg x)
    rwa [e0] at this
  · intro h
    by_contra hx0
    refine d2 0 (by linarith) ?_
    have : smul 0 n = (0 : V3 ℝ) := by ext <;> simp [smul]
    rw [this, e0]; exact h

/-- Without the condition on the edges. -/
def BoxOverlapFull (eps : ℝ) : Prop :=
  ∀ (hA hB : V3 ℝ) (c : Ctx) (x : ℝ) (n : V3 ℝ), PosExt hA → PosExt hB → c.Ok → boxBoxAxis eps hA hB c = some (x, n) →
    (x ≤ 0 ↔ Meet (c.boxA hA) (c.boxB hB))

end Edyn.Collide
