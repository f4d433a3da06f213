import Verif.Geom.Intersect2

/-!
# Lines and boxes in the plane, points and triangles (C72)

`intersect_line_aabb` (`geom.cpp` 1044-1138), `point_in_triangle` (`triangle.cpp` 7-26),
`point_in_polygonal_prism` (`geom.cpp` 1140-1181) and `intersect_segment_triangle` (`geom.cpp` 1307-1343).
-/

namespace Edyn.Geom

open Edyn.Math V3

/-! ## Line and box in the plane: model -/

/-- The assignment of a parameter at the right, bottom and top edges, `geom.cpp` 1089-1095, 1108-1114,
1127-1133. -/
noncomputable def addParam (eps : ℝ) (l : List ℝ) (t : ℝ) : List ℝ :=
  match l with
  | [] => [t]
  | s :: rest => if eps < |t - s| then s :: t :: rest else s :: rest

/-- `intersect_line_aabb`, `geom.cpp` 1044-1138: the parameters, as many as the function returns. -/
noncomputable def lineAabb (eps : ℝ) (p0 p1 mn mx : V2) : List ℝ :=
  let d := sub2 p1 p0
  let e := sub2 mn p0
  let f := sub2 mx p0
  if |d.x| < eps then (if e.x ≤ 0 ∧ 0 ≤ f.x then [e.y / d.y, f.y / d.y] else []) else
  if |d.y| < eps then (if e.y ≤ 0 ∧ 0 ≤ f.y then [e.x / d.x, f.x / d.x] else []) else
  let tl := e.x / d.x
  let l1 := if mn.y ≤ p0.y + d.y * tl ∧ p0.y + d.y * tl < mx.y then [tl] else []
  let tr := f.x / d.x
  let l2 := if mn.y < p0.y + d.y * tr ∧ p0.y + d.y * tr ≤ mx.y then addParam eps l1 tr else l1
  if l2.length = 2 then l2 else
  let tb := e.y / d.y
  let l3 := if mn.x ≤ p0.x + d.x * tb ∧ p0.x + d.x * tb < mx.x then addParam eps l2 tb else l2
  if l3.length = 2 then l3 else
  let tt := f.y / d.y
  if mn.x < p0.x + d.x * tt ∧ p0.x + d.x * tt ≤ mx.x then addParam eps l3 tt else l3

/-! ## Specification -/

/-- The point is in the box. -/
def inBox2 (mn mx p : V2) : Prop := (mn.x ≤ p.x ∧ p.x ≤ mx.x) ∧ (mn.y ≤ p.y ∧ p.y ≤ mx.y)

/-- The point is on the border of the box. -/
def onBox2 (mn mx p : V2) : Prop := inBox2 mn mx p ∧ (p.x = mn.x ∨ p.x = mx.x ∨ p.y = mn.y ∨ p.y = mx.y)

/-- The full statement: the parameters are those of points of the border, and each point of the border on the
line has a returned parameter within the tolerance. -/
def LineAabbFull (eps : ℝ) : Prop :=
  ∀ p0 p1 mn mx : V2, mn.x < mx.x → mn.y < mx.y → p0 ≠ p1 →
    (∀ t ∈ lineAabb eps p0 p1 mn mx, onBox2 mn mx (along2 p0 p1 t)) ∧
    ∀ t, onBox2 mn mx (along2 p0 p1 t) → ∃ s ∈ lineAabb eps p0 p1 mn mx, |t - s| ≤ eps

/-! ## Proof -/

theorem addParam_mem {eps : ℝ} {l : List ℝ} {t s : ℝ} (h : s ∈ addParam eps l t) : s = t ∨ s ∈ l := by
  unfold addParam at h
  match l with
  | [] => simp at h; exact .inl h
  | a :: rest =>
    simp only at h
    split at h
    · simp only [List.mem_cons] at h ⊢; tauto
    · exact .inr h

theorem addParam_near {eps : ℝ} (he : 0 ≤ eps) (l : List ℝ) (t : ℝ) : ∃ s ∈ addParam eps l t, |t - s| ≤ eps := by
  unfold addParam
  match l with
  | [] => exact ⟨t, by simp, by simpa using he⟩
  | a :: rest =>
    simp only
    split
    · exact ⟨t, by simp, by simpa using he⟩
    · exact ⟨a, by simp, by rename_i h; exact le_of_not_gt h⟩

theorem addParam_keep {eps : ℝ} {l : List ℝ} {t s : ℝ} (h : s ∈ l) : s ∈ addParam eps l t := by
  unfold addParam
  match l with
  | a :: rest =>
    simp only
    split
    · simp only [List.mem_cons] at h ⊢; tauto
    · exact h

/-- Lists of at most two parameters more than the tolerance apart. -/
def Few (eps : ℝ) (l : List ℝ) : Prop := l = [] ∨ (∃ s, l = [s]) ∨ ∃ s t, l = [s, t] ∧ eps < |t - s|

theorem addParam_few {eps : ℝ} {l : List ℝ} {t : ℝ} (h : Few eps l) (h2 : l.length ≠ 2) : Few eps (addParam eps l t) := by
  rcases h with rfl | ⟨s, rfl⟩ | ⟨s, t, rfl, _⟩
  · exact .inr (.inl ⟨t, rfl⟩)
  · unfold addParam
    simp only
    split
    · rename_i h; exact .inr (.inr ⟨s, t, rfl, h⟩)
    · exact .inr (.inl ⟨s, rfl⟩)
  · simp at h2

/-- A border point is the first or the last point of the line in the box. -/
theorem border_extreme {p0 p1 mn mx : V2} (hx : p1.x - p0.x ≠ 0) (hy : p1.y - p0.y ≠ 0) {t : ℝ}
    (h : onBox2 mn mx (along2 p0 p1 t)) :
    (∀ u, inBox2 mn mx (along2 p0 p1 u) → t ≤ u) ∨ (∀ u, inBox2 mn mx (along2 p0 p1 u) → u ≤ t) := by
  have key : ∀ d : ℝ, d ≠ 0 → (∀ u, inBox2 mn mx (along2 p0 p1 u) → 0 ≤ (u - t) * d) →
      (∀ u, inBox2 mn mx (along2 p0 p1 u) → t ≤ u) ∨ (∀ u, inBox2 mn mx (along2 p0 p1 u) → u ≤ t) := by
    intro d hd hu
    rcases lt_or_gt_of_ne hd with h' | h'
    · right; intro u hu'; have := hu u hu'; nlinarith
    · left; intro u hu'; have := hu u hu'; nlinarith
  obtain ⟨⟨⟨a1, a2⟩, a3, a4⟩, hb⟩ := h
  simp only [along2] at *
  rcases hb with hb | hb | hb | hb
  · apply key _ hx
    rintro u ⟨⟨b1, b2⟩, b3, b4⟩
    simp only at b1 b2
    nlinarith
  · apply key (-(p1.x - p0.x)) (neg_ne_zero.2 hx)
    rintro u ⟨⟨b1, b2⟩, b3, b4⟩
    simp only at b1 b2
    nlinarith
  · apply key _ hy
    rintro u ⟨⟨b1, b2⟩, b3, b4⟩
    simp only at b3 b4
    nlinarith
  · apply key (-(p1.y - p0.y)) (neg_ne_zero.2 hy)
    rintro u ⟨⟨b1, b2⟩, b3, b4⟩
    simp only at b3 b4
    nlinarith

theorem border_two {p0 p1 mn mx : V2} (hx : p1.x - p0.x ≠ 0) (hy : p1.y - p0.y ≠ 0) {s s' t : ℝ} (hne : s ≠ s')
    (h : onBox2 mn mx (along2 p0 p1 s)) (h' : onBox2 mn mx (along2 p0 p1 s')) (ht : onBox2 mn mx (along2 p0 p1 t)) :
    t = s ∨ t = s' := by
  rcases border_extreme hx hy h with e | e <;> rcases border_extreme hx hy h' with e' | e' <;>
    rcases border_extreme hx hy ht with et | et
  all_goals
    have q1 := e _ h'.1
    have q2 := e _ ht.1
    have q3 := e' _ h.1
    have q4 := e' _ ht.1
    have q5 := et _ h.1
    have q6 := et _ h'.1
    first
      | (left; linarith)
      | (right; linarith)
      | (exfalso; exact hne (by linarith))

/-- **C72, line and box in the plane.** Proved for lines which are not parallel to a side and for all points of
the border except the corners at the upper left and at the lower right.  Missing: these corners
(`line_aabb_refuted`) and lines nearly parallel to a side. -/
theorem line_aabb_partial (eps : ℝ) (he : 0 < eps) (p0 p1 mn mx : V2) (hbx : mn.x < mx.x) (hby : mn.y < mx.y)
    (hx : eps ≤ |p1.x - p0.x|) (hy : eps ≤ |p1.y - p0.y|) :
    (∀ t ∈ lineAabb eps p0 p1 mn mx, onBox2 mn mx (along2 p0 p1 t)) ∧
    ∀ t, onBox2 mn mx (along2 p0 p1 t) → along2 p0 p1 t ≠ ⟨mn.x, mx.y⟩ → along2 p0 p1 t ≠ ⟨mx.x, mn.y⟩ →
      ∃ s ∈ lineAabb eps p0 p1 mn mx, |t - s| ≤ eps := by
  have hx0 : p1.x - p0.x ≠ 0 := by intro h; rw [h, abs_zero] at hx; linarith
  have hy0 : p1.y - p0.y ≠ 0 := by intro h; rw [h, abs_zero] at hy; linarith
  unfold lineAabb
  simp only
  rw [if_neg (by simp only [sub2]; linarith), if_neg (by simp only [sub2]; linarith)]
  simp only [sub2]
  set tl := (mn.x - p0.x) / (p1.x - p0.x) with htl
  set tr := (mx.x - p0.x) / (p1.x - p0.x) with htr
  set tb := (mn.y - p0.y) / (p1.y - p0.y) with htb
  set tt := (mx.y - p0.y) / (p1.y - p0.y) with htt
  have exl : (along2 p0 p1 tl).x = mn.x := by simp only [along2, htl]; field_simp; ring
  have exr : (along2 p0 p1 tr).x = mx.x := by simp only [along2, htr]; field_simp; ring
  have eyb : (along2 p0 p1 tb).y = mn.y := by simp only [along2, htb]; field_simp; ring
  have eyt : (along2 p0 p1 tt).y = mx.y := by simp only [along2, htt]; field_simp; ring
  have ey : ∀ t, p0.y + (p1.y - p0.y) * t = (along2 p0 p1 t).y := by intro t; simp only [along2]; ring
  have ex : ∀ t, p0.x + (p1.x - p0.x) * t = (along2 p0 p1 t).x := by intro t; simp only [along2]; ring
  have ul : ∀ t, (along2 p0 p1 t).x = mn.x → t = tl := by
    intro t h; rw [htl, eq_div_iff hx0, ← h]; simp only [along2]; ring
  have ur : ∀ t, (along2 p0 p1 t).x = mx.x → t = tr := by
    intro t h; rw [htr, eq_div_iff hx0, ← h]; simp only [along2]; ring
  have ub : ∀ t, (along2 p0 p1 t).y = mn.y → t = tb := by
    intro t h; rw [htb, eq_div_iff hy0, ← h]; simp only [along2]; ring
  have ut : ∀ t, (along2 p0 p1 t).y = mx.y → t = tt := by
    intro t h; rw [htt, eq_div_iff hy0, ← h]; simp only [along2]; ring
  simp only [ex, ey]
  set l1 := if mn.y ≤ (along2 p0 p1 tl).y ∧ (along2 p0 p1 tl).y < mx.y then [tl] else ([] : List ℝ) with hl1
  set l2 := if mn.y < (along2 p0 p1 tr).y ∧ (along2 p0 p1 tr).y ≤ mx.y then addParam eps l1 tr else l1 with hl2
  set l3 := if mn.x ≤ (along2 p0 p1 tb).x ∧ (along2 p0 p1 tb).x < mx.x then addParam eps l2 tb else l2 with hl3
  set l4 := if mn.x < (along2 p0 p1 tt).x ∧ (along2 p0 p1 tt).x ≤ mx.x then addParam eps l3 tt else l3 with hl4
  have ok1 : (∀ t ∈ l1, onBox2 mn mx (along2 p0 p1 t)) ∧ Few eps l1 ∧ l1.length ≠ 2 := by
    rw [hl1]
    split
    · rename_i hc
      refine ⟨?_, .inr (.inl ⟨_, rfl⟩), by simp⟩
      intro t ht
      rw [List.mem_singleton] at ht
      subst ht
      exact ⟨⟨⟨by rw [exl], by rw [exl]; exact hbx.le⟩, hc.1, hc.2.le⟩, .inl exl⟩
    · exact ⟨by simp, .inl rfl, by simp⟩
  have ok2 : (∀ t ∈ l2, onBox2 mn mx (along2 p0 p1 t)) ∧ Few eps l2 := by
    rw [hl2]
    split
    · rename_i hc
      refine ⟨?_, addParam_few ok1.2.1 ok1.2.2⟩
      intro t ht
      rcases addParam_mem ht with rfl | ht
      · exact ⟨⟨⟨by rw [exr]; exact hbx.le, by rw [exr]⟩, hc.1.le, hc.2⟩, .inr (.inl exr)⟩
      · exact ok1.1 t ht
    · exact ⟨ok1.1, ok1.2.1⟩
  have two : ∀ l : List ℝ, (∀ t ∈ l, onBox2 mn mx (along2 p0 p1 t)) → Few eps l → l.length = 2 →
      ∀ t, onBox2 mn mx (along2 p0 p1 t) → ∃ s ∈ l, |t - s| ≤ eps := by
    intro l hl hf hlen t ht
    rcases hf with rfl | ⟨s, rfl⟩ | ⟨s, s', rfl, hd⟩
    · simp at hlen
    · simp at hlen
    · have hne : s ≠ s' := by
        intro h; subst h; rw [sub_self, abs_zero] at hd; linarith
      rcases border_two hx0 hy0 hne (hl s (by simp)) (hl s' (by simp)) ht with rfl | rfl
      · exact ⟨_, List.mem_cons_self, by simpa using he.le⟩
      · exact ⟨t, by simp, by simpa using he.le⟩
  by_cases h2 : l2.length = 2
  · rw [if_pos h2]
    exact ⟨ok2.1, fun t ht _ _ => two l2 ok2.1 ok2.2 h2 t ht⟩
  rw [if_neg h2]
  have ok3 : (∀ t ∈ l3, onBox2 mn mx (along2 p0 p1 t)) ∧ Few eps l3 := by
    rw [hl3]
    split
    · rename_i hc
      refine ⟨?_, addParam_few ok2.2 h2⟩
      intro t ht
      rcases addParam_mem ht with rfl | ht
      · exact ⟨⟨⟨hc.1, hc.2.le⟩, by rw [eyb], by rw [eyb]; exact hby.le⟩, .inr (.inr (.inl eyb))⟩
      · exact ok2.1 t ht
    · exact ok2
  by_cases h3 : l3.length = 2
  · rw [if_pos h3]
    exact ⟨ok3.1, fun t ht _ _ => two l3 ok3.1 ok3.2 h3 t ht⟩
  rw [if_neg h3]
  refine ⟨?_, ?_⟩
  · intro t ht
    rw [hl4] at ht
    split at ht
    · rename_i hc
      rcases addParam_mem ht with rfl | ht
      · exact ⟨⟨⟨hc.1.le, hc.2⟩, by rw [eyt]; exact hby.le, by rw [eyt]⟩, .inr (.inr (.inr eyt))⟩
      · exact ok3.1 t ht
    · exact ok3.1 t ht
  · intro t ht hc1 hc2
    have up4 : ∀ s, s ∈ l3 → s ∈ l4 := by
      intro s hs; rw [hl4]; split
      · exact addParam_keep hs
      · exact hs
    have up3 : ∀ s, s ∈ l2 → s ∈ l3 := by
      intro s hs; rw [hl3]; split
      · exact addParam_keep hs
      · exact hs
    have up2 : ∀ s, s ∈ l1 → s ∈ l2 := by
      intro s hs; rw [hl2]; split
      · exact addParam_keep hs
      · exact hs
    obtain ⟨⟨⟨a1, a2⟩, a3, a4⟩, hb⟩ := ht
    have left : (along2 p0 p1 t).x = mn.x → (along2 p0 p1 t).y < mx.y → ∃ s ∈ l4, |t - s| ≤ eps := by
      intro h h'
      have := ul t h
      refine ⟨t, up4 _ (up3 _ (up2 _ ?_)), by simpa using he.le⟩
      rw [hl1, ← this, if_pos ⟨a3, h'⟩]; simp
    have right : (along2 p0 p1 t).x = mx.x → mn.y < (along2 p0 p1 t).y → ∃ s ∈ l4, |t - s| ≤ eps := by
      intro h h'
      have := ur t h
      obtain ⟨s, hs, hd⟩ := addParam_near he.le l1 tr
      refine ⟨s, up4 _ (up3 _ ?_), by rw [this]; exact hd⟩
      rw [hl2, if_pos ⟨by rw [← this]; exact h', by rw [← this]; exact a4⟩]; exact hs
    have bottom : (along2 p0 p1 t).y = mn.y → (along2 p0 p1 t).x < mx.x → ∃ s ∈ l4, |t - s| ≤ eps := by
      intro h h'
      have := ub t h
      obtain ⟨s, hs, hd⟩ := addParam_near he.le l2 tb
      refine ⟨s, up4 _ ?_, by rw [this]; exact hd⟩
      rw [hl3, if_pos ⟨by rw [← this]; exact a1, by rw [← this]; exact h'⟩]; exact hs
    have top : (along2 p0 p1 t).y = mx.y → mn.x < (along2 p0 p1 t).x → ∃ s ∈ l4, |t - s| ≤ eps := by
      intro h h'
      have := ut t h
      obtain ⟨s, hs, hd⟩ := addParam_near he.le l3 tt
      refine ⟨s, ?_, by rw [this]; exact hd⟩
      rw [hl4, if_pos ⟨by rw [← this]; exact h', by rw [← this]; exact a2⟩]; exact hs
    rcases hb with h | h | h | h
    · rcases a4.lt_or_eq with h' | h'
      · exact left h h'
      · exact (hc1 (V2.ext h h')).elim
    · rcases a3.lt_or_eq with h' | h'
      · exact right h h'
      · exact (hc2 (V2.ext h h'.symm)).elim
    · rcases a2.lt_or_eq with h' | h'
      · exact bottom h h'
      · exact (hc2 (V2.ext h' h)).elim
    · rcases a1.lt_or_eq with h' | h'
      · exact top h h'
      · exact (hc1 (V2.ext h'.symm h)).elim

/-- **Finding.** The line through the upper left and the lower right corner of a box crosses all of it, but no
intersection is reported: each of the two corners is excluded from both of its edges. -/
theorem line_aabb_refuted (eps : ℝ) (he : 0 ≤ eps) (he2 : eps ≤ 2) : ¬ LineAabbFull eps := by
  intro h
  have h1 := (h ⟨-1, 1⟩ ⟨1, -1⟩ ⟨-1, -1⟩ ⟨1, 1⟩ (by norm_num) (by norm_num) (by simp [V2.ext_iff]; norm_num)).2 0
    (by simp [onBox2, inBox2, along2])
  have : lineAabb eps ⟨-1, 1⟩ ⟨1, -1⟩ ⟨-1, -1⟩ ⟨1, 1⟩ = [] := by
    unfold lineAabb
    simp only
    rw [if_neg (by simp only [sub2]; norm_num; linarith), if_neg (by simp only [sub2]; norm_num; linarith)]
    simp only [sub2]
    norm_num
  rw [this] at h1
  simp at h1

/-- A line through a box. -/
example : lineAabb (1 / 100) ⟨-2, 0⟩ ⟨2, 1⟩ ⟨-1, -1⟩ ⟨1, 1⟩ = [1 / 4, 3 / 4] := by
  unfold lineAabb
  simp only
  rw [if_neg (by simp only [sub2]; norm_num), if_neg (by simp only [sub2]; norm_num)]
  simp only [sub2, addParam]
  norm_num

end Edyn.Geom
