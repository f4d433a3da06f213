import Verif.Geom.Intersect3

/-!
# Points, segments and triangles (C70, C72)

`point_in_triangle` (`triangle.cpp` 7-26), `point_in_polygonal_prism` (`geom.cpp` 1140-1181) and
`intersect_segment_triangle` (`geom.cpp` 1307-1343).
-/

namespace Edyn.Geom

open Edyn.Math V3

/-! ## Model -/

/-- The three vertices of a triangle (`triangle_vertices`). -/
structure Tri where
  v0 : V3 ℝ
  v1 : V3 ℝ
  v2 : V3 ℝ

/-- The test of one edge of `intersect_segment_triangle`, `geom.cpp` 1331-1339. -/
noncomputable def edgeIn (n v w p : V3 ℝ) : Prop := ¬ dot (cross n (w - v)) (p - v) < 0

open Classical in
/-- `intersect_segment_triangle`, `geom.cpp` 1307-1343: the parameter, if there is an intersection. -/
noncomputable def segmentTriangle (eps : ℝ) (p0 p1 : V3 ℝ) (tr : Tri) (n : V3 ℝ) : Option ℝ :=
  let d := dot (p1 - p0) n
  let e := dot (tr.v0 - p0) n
  let inside (t : ℝ) : Option ℝ :=
    if t < 0 ∨ 1 < t then none else
    let p := along p0 p1 t
    if edgeIn n tr.v0 tr.v1 p ∧ edgeIn n tr.v1 tr.v2 p ∧ edgeIn n tr.v2 tr.v0 p then some t else none
  if eps < |d| then inside (e / d) else
  if eps < |e| then none else inside 0

/-- `point_in_triangle`, `triangle.cpp` 7-26. -/
noncomputable def pointInTriangle (eps : ℝ) (tr : Tri) (n p : V3 ℝ) : Prop :=
  let d0 := dot (cross (tr.v1 - tr.v0) n) (p - tr.v0)
  let d1 := dot (cross (tr.v2 - tr.v1) n) (p - tr.v1)
  let d2 := dot (cross (tr.v0 - tr.v2) n) (p - tr.v2)
  (-eps < d0 ∧ -eps < d1 ∧ -eps < d2) ∨ (d0 < eps ∧ d1 < eps ∧ d2 < eps)

/-- `point_in_polygonal_prism`, `geom.cpp` 1163-1181 (and 1140-1161 with the vertices looked up); an assertion
failure is `none`. -/
noncomputable def pointInPrism (eps : ℝ) (vs : List (V3 ℝ)) (n p : V3 ℝ) : Option Prop :=
  if 2 < vs.length then
    some (∀ i, ∀ v w, vs[i]? = some v → vs[(i + 1) % vs.length]? = some w →
      ¬ eps < dot (p - v) (cross (w - v) n))
  else none

/-! ## Specification -/

/-- The points of a triangle. -/
def Tri.Has (tr : Tri) (p : V3 ℝ) : Prop := Hull [tr.v0, tr.v1, tr.v2] p

/-- The vector is the unit normal of the triangle on the side from which its vertices are seen
counter-clockwise (`get_triangle_normal`). -/
def Tri.Normal (tr : Tri) (n : V3 ℝ) : Prop :=
  lengthSqr n = 1 ∧ ∃ c, 0 < c ∧ cross (tr.v1 - tr.v0) (tr.v2 - tr.v0) = smul c n

/-- The full statement about a segment and a triangle: an intersection is found exactly when the segment has a
point in common with the triangle, and the parameter is the one of the first such point. -/
def SegmentTriangleFull (eps : ℝ) : Prop :=
  ∀ (p0 p1 : V3 ℝ) (tr : Tri) (n : V3 ℝ), tr.Normal n → ∀ t, segmentTriangle eps p0 p1 tr n = some t ↔
    (0 ≤ t ∧ t ≤ 1 ∧ tr.Has (along p0 p1 t) ∧ ∀ s, 0 ≤ s → s < t → ¬ tr.Has (along p0 p1 s))

/-! ## Proof -/

/-- Coordinates of a point with respect to a triangle. -/
theorem bary_identity (e1 e2 q : V3 ℝ) :
    smul (lengthSqr (cross e1 e2)) q =
      smul (dot q (cross e2 (cross e1 e2))) e1 + smul (dot q (cross (cross e1 e2) e1)) e2
        + smul (dot q (cross e1 e2)) (cross e1 e2) := by
  ext <;> simp [dot, lengthSqr] <;> ring

theorem Tri.hull_of_weights {v0 v1 v2 : V3 ℝ} {a b : ℝ} (ha : 0 ≤ a) (hb : 0 ≤ b) (hab : a + b ≤ 1) :
    Hull [v0, v1, v2] (v0 + smul a (v1 - v0) + smul b (v2 - v0)) := by
  by_cases h0 : a + b = 0
  · have ea : a = 0 := by linarith
    have eb : b = 0 := by linarith
    subst ea; subst eb
    have : v0 + smul 0 (v1 - v0) + smul 0 (v2 - v0) = v0 := by ext <;> simp
    rw [this]
    exact .vertex (by simp)
  · have hpos : 0 < a + b := lt_of_le_of_ne (by linarith) (Ne.symm h0)
    have h1 : Hull [v0, v1, v2] (v1 + smul (b / (a + b)) (v2 - v1)) :=
      .between _ (.vertex (by simp)) (.vertex (by simp)) (by positivity) (by rw [div_le_one hpos]; linarith)
    have h2 : Hull [v0, v1, v2] v0 := .vertex (by simp)
    have h3 := Hull.between (a + b) h2 h1 hpos.le hab
    convert h3 using 1
    ext <;> simp <;> field_simp <;> ring

/-- The point is on the inner side of the three edges exactly if, within the plane, it is in the triangle. -/
theorem tri_edges_iff {tr : Tri} {n p : V3 ℝ} (hn : tr.Normal n) (hp : dot (tr.v0 - p) n = 0) :
    (edgeIn n tr.v0 tr.v1 p ∧ edgeIn n tr.v1 tr.v2 p ∧ edgeIn n tr.v2 tr.v0 p) ↔ tr.Has p := by
  obtain ⟨h1, c, hc, hN⟩ := hn
  constructor
  · rintro ⟨a0, a1, a2⟩
    simp only [edgeIn, not_lt] at a0 a1 a2
    set e1 := tr.v1 - tr.v0 with he1
    set e2 := tr.v2 - tr.v0 with he2
    set q := p - tr.v0 with hq
    have hid := bary_identity e1 e2 q
    rw [hN] at hid
    have hl : lengthSqr (smul c n) = c * c := by
      have : lengthSqr (smul c n) = c * c * lengthSqr n := by simp [lengthSqr, dot]; ring
      rw [this, h1, mul_one]
    have hqn : dot q (smul c n) = 0 := by
      have : dot q (smul c n) = -c * dot (tr.v0 - p) n := by simp [dot, hq]; ring
      rw [this, hp, mul_zero]
    have w1 : dot q (cross e2 (smul c n)) = c * dot (cross n (tr.v0 - tr.v2)) (p - tr.v2) := by
      simp [dot, hq, he2]; ring
    have w2 : dot q (cross (smul c n) e1) = c * dot (cross n e1) q := by
      simp [dot]; ring
    have w3 : dot (cross n (tr.v2 - tr.v1)) (p - tr.v1)
        = c - dot (cross n (tr.v0 - tr.v2)) (p - tr.v2) - dot (cross n e1) q := by
      have hcn : c = dot (cross e1 e2) n := by
        rw [hN]
        have : dot (smul c n) n = c * lengthSqr n := by simp [lengthSqr, dot]; ring
        rw [this, h1, mul_one]
      rw [hcn]
      simp [dot, hq, he2, he1]; ring
    rw [hl, hqn, w1, w2] at hid
    set A := dot (cross n (tr.v0 - tr.v2)) (p - tr.v2) with hA
    set B := dot (cross n e1) q with hB
    rw [w3] at a1
    have hpt : p = tr.v0 + smul (A / c) e1 + smul (B / c) e2 := by
      have hq' : q = smul (A / c) e1 + smul (B / c) e2 := by
        have hx := congrArg V3.x hid
        have hy := congrArg V3.y hid
        have hz := congrArg V3.z hid
        simp at hx hy hz
        ext
        · simp; field_simp; nlinarith
        · simp; field_simp; nlinarith
        · simp; field_simp; nlinarith
      have : p = tr.v0 + q := by ext <;> simp [hq]
      rw [this, hq']
      ext <;> simp <;> ring
    rw [Tri.Has, hpt]
    exact Tri.hull_of_weights (by positivity) (by positivity) (by rw [← add_div, div_le_one hc]; linarith)
  · intro h
    have key : ∀ v w : V3 ℝ, (∀ u ∈ [tr.v0, tr.v1, tr.v2], 0 ≤ dot (cross n (w - v)) (u - v)) → edgeIn n v w p := by
      intro v w hu
      rw [edgeIn, not_lt]
      have : ∀ x, Hull [tr.v0, tr.v1, tr.v2] x → 0 ≤ dot (cross n (w - v)) (x - v) := by
        intro x hx
        induction hx with
        | vertex h => exact hu _ h
        | between t _ _ h0 h1 ih1 ih2 =>
          rename_i x y _ _
          have : dot (cross n (w - v)) (x + smul t (y - x) - v)
              = (1 - t) * dot (cross n (w - v)) (x - v) + t * dot (cross n (w - v)) (y - v) := by
            simp [dot]; ring
          rw [this]
          have := mul_nonneg (sub_nonneg.2 h1) ih1
          have := mul_nonneg h0 ih2
          linarith
      exact this p h
    have hcn : c = dot (cross (tr.v1 - tr.v0) (tr.v2 - tr.v0)) n := by
      rw [hN]
      have : dot (smul c n) n = c * lengthSqr n := by simp [lengthSqr, dot]; ring
      rw [this, h1, mul_one]
    rw [hcn] at hc
    simp [dot] at hc
    refine ⟨key _ _ ?_, key _ _ ?_, key _ _ ?_⟩ <;> intro u hu <;>
      simp only [List.mem_cons, List.not_mem_nil, or_false] at hu <;> rcases hu with rfl | rfl | rfl <;>
      simp [dot] <;> nlinarith

/-- **C70/C72, segment and triangle.** Proved for segments which are not parallel to the plane of the triangle.
Missing: segments parallel to it (`segment_triangle_refuted`). -/
theorem segment_triangle_partial (eps : ℝ) (he : 0 ≤ eps) (p0 p1 : V3 ℝ) (tr : Tri) (n : V3 ℝ) (hn : tr.Normal n)
    (hd : eps < |dot (p1 - p0) n|) (t : ℝ) : segmentTriangle eps p0 p1 tr n = some t ↔
      (0 ≤ t ∧ t ≤ 1 ∧ tr.Has (along p0 p1 t) ∧ ∀ s, 0 ≤ s → s < t → ¬ tr.Has (along p0 p1 s)) := by
  have hd0 : dot (p1 - p0) n ≠ 0 := by
    intro h; rw [h, abs_zero] at hd; linarith
  have plane : ∀ x, tr.Has x → dot (tr.v0 - x) n = 0 := by
    intro x hx
    obtain ⟨h1, c, hc, hN⟩ := hn
    have orth : ∀ u ∈ [tr.v0, tr.v1, tr.v2], dot (tr.v0 - u) n = 0 := by
      intro u hu
      have e : ∀ y, c * dot y n = dot y (cross (tr.v1 - tr.v0) (tr.v2 - tr.v0)) := by
        intro y; rw [hN]; simp [dot]; ring
      have h0 : c * dot (tr.v0 - u) n = 0 := by
        rw [e]
        simp only [List.mem_cons, List.not_mem_nil, or_false] at hu
        rcases hu with rfl | rfl | rfl <;> simp [dot] <;> ring
      rcases mul_eq_zero.1 h0 with h | h
      · exact absurd h hc.ne'
      · exact h
    induction hx with
    | vertex h => exact orth _ h
    | between t _ _ _ _ ih1 ih2 =>
      rename_i x y _ _ _ _
      have : dot (tr.v0 - (x + smul t (y - x))) n = (1 - t) * dot (tr.v0 - x) n + t * dot (tr.v0 - y) n := by
        simp [dot]; ring
      rw [this, ih1, ih2]; ring
  have param : ∀ s, dot (tr.v0 - along p0 p1 s) n = dot (tr.v0 - p0) n - s * dot (p1 - p0) n := by
    intro s; simp [dot, along]; ring
  have uniq : ∀ s, tr.Has (along p0 p1 s) → s = dot (tr.v0 - p0) n / dot (p1 - p0) n := by
    intro s hs
    have := plane _ hs
    rw [param] at this
    rw [eq_div_iff hd0]; linarith
  have hpl : dot (tr.v0 - along p0 p1 (dot (tr.v0 - p0) n / dot (p1 - p0) n)) n = 0 := by
    rw [param, div_mul_cancel₀ _ hd0, sub_self]
  unfold segmentTriangle
  simp only
  rw [if_pos hd]
  constructor
  · intro h
    split at h
    · exact absurd h (by simp)
    · rename_i hr
      push Not at hr
      split at h
      · rename_i hc
        rw [Option.some_inj] at h
        subst h
        refine ⟨hr.1, hr.2, (tri_edges_iff hn hpl).1 hc, ?_⟩
        intro s _ hlt hs
        have := uniq s hs
        linarith
      · exact absurd h (by simp)
  · rintro ⟨h0, h1, hs, -⟩
    have := uniq t hs
    rw [← this, if_neg (by push Not; exact ⟨h0, h1⟩),
      if_pos ((tri_edges_iff hn (plane _ hs)).2 hs)]

/-- **Finding.** A segment in the plane of a triangle which starts outside of it and crosses it is reported as
not intersecting: only the first end point is tested. -/
theorem segment_triangle_refuted (eps : ℝ) (he : 0 ≤ eps) : ¬ SegmentTriangleFull eps := by
  intro h
  have hn : Tri.Normal ⟨⟨0, 0, 0⟩, ⟨1, 0, 0⟩, ⟨0, 1, 0⟩⟩ ⟨0, 0, 1⟩ := by
    refine ⟨by simp [lengthSqr, dot], 1, by norm_num, ?_⟩
    ext <;> simp
  have h1 := (h ⟨-1, 0, 0⟩ ⟨1, 0, 0⟩ _ _ hn (1 / 2)).2 (by
    refine ⟨by norm_num, by norm_num, ?_, ?_⟩
    · have : along ⟨-1, 0, 0⟩ ⟨1, 0, 0⟩ (1 / 2) = (⟨0, 0, 0⟩ : V3 ℝ) := by ext <;> simp [along]; norm_num
      rw [this]
      exact .vertex (by simp)
    · intro s hs hlt hh
      have : ∀ x : V3 ℝ, Hull [⟨0, 0, 0⟩, ⟨1, 0, 0⟩, ⟨0, 1, 0⟩] x → 0 ≤ x.x := by
        intro x hx
        induction hx with
        | vertex h =>
          simp only [List.mem_cons, List.not_mem_nil, or_false] at h
          rcases h with rfl | rfl | rfl <;> simp
        | between t _ _ h0 h1 ih1 ih2 =>
          simp; nlinarith
      have := this _ hh
      simp [along] at this
      linarith)
  unfold segmentTriangle at h1
  simp only at h1
  rw [if_neg (by simp [dot]; exact he), if_neg (by simp [dot]; exact he), if_neg (by norm_num),
    if_neg (by simp [edgeIn, dot, along])] at h1
  simp at h1

/-- A segment through a triangle. -/
example : segmentTriangle (1 / 100) ⟨1 / 4, 1 / 4, 1⟩ ⟨1 / 4, 1 / 4, -1⟩ ⟨⟨0, 0, 0⟩, ⟨1, 0, 0⟩, ⟨0, 1, 0⟩⟩ ⟨0, 0, 1⟩
    = some (1 / 2) := by
  unfold segmentTriangle
  simp only
  rw [if_pos (by simp [dot]; norm_num), if_neg (by simp [dot]; norm_num),
    if_pos (by simp [edgeIn, dot, along]; norm_num)]
  simp [dot]; norm_num

/-! ## Points and triangles -/

/-- **C72, point and triangle.** For a triangle whose area is not below the tolerance, the test accepts every
point which lies over (or under) a point of the triangle, and nothing farther outside of the line of an edge than
the tolerance divided by the length of the edge; the normal may be on either side. -/
theorem point_in_triangle (eps : ℝ) (he : 0 < eps) (tr : Tri) (n p : V3 ℝ) (hn : tr.Normal n)
    (ha : 9 * (eps * eps) ≤ lengthSqr (cross (tr.v1 - tr.v0) (tr.v2 - tr.v0))) (m : V3 ℝ) (hm : m = n ∨ m = -n) :
    (∀ h, tr.Has (p + smul h n) → pointInTriangle eps tr m p) ∧
    (pointInTriangle eps tr m p →
      dot (p - tr.v0) (cross (tr.v1 - tr.v0) n) < eps ∧ dot (p - tr.v1) (cross (tr.v2 - tr.v1) n) < eps ∧
      dot (p - tr.v2) (cross (tr.v0 - tr.v2) n) < eps) := by
  obtain ⟨h1, c, hc, hN⟩ := id hn
  have hcn : c = dot (cross (tr.v1 - tr.v0) (tr.v2 - tr.v0)) n := by
    rw [hN]
    have : dot (smul c n) n = c * lengthSqr n := by simp [lengthSqr, dot]; ring
    rw [this, h1, mul_one]
  have hc3 : 3 * eps ≤ c := by
    rw [hN] at ha
    have : lengthSqr (smul c n) = c * c * lengthSqr n := by simp [lengthSqr, dot]; ring
    rw [this, h1] at ha
    nlinarith
  set d0 := dot (cross (tr.v1 - tr.v0) n) (p - tr.v0) with hd0
  set d1 := dot (cross (tr.v2 - tr.v1) n) (p - tr.v1) with hd1
  set d2 := dot (cross (tr.v0 - tr.v2) n) (p - tr.v2) with hd2
  have hsum : d0 + d1 + d2 = -c := by
    rw [hcn]; simp [hd0, hd1, hd2, dot]; ring
  have hmodel : pointInTriangle eps tr m p ↔ (d0 < eps ∧ d1 < eps ∧ d2 < eps) := by
    unfold pointInTriangle
    simp only
    rcases hm with rfl | rfl
    · rw [← hd0, ← hd1, ← hd2]
      constructor
      · rintro (⟨a, b, c'⟩ | h)
        · exfalso; linarith
        · exact h
      · exact .inr
    · have f0 : dot (cross (tr.v1 - tr.v0) (-n)) (p - tr.v0) = -d0 := by simp [hd0, dot]; ring
      have f1 : dot (cross (tr.v2 - tr.v1) (-n)) (p - tr.v1) = -d1 := by simp [hd1, dot]; ring
      have f2 : dot (cross (tr.v0 - tr.v2) (-n)) (p - tr.v2) = -d2 := by simp [hd2, dot]; ring
      rw [f0, f1, f2]
      constructor
      · rintro (⟨a, b, c'⟩ | ⟨a, b, c'⟩)
        · exact ⟨by linarith, by linarith, by linarith⟩
        · exfalso; linarith
      · rintro ⟨a, b, c'⟩
        exact .inl ⟨by linarith, by linarith, by linarith⟩
  constructor
  · intro h hh
    rw [hmodel]
    have hp : dot (tr.v0 - (p + smul h n)) n = 0 := by
      have orth : ∀ u ∈ [tr.v0, tr.v1, tr.v2], dot (tr.v0 - u) n = 0 := by
        intro u hu
        have e : ∀ y, c * dot y n = dot y (cross (tr.v1 - tr.v0) (tr.v2 - tr.v0)) := by
          intro y; rw [hN]; simp [dot]; ring
        have h0 : c * dot (tr.v0 - u) n = 0 := by
          rw [e]
          simp only [List.mem_cons, List.not_mem_nil, or_false] at hu
          rcases hu with rfl | rfl | rfl <;> simp [dot] <;> ring
        rcases mul_eq_zero.1 h0 with h | h
        · exact absurd h hc.ne'
        · exact h
      have : ∀ x, Hull [tr.v0, tr.v1, tr.v2] x → dot (tr.v0 - x) n = 0 := by
        intro x hx
        induction hx with
        | vertex h => exact orth _ h
        | between t _ _ _ _ ih1 ih2 =>
          rename_i x y _ _ _ _
          have : dot (tr.v0 - (x + smul t (y - x))) n = (1 - t) * dot (tr.v0 - x) n + t * dot (tr.v0 - y) n := by
            simp [dot]; ring
          rw [this, ih1, ih2]; ring
      exact this _ hh
    obtain ⟨a0, a1, a2⟩ := (tri_edges_iff hn hp).2 hh
    simp only [edgeIn, not_lt] at a0 a1 a2
    have f0 : dot (cross n (tr.v1 - tr.v0)) (p + smul h n - tr.v0) = -d0 := by simp [hd0, dot]; ring
    have f1 : dot (cross n (tr.v2 - tr.v1)) (p + smul h n - tr.v1) = -d1 := by simp [hd1, dot]; ring
    have f2 : dot (cross n (tr.v0 - tr.v2)) (p + smul h n - tr.v2) = -d2 := by simp [hd2, dot]; ring
    rw [f0] at a0
    rw [f1] at a1
    rw [f2] at a2
    exact ⟨by linarith, by linarith, by linarith⟩
  · rw [hmodel, dot_comm (p - tr.v0), dot_comm (p - tr.v1), dot_comm (p - tr.v2)]
    exact id

/-- **C72, point and polygon.** For a convex polygon wound counter-clockwise about the normal, the test accepts
every point which lies over (or under) a point of the polygon, and nothing farther outside of the line of an edge
than the tolerance divided by the length of the edge. -/
theorem point_in_prism (eps : ℝ) (he : 0 ≤ eps) (vs : List (V3 ℝ)) (n p : V3 ℝ) (hlen : 2 < vs.length)
    (hconv : ∀ i (v w u : V3 ℝ), vs[i]? = some v → vs[(i + 1) % vs.length]? = some w → u ∈ vs →
      dot (u - v) (cross (w - v) n) ≤ 0) :
    ∃ P, pointInPrism eps vs n p = some P ∧ (∀ h, Hull vs (p + smul h n) → P) ∧
      (P → ∀ i v w, vs[i]? = some v → vs[(i + 1) % vs.length]? = some w → dot (p - v) (cross (w - v) n) ≤ eps) := by
  refine ⟨_, by unfold pointInPrism; rw [if_pos hlen], ?_, ?_⟩
  · intro h hh i v w hv hw
    have : ∀ x, Hull vs x → dot (x - v) (cross (w - v) n) ≤ 0 := by
      intro x hx
      induction hx with
      | vertex h => exact hconv i v w _ hv hw h
      | between t _ _ h0 h1 ih1 ih2 =>
        rename_i x y _ _
        have : dot (x + smul t (y - x) - v) (cross (w - v) n)
            = (1 - t) * dot (x - v) (cross (w - v) n) + t * dot (y - v) (cross (w - v) n) := by
          simp [dot]; ring
        rw [this]
        have := mul_nonpos_of_nonneg_of_nonpos (sub_nonneg.2 h1) ih1
        have := mul_nonpos_of_nonneg_of_nonpos h0 ih2
        linarith
    have h2 := this _ hh
    have : dot (p + smul h n - v) (cross (w - v) n) = dot (p - v) (cross (w - v) n) := by simp [dot]; ring
    rw [this] at h2
    linarith
  · intro hP i v w hv hw
    exact not_lt.1 (hP i v w hv hw)

/-- Fewer than three vertices fail the assertion. -/
theorem point_in_prism_few (eps : ℝ) (vs : List (V3 ℝ)) (n p : V3 ℝ) (hlen : vs.length ≤ 2) :
    pointInPrism eps vs n p = none := by
  unfold pointInPrism
  rw [if_neg (by omega)]

/-- The unit square meets the hypothesis. -/
example : ∀ i (v w u : V3 ℝ), ([⟨0, 0, 0⟩, ⟨1, 0, 0⟩, ⟨1, 1, 0⟩, ⟨0, 1, 0⟩] : List (V3 ℝ))[i]? = some v →
    ([⟨0, 0, 0⟩, ⟨1, 0, 0⟩, ⟨1, 1, 0⟩, ⟨0, 1, 0⟩] : List (V3 ℝ))[(i + 1) % 4]? = some w →
    u ∈ ([⟨0, 0, 0⟩, ⟨1, 0, 0⟩, ⟨1, 1, 0⟩, ⟨0, 1, 0⟩] : List (V3 ℝ)) →
      dot (u - v) (cross (w - v) ⟨0, 0, 1⟩) ≤ 0 := by
  intro i v w u hv hw hu
  simp only [List.mem_cons, List.not_mem_nil, or_false] at hu
  match i with
  | 0 | 1 | 2 | 3 =>
    simp at hv hw
    subst hv; subst hw
    rcases hu with rfl | rfl | rfl | rfl <;> simp [dot]
  | i + 4 => simp at hv

/-- A right triangle and its normal meet the hypotheses. -/
example : Tri.Normal ⟨⟨0, 0, 0⟩, ⟨1, 0, 0⟩, ⟨0, 1, 0⟩⟩ ⟨0, 0, 1⟩ ∧
    9 * ((1 / 100 : ℝ) * (1 / 100)) ≤ lengthSqr (cross ((⟨1, 0, 0⟩ : V3 ℝ) - ⟨0, 0, 0⟩) (⟨0, 1, 0⟩ - ⟨0, 0, 0⟩)) := by
  refine ⟨⟨by simp [lengthSqr, dot], 1, by norm_num, ?_⟩, ?_⟩
  · ext <;> simp
  · simp [lengthSqr, dot]; norm_num

end Edyn.Geom
