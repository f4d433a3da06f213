import Verif.Collide.PolyDir

/-!
# Contacts between two polyhedra: the points (C94)
-/

namespace Edyn.Collide

open Edyn.Math hiding lengthSqr_nonneg
open V3 Edyn.Geom Edyn.Geom.Poly Edyn.Contact

/-! ## Specification -/

/-- Consecutive elements of a closed sequence. -/
def Side {α : Type} (l : List α) (v w : α) : Prop := ∃ i : ℕ, l[i]? = some v ∧ l[(i + 1) % l.length]? = some w

/-- How far the point is to the outside of the side from `v` to `w`, seen against the direction, times the length of
the side. -/
noncomputable def beyond (n v w p : V3 ℝ) : ℝ := dot (p - v) (cross (w - v) n)

/-- The outline of the points in the set which are within the tolerance of the plane at height `h`, seen along the
direction: at least three different ones of these points, and none of them is clearly outside. -/
structure Outline (V : V3 ℝ → Prop) (n : V3 ℝ) (near : ℝ → Prop) (l : List (V3 ℝ)) : Prop where
  three : 2 < l.length
  of : ∀ v ∈ l, V v ∧ near (dot v n)
  around : ∀ v w, Side l v w → ∀ u, V u → near (dot u n) → beyond n v w u ≤ 1 / 1000

/-- How the pivots of a point are opposite to each other: a vertex of the first shape inside of the outline of the
second one, a vertex of the second one inside of the outline of the first one, or points on sides of both.  In the last
case they are on one line along the normal unless the sides are almost parallel. -/
inductive Opposite (eps : ℝ) (VA VB : V3 ℝ → Prop) (n : V3 ℝ) (nearA nearB : ℝ → Prop) (wA wB : V3 ℝ) : Prop
  | vertexA (s : ℝ) (l : List (V3 ℝ)) : VA wA → wA - wB = smul s n → Outline VB n nearB l →
      (∀ v w, Side l v w → beyond n v w wA ≤ eps) → Opposite eps VA VB n nearA nearB wA wB
  | vertexB (s : ℝ) (l : List (V3 ℝ)) : VB wB → wA - wB = smul s n → Outline VA n nearA l →
      (∀ v w, Side l v w → beyond n v w wB ≤ eps) → Opposite eps VA VB n nearA nearB wA wB
  | sides (a0 a1 b0 b1 : V3 ℝ) (s t : ℝ) : VA a0 → VA a1 → VB b0 → VB b1 → 0 ≤ s → s ≤ 1 → 0 ≤ t → t ≤ 1 →
      wA = a0 + smul s (a1 - a0) → wB = b0 + smul t (b1 - b0) →
      ((∃ r, wA - wB = smul r n) ∨ |dot (cross (a1 - a0) (b1 - b0)) n| ≤ eps) → Opposite eps VA VB n nearA nearB wA wB

/-- A feature of a shape seen along the direction: some of the points within the tolerance, and their outline if there are
more than two. -/
structure Feature (V : V3 ℝ → Prop) (n : V3 ℝ) (near : ℝ → Prop) (l : List (V3 ℝ)) : Prop where
  nonempty : l ≠ []
  of : ∀ v ∈ l, V v ∧ near (dot v n)
  outline : 2 < l.length → Outline V n near l

/-- Two features clearly meet as seen along the direction: a vertex of one is inside of the other one, or two sides cross. -/
inductive Meets (eps : ℝ) (n : V3 ℝ) (lA lB : List (V3 ℝ)) : Prop
  | vertexA (v : V3 ℝ) : v ∈ lA → 2 < lB.length → (∀ u w, Side lB u w → beyond n u w v ≤ eps) → Meets eps n lA lB
  | vertexB (v : V3 ℝ) : v ∈ lB → 2 < lA.length → (∀ u w, Side lA u w → beyond n u w v ≤ eps) → Meets eps n lA lB
  | sides (a0 a1 b0 b1 : V3 ℝ) (s t r : ℝ) : Side lA a0 a1 → Side lB b0 b1 → 0 ≤ s → s ≤ 1 → 0 ≤ t → t ≤ 1 →
      (a0 + smul s (a1 - a0)) - (b0 + smul t (b1 - b0)) = smul r n → eps < |dot (cross (a1 - a0) (b1 - b0)) n| → Meets eps n lA lB

/-! ## Coordinates in the plane -/

theorem planar_perp {n : V3 ℝ} (hn : lengthSqr n = 1) (u v : V3 ℝ) :
    dot u (planeSpace n).1 * dot v (planeSpace n).2 - dot u (planeSpace n).2 * dot v (planeSpace n).1 = dot (cross u v) n := by
  obtain ⟨h1, h2, h3, h4, h5, h6⟩ := planeSpace_orthonormal n hn
  generalize (planeSpace n).1 = p at *
  generalize (planeSpace n).2 = q at *
  subst h6
  have e : dot u p * dot v (cross n p) - dot u (cross n p) * dot v p = dot (cross u v) (cross p (cross n p)) := by
    simp [dot, cross]; ring
  have e2 : cross p (cross n p) = smul (lengthSqr p) n - smul (dot n p) p := by
    ext <;> simp [dot, cross, lengthSqr] <;> ring
  rw [e, e2, h1, h3]
  congr 1
  ext <;> simp

theorem outArea_beyond {n : V3 ℝ} (hn : lengthSqr n = 1) (o v w u : V3 ℝ) :
    outArea (planar n o v) (planar n o w) (planar n o u) = beyond n v w u := by
  have : beyond n v w u = dot (cross (u - v) (w - v)) n := by
    simp [beyond, dot, cross]; ring
  rw [this, ← planar_perp hn]
  simp only [outArea, planar, dot_sub_left]; ring

/-- Points with the same coordinates in the plane are on one line along the direction. -/
theorem planar_inj {n : V3 ℝ} (hn : lengthSqr n = 1) {o o' v w : V3 ℝ} (s t : ℝ) (ho : o = smul s n) (ho' : o' = smul t n)
    (h : planar n o v = planar n o' w) : v - w = smul (dot (v - w) n) n := by
  obtain ⟨h1, h2, h3, h4, h5, h6⟩ := planeSpace_orthonormal n hn
  have hx := congrArg V2.x h
  have hy := congrArg V2.y h
  simp only [planar, dot_sub_left, ho, ho', dot_smul_left, h3, h4, mul_zero, sub_zero] at hx hy
  generalize (planeSpace n).1 = p at *
  generalize (planeSpace n).2 = q at *
  subst h6
  have dx : dot (v - w) p = 0 := by rw [dot_sub_left]; linarith
  have dy : dot (v - w) (cross n p) = 0 := by rw [dot_sub_left]; linarith
  generalize v - w = d at *
  have e : smul (lengthSqr n * lengthSqr p - dot n p * dot n p) d =
      smul (dot d n * lengthSqr p - dot d p * dot n p) n + smul (dot d p * lengthSqr n - dot d n * dot n p) p + smul (dot d (cross n p)) (cross n p) := by
    ext <;> simp [dot, cross, lengthSqr] <;> ring
  rw [hn, h1, h3, dx, dy] at e
  ext
  · have := congrArg V3.x e; simp at this; simpa using this
  · have := congrArg V3.y e; simp at this; simpa using this
  · have := congrArg V3.z e; simp at this; simpa using this

theorem planar_along {n o v w : V3 ℝ} (t : ℝ) : planar n o (along v w t) = along2 (planar n o v) (planar n o w) t := by
  ext <;> simp only [planar, along, along2, dot_sub_left, dot_add_left, dot_smul_left] <;> ring

/-- The parameters of the intersections of two segments. -/
theorem segments2_range {eps : ℝ} {p0 p1 q0 q1 : V2} {st : ℝ × ℝ} (h : st ∈ segments2 eps p0 p1 q0 q1) (he : 0 ≤ eps) :
    (0 ≤ st.1 ∧ st.1 ≤ 1) ∧ (0 ≤ st.2 ∧ st.2 ≤ 1) ∧
      (along2 p0 p1 st.1 = along2 q0 q1 st.2 ∨ |perp2 (sub2 p1 p0) (sub2 q1 q0)| ≤ eps) := by
  have cl : ∀ x : ℝ, 0 ≤ clampUnit x ∧ clampUnit x ≤ 1 := by
    intro x; unfold clampUnit
    split_ifs with h1 h2
    · norm_num
    · norm_num
    · exact ⟨not_lt.mp h1, not_lt.mp h2⟩
  unfold segments2 at h
  simp only at h
  split_ifs at h with h1 h2 h3 h4 h5
  · simp at h
  · simp only [List.mem_singleton] at h
    subst h
    push Not at h2
    refine ⟨⟨h2.1, h2.2.1⟩, ⟨h2.2.2.1, h2.2.2.2⟩, .inl ?_⟩
    have hne : perp2 (sub2 p1 p0) (sub2 q1 q0) ≠ 0 := by
      intro h0; rw [h0, abs_zero] at h1; linarith
    have hr : perp2 (sub2 p1 p0) (sub2 q1 q0) * (1 / perp2 (sub2 p1 p0) (sub2 q1 q0)) = 1 := by field_simp
    generalize 1 / perp2 (sub2 p1 p0) (sub2 q1 q0) = r at hr ⊢
    simp only [perp2, sub2] at hr ⊢
    ext <;> simp only [along2]
    · linear_combination (q0.x - p0.x) * hr
    · linear_combination (q0.y - p0.y) * hr
  · simp at h
  · simp only [List.mem_singleton] at h
    subst h
    exact ⟨cl _, cl _, .inr (not_lt.mp h1)⟩
  · simp only [List.mem_cons, List.not_mem_nil, or_false] at h
    rcases h with rfl | rfl
    · exact ⟨cl _, cl _, .inr (not_lt.mp h1)⟩
    · exact ⟨cl _, cl _, .inr (not_lt.mp h1)⟩
  · simp at h

/-- If two segments cross and are not almost parallel, there is an intersection. -/
theorem segments2_cross {eps : ℝ} {p0 p1 q0 q1 : V2} {s t : ℝ} (he : 0 ≤ eps) (s0 : 0 ≤ s) (s1 : s ≤ 1) (t0 : 0 ≤ t) (t1 : t ≤ 1)
    (h : along2 p0 p1 s = along2 q0 q1 t) (hp : eps < |perp2 (sub2 p1 p0) (sub2 q1 q0)|) : (s, t) ∈ segments2 eps p0 p1 q0 q1 := by
  have hne : perp2 (sub2 p1 p0) (sub2 q1 q0) ≠ 0 := by
    intro h0; rw [h0, abs_zero] at hp; linarith
  have hx := congrArg V2.x h
  have hy := congrArg V2.y h
  simp only [along2] at hx hy
  have es : perp2 (sub2 q0 p0) (sub2 q1 q0) * (1 / perp2 (sub2 p1 p0) (sub2 q1 q0)) = s := by
    rw [mul_one_div, div_eq_iff hne]
    simp only [perp2, sub2]
    linear_combination (q1.x - q0.x) * hy - (q1.y - q0.y) * hx
  have et : perp2 (sub2 q0 p0) (sub2 p1 p0) * (1 / perp2 (sub2 p1 p0) (sub2 q1 q0)) = t := by
    rw [mul_one_div, div_eq_iff hne]
    simp only [perp2, sub2]
    linear_combination (p1.x - p0.x) * hy - (p1.y - p0.y) * hx
  unfold segments2
  simp only
  rw [if_pos hp, es, et, if_neg]
  · simp
  · push Not; exact ⟨s0, s1, t0, t1⟩

/-! ## The hull of a support polygon -/

theorem hull_outline (pts : List V2) (tol : ℝ) (ht : 0 < tol) {k : ℕ} (hk : pts.length < k) {hull : List ℕ}
    (h : convexHull2 k pts tol = some hull) (h3 : 2 < hull.length) :
    ∀ i j, Follows hull i j → ∀ a b, pts[i]? = some a → pts[j]? = some b → ∀ p ∈ pts, outArea a b p ≤ tol := by
  rcases pts with _ | ⟨a, _ | ⟨b, _ | ⟨c, _ | ⟨d, rest⟩⟩⟩⟩
  · simp only [convexHull2, Option.some.injEq] at h
    subst h; simp at h3
  · simp only [convexHull2, Option.some.injEq] at h
    subst h; simp at h3
  · simp only [convexHull2, Option.some.injEq] at h
    subst h; simp at h3
  · obtain ⟨hull', e1, -, -, e2⟩ := (convex_hull_small k tol).1 a b c
    rw [e1] at h; cases h
    intro i j f u v hu hv p hp
    exact (e2 i j f u v hu hv p hp).trans ht.le
  · have h4 : 4 ≤ (a :: b :: c :: d :: rest).length := by simp
    generalize a :: b :: c :: d :: rest = pts at *
    by_cases hw : ∃ p ∈ pts, ∃ q ∈ pts, tol ≤ p.x - q.x
    · obtain ⟨hull', h1, -, -, -, h5⟩ := convex_hull_partial pts tol ht h4 hw
      rw [h1 k hk] at h; cases h
      exact h5
    · push Not at hw
      obtain ⟨i, j, hi, lo, e1, -⟩ := (convex_hull_small k tol).2 pts h4 hw
      rw [e1] at h; cases h; simp at h3

theorem corners_spec (g : Polygon) (dir : V3 ℝ) (hp : g.plane = g.verts.map (planar dir g.origin))
    (hr : ∀ i ∈ g.hull, i < g.verts.length) :
    ∃ cs, g.corners = some cs ∧ cs.length = g.hull.length ∧
      (∀ (i : ℕ) (c : V3 ℝ × V2), cs[i]? = some c → ∃ j, g.hull[i]? = some j ∧ g.verts[j]? = some c.1 ∧ g.plane[j]? = some c.2 ∧ c.2 = planar dir g.origin c.1) := by
  unfold Polygon.corners
  generalize g.hull = is at *
  induction is with
  | nil => exact ⟨[], rfl, rfl, by simp⟩
  | cons i is ih =>
    obtain ⟨cs, h1, h2, h3⟩ := ih fun j hj => hr j (List.mem_cons_of_mem _ hj)
    have hi := hr i List.mem_cons_self
    have hpi : g.plane[i]? = some (planar dir g.origin g.verts[i]) := by
      rw [hp, List.getElem?_map, List.getElem?_eq_getElem hi]; rfl
    refine ⟨(g.verts[i], planar dir g.origin g.verts[i]) :: cs, ?_, by simp [h2], ?_⟩
    · rw [List.mapM_cons, List.getElem?_eq_getElem hi, Option.bind_some, hpi, h1]; rfl
    · intro n c hc
      cases n with
      | zero =>
        simp only [List.getElem?_cons_zero, Option.some.injEq] at hc
        subst hc
        exact ⟨i, rfl, List.getElem?_eq_getElem hi, hpi, rfl⟩
      | succ n => simpa using h3 n c (by simpa using hc)

theorem inPrism_spec {eps : ℝ} {l : List (V3 ℝ)} {n : V3 ℝ} (h : 2 < l.length) (ps : List (V3 ℝ)) :
    ∃ r, inPrism eps l n ps = some r ∧ ∀ p, p ∈ r ↔ p ∈ ps ∧ ∀ v w, Side l v w → beyond n v w p ≤ eps := by
  classical
  induction ps with
  | nil => exact ⟨[], rfl, by simp⟩
  | cons p ps ih =>
    obtain ⟨r, h1, h2⟩ := ih
    have e : pointInPrism eps l n p = some (∀ i, ∀ v w, l[i]? = some v → l[(i + 1) % l.length]? = some w →
      ¬ eps < dot (p - v) (cross (w - v) n)) := by unfold pointInPrism; rw [if_pos h]
    have eq : (∀ i, ∀ v w, l[i]? = some v → l[(i + 1) % l.length]? = some w →
      ¬ eps < dot (p - v) (cross (w - v) n)) ↔ ∀ v w, Side l v w → beyond n v w p ≤ eps := by
      constructor
      · rintro h v w ⟨i, a, b⟩; exact not_lt.mp (h i v w a b)
      · intro h i v w a b; exact not_lt.mpr (h v w ⟨i, a, b⟩)
    refine ⟨if (∀ i, ∀ v w, l[i]? = some v → l[(i + 1) % l.length]? = some w →
      ¬ eps < dot (p - v) (cross (w - v) n)) then p :: r else r, ?_, ?_⟩
    · unfold inPrism
      rw [e, Option.bind_some, h1, Option.map_some]
    · intro q
      split
      · rename_i hP
        rw [eq] at hP
        rw [List.mem_cons, List.mem_cons, h2]
        constructor
        · rintro (rfl | h)
          · exact ⟨.inl rfl, hP⟩
          · exact ⟨.inr h.1, h.2⟩
        · rintro ⟨rfl | h, h'⟩
          · exact .inl rfl
          · exact .inr ⟨h, h'⟩
      · rename_i hP
        rw [eq] at hP
        rw [List.mem_cons, h2]
        constructor
        · intro h; exact ⟨.inr h.1, h.2⟩
        · rintro ⟨rfl | h, h'⟩
          · exact absurd h' hP
          · exact ⟨h, h'⟩

theorem ring_mem {α : Type} {l : List α} {a b : α} (h : (a, b) ∈ ring l) : a ∈ l ∧ b ∈ l := by
  unfold ring at h
  simp only [List.mem_filterMap, Option.bind_eq_some_iff, Option.map_eq_some_iff, Prod.mk.injEq] at h
  obtain ⟨i, -, x, hx, y, hy, rfl, rfl⟩ := h
  exact ⟨List.mem_of_getElem? hx, List.mem_of_getElem? hy⟩

theorem side_ring {α : Type} {l : List α} {a b : α} (h : Side l a b) : (a, b) ∈ ring l ∨ (l.length = 2 ∧ (b, a) ∈ ring l) := by
  obtain ⟨i, h1, h2⟩ := h
  have hi : i < l.length := (List.getElem?_eq_some_iff.mp h1).1
  unfold ring
  by_cases hl : l.length = 2
  · rw [if_pos hl]
    simp only [List.mem_filterMap, Option.bind_eq_some_iff, Option.map_eq_some_iff, Prod.mk.injEq, List.mem_range]
    have : i = 0 ∨ i = 1 := by omega
    rcases this with rfl | rfl
    · exact .inl ⟨0, by omega, a, h1, b, h2, rfl, rfl⟩
    · refine .inr ⟨hl, 0, by omega, b, ?_, a, ?_, rfl, rfl⟩
      · rw [hl] at h2; exact h2
      · rw [hl]; exact h1
  · rw [if_neg hl]
    simp only [List.mem_filterMap, Option.bind_eq_some_iff, Option.map_eq_some_iff, Prod.mk.injEq, List.mem_range]
    exact .inl ⟨i, hi, a, h1, b, h2, rfl, rfl⟩

theorem side_map {α β : Type} {f : α → β} {l : List α} {v w : β} (h : Side (l.map f) v w) :
    ∃ v' w', v = f v' ∧ w = f w' ∧ Side l v' w' := by
  obtain ⟨i, hi, hj⟩ := h
  rw [List.length_map, List.getElem?_map] at hj
  rw [List.getElem?_map] at hi
  obtain ⟨v', hv', rfl⟩ := Option.map_eq_some_iff.mp hi
  obtain ⟨w', hw', rfl⟩ := Option.map_eq_some_iff.mp hj
  exact ⟨v', w', rfl, rfl, i, hv', hw'⟩

/-! ## The pairs of points -/

/-- What `supportPolygon` gives, for the pairs of points. -/
structure IsPolygon (V : V3 ℝ → Prop) (n : V3 ℝ) (near : ℝ → Prop) (g : Polygon) (proj : ℝ) : Prop where
  origin : g.origin = smul proj n
  verts : ∀ w, w ∈ g.verts ↔ V w ∧ near (dot w n)
  plane : g.plane = g.verts.map (planar n g.origin)
  range : ∀ i ∈ g.hull, i < g.verts.length
  hull : ∃ k, g.plane.length < k ∧ convexHull2 k g.plane (1 / 1000) = some g.hull
  nonempty : g.hull ≠ []

theorem support_isPolygon {pts : List (V3 ℝ)} {offset dir : V3 ℝ} {proj tol : ℝ} {positive : Bool} {kh : ℕ} (ht : 0 < tol)
    (hk : pts.length < kh) (hp : ∃ v ∈ pts, dot (v + offset) dir = proj) :
    ∃ g, supportPolygon kh pts offset dir proj positive tol = some g ∧
      IsPolygon (fun w => ∃ v ∈ pts, w = v + offset) dir (fun h => if positive then h < proj + tol else proj - tol < h) g proj := by
  obtain ⟨g, g1, g2, g3, g4, g5, g6⟩ := support_polygon_spec pts offset dir proj positive tol ht hp
  have hg := g1 kh hk
  refine ⟨g, hg, g3, g5, g4, g6, ⟨kh, ?_⟩, g2⟩
  unfold supportPolygon at hg
  simp only at hg
  generalize hvs : List.filter _ (pts.map (· + offset)) = vs at hg
  have hle : vs.length ≤ pts.length := by
    rw [← hvs]; exact (List.length_filter_le _ _).trans (by rw [List.length_map])
  by_cases h0 : vs = []
  · rw [if_pos h0] at hg; simp at hg
  · rw [if_neg h0] at hg
    obtain ⟨hull, h1, rfl⟩ := Option.map_eq_some_iff.mp hg
    exact ⟨by simp only [List.length_map]; omega, h1⟩

theorem IsPolygon.outline {V : V3 ℝ → Prop} {n : V3 ℝ} {near : ℝ → Prop} {g : Polygon} {proj : ℝ} (h : IsPolygon V n near g proj)
    (hn : lengthSqr n = 1) :
    ∃ cs, g.corners = some cs ∧ (∀ c ∈ cs, V c.1 ∧ near (dot c.1 n) ∧ c.2 = planar n g.origin c.1) ∧
      cs.length = g.hull.length ∧ (2 < g.hull.length → Outline V n near (cs.map (·.1))) := by
  obtain ⟨cs, h1, h2, h3⟩ := corners_spec g n h.plane h.range
  have hc : ∀ c ∈ cs, V c.1 ∧ near (dot c.1 n) ∧ c.2 = planar n g.origin c.1 := by
    intro c hc
    obtain ⟨i, hi⟩ := List.getElem?_of_mem hc
    obtain ⟨j, e1, e2, e3, e4⟩ := h3 i c hi
    obtain ⟨a, b⟩ := (h.verts c.1).mp (List.mem_of_getElem? e2)
    exact ⟨a, b, e4⟩
  refine ⟨cs, h1, hc, h2, fun hlen => ⟨by rw [List.length_map, h2]; exact hlen, ?_, ?_⟩⟩
  · intro v hv
    obtain ⟨c, hc', rfl⟩ := List.mem_map.mp hv
    exact ⟨(hc c hc').1, (hc c hc').2.1⟩
  · rintro v w ⟨i, hi, hj⟩ u hu hnear
    rw [List.length_map, List.getElem?_map] at hj
    rw [List.getElem?_map] at hi
    obtain ⟨c, ci, rfl⟩ := Option.map_eq_some_iff.mp hi
    obtain ⟨d, di, rfl⟩ := Option.map_eq_some_iff.mp hj
    obtain ⟨a, a1, a2, a3, a4⟩ := h3 _ c ci
    obtain ⟨b, b1, b2, b3, b4⟩ := h3 _ d di
    obtain ⟨k, k1, k2⟩ := h.hull
    have hu' : u ∈ g.verts := (h.verts u).mpr ⟨hu, hnear⟩
    have := hull_outline g.plane (1 / 1000) (by norm_num) k1 k2 hlen a b ⟨i, a1, by rw [← h2]; exact b1⟩ c.2 d.2 a3 b3
      (planar n g.origin u) (by rw [h.plane]; exact List.mem_map_of_mem hu')
    rw [a4, b4, outArea_beyond hn] at this
    exact this

theorem poly_project_step {n : V3 ℝ} (hn : lengthSqr n = 1) (p : V3 ℝ) (h : ℝ) :
    p - projectPlane p (smul h n) n = smul (dot p n - h) n ∧ dot (projectPlane p (smul h n) n) n = h := by
  have hnn : dot n n = 1 := hn
  have e : dot (p - smul h n) n = dot p n - h := by rw [dot_sub_left, dot_smul_left, hnn]; ring
  constructor
  · unfold projectPlane; rw [e]; ext <;> simp
  · unfold projectPlane; rw [e, dot_sub_left, dot_smul_left, hnn]; ring

theorem along_height (a b n : V3 ℝ) (t : ℝ) : dot (along a b t) n = (1 - t) * dot a n + t * dot b n := by
  simp only [along, dot_add_left, dot_smul_left, dot_sub_left]; ring

/-- The pairs of points: they are found, each consists of opposite points close to the planes at which the shapes end. -/
theorem polyPairs_spec {VA VB : V3 ℝ → Prop} {x : Axis4} {tol eps : ℝ} (ht : 0 < tol) (he : 0 ≤ eps) (hn : lengthSqr x.dir = 1)
    {gA gB : Polygon} (hA : IsPolygon VA x.dir (fun h => h < x.projA + tol) gA x.projA)
    (hB : IsPolygon VB x.dir (fun h => x.projB - tol < h) gB x.projB)
    (lowA : ∀ v, VA v → x.projA ≤ dot v x.dir) (highB : ∀ v, VB v → dot v x.dir ≤ x.projB) :
    ∃ ps, polyPairs eps x gA gB = some ps ∧ (∀ q ∈ ps,
      Opposite eps VA VB x.dir (fun h => h < x.projA + tol) (fun h => x.projB - tol < h) q.1 q.2 ∧
      x.projA ≤ dot q.1 x.dir ∧ dot q.1 x.dir < x.projA + tol ∧ dot q.2 x.dir ≤ x.projB ∧ x.projB - tol < dot q.2 x.dir) ∧
      ∃ lA lB, Feature VA x.dir (fun h => h < x.projA + tol) lA ∧ Feature VB x.dir (fun h => x.projB - tol < h) lB ∧
        (Meets eps x.dir lA lB → ps ≠ []) := by
  obtain ⟨cA, a1, a2, a3, a4⟩ := hA.outline hn
  obtain ⟨cB, b1, b2, b3, b4⟩ := hB.outline hn
  have inB : ∃ r, (if 2 < gB.hull.length then inPrism eps (cB.map (·.1)) x.dir (cA.map (·.1)) else some []) = some r ∧
      ∀ p, p ∈ r ↔ 2 < gB.hull.length ∧ p ∈ cA.map (·.1) ∧ ∀ v w, Side (cB.map (·.1)) v w → beyond x.dir v w p ≤ eps := by
    by_cases h : 2 < gB.hull.length
    · rw [if_pos h]
      obtain ⟨r, r1, r2⟩ := inPrism_spec (eps := eps) (n := x.dir) (l := cB.map (·.1)) (by rw [List.length_map, b3]; exact h) (cA.map (·.1))
      exact ⟨r, r1, fun p => by rw [r2 p]; exact ⟨fun e => ⟨h, e⟩, fun e => e.2⟩⟩
    · rw [if_neg h]; exact ⟨[], rfl, by simp [h]⟩
  have inA : ∃ r, (if 2 < gA.hull.length then inPrism eps (cA.map (·.1)) x.dir (cB.map (·.1)) else some []) = some r ∧
      ∀ p, p ∈ r ↔ 2 < gA.hull.length ∧ p ∈ cB.map (·.1) ∧ ∀ v w, Side (cA.map (·.1)) v w → beyond x.dir v w p ≤ eps := by
    by_cases h : 2 < gA.hull.length
    · rw [if_pos h]
      obtain ⟨r, r1, r2⟩ := inPrism_spec (eps := eps) (n := x.dir) (l := cA.map (·.1)) (by rw [List.length_map, a3]; exact h) (cB.map (·.1))
      exact ⟨r, r1, fun p => by rw [r2 p]; exact ⟨fun e => ⟨h, e⟩, fun e => e.2⟩⟩
    · rw [if_neg h]; exact ⟨[], rfl, by simp [h]⟩
  obtain ⟨rB, rB1, rB2⟩ := inB
  obtain ⟨rA, rA1, rA2⟩ := inA
  unfold polyPairs
  rw [a1, b1, Option.bind_some, Option.bind_some, rB1, rA1, Option.bind_some, Option.map_some]
  refine ⟨_, rfl, ?_, cA.map (·.1), cB.map (·.1), ⟨?_, ?_, ?_⟩, ⟨?_, ?_, ?_⟩, ?_⟩
  rotate_left
  · intro h
    have := congrArg List.length h
    rw [List.length_map, a3, List.length_nil] at this
    exact hA.nonempty (List.length_eq_zero_iff.mp this)
  · intro v hv
    obtain ⟨c, hc, rfl⟩ := List.mem_map.mp hv
    exact ⟨(a2 c hc).1, (a2 c hc).2.1⟩
  · intro h; rw [List.length_map, a3] at h; exact a4 h
  · intro h
    have := congrArg List.length h
    rw [List.length_map, b3, List.length_nil] at this
    exact hB.nonempty (List.length_eq_zero_iff.mp this)
  · intro v hv
    obtain ⟨c, hc, rfl⟩ := List.mem_map.mp hv
    exact ⟨(b2 c hc).1, (b2 c hc).2.1⟩
  · intro h; rw [List.length_map, b3] at h; exact b4 h
  · intro hm
    apply List.ne_nil_of_length_pos
    rw [List.length_append, List.length_append, List.length_map, List.length_map]
    cases hm with
    | vertexA v h1 h2 h3 =>
      rw [List.length_map, b3] at h2
      have := List.length_pos_of_mem ((rB2 v).mpr ⟨h2, h1, h3⟩)
      omega
    | vertexB v h1 h2 h3 =>
      rw [List.length_map, a3] at h2
      have := List.length_pos_of_mem ((rA2 v).mpr ⟨h2, h1, h3⟩)
      omega
    | sides a0 a1 b0 b1 s t r h1 h2 s0 s1 t0 t1 hr hp =>
      obtain ⟨a0, a1, rfl, rfl, k1⟩ := side_map h1
      obtain ⟨b0, b1, rfl, rfl, k2⟩ := side_map h2
      have two : ∀ {l : List (V3 ℝ × V2)} {u v}, Side l u v → u ≠ v → 1 < l.length := by
        rintro l u v ⟨i, e1, e2⟩ hne
        by_contra hc
        have hi : i < l.length := (List.getElem?_eq_some_iff.mp e1).1
        have : l.length = 1 := by omega
        rw [this, Nat.mod_one] at e2
        have : i = 0 := by omega
        rw [this, e2] at e1
        exact hne (by cases e1; rfl)
      have na : a0 ≠ a1 := by
        rintro rfl
        have : dot (cross (a0.1 - a0.1) (b1.1 - b0.1)) x.dir = 0 := by simp [cross, dot]
        rw [this, abs_zero] at hp; linarith
      have nb : b0 ≠ b1 := by
        rintro rfl
        have : dot (cross (a1.1 - a0.1) (b0.1 - b0.1)) x.dir = 0 := by simp [cross, dot]
        rw [this, abs_zero] at hp; linarith
      have la := two k1 na
      have lb := two k2 nb
      rw [if_pos ⟨by rw [← a3]; exact la, by rw [← b3]; exact lb⟩]
      have key : ∀ a b : (V3 ℝ × V2) × (V3 ℝ × V2), a ∈ ring cA → b ∈ ring cB → ∀ s t r : ℝ, 0 ≤ s → s ≤ 1 → 0 ≤ t → t ≤ 1 →
          along a.1.1 a.2.1 s - along b.1.1 b.2.1 t = smul r x.dir → eps < |dot (cross (a.2.1 - a.1.1) (b.2.1 - b.1.1)) x.dir| →
          0 < ((ring cA).flatMap fun a => (ring cB).flatMap fun b =>
            (segments2 eps a.1.2 a.2.2 b.1.2 b.2.2).map fun st => (along a.1.1 a.2.1 st.1, along b.1.1 b.2.1 st.2)).length := by
        intro a b ha hb s t r s0 s1 t0 t1 hr hp
        obtain ⟨ha0, ha1⟩ := ring_mem (a := a.1) (b := a.2) ha
        obtain ⟨hb0, hb1⟩ := ring_mem (a := b.1) (b := b.2) hb
        obtain ⟨-, -, u3⟩ := a2 _ ha0
        obtain ⟨-, -, w3⟩ := a2 _ ha1
        obtain ⟨-, -, u3'⟩ := b2 _ hb0
        obtain ⟨-, -, w3'⟩ := b2 _ hb1
        have hst : (s, t) ∈ segments2 eps a.1.2 a.2.2 b.1.2 b.2.2 := by
          apply segments2_cross he s0 s1 t0 t1
          · rw [u3, w3, u3', w3', ← planar_along, ← planar_along]
            obtain ⟨-, -, o3, o4, -, -⟩ := planeSpace_orthonormal x.dir hn
            have d1 : dot (along a.1.1 a.2.1 s - along b.1.1 b.2.1 t) (planeSpace x.dir).1 = 0 := by
              rw [hr, dot_smul_left, o3, mul_zero]
            have d2 : dot (along a.1.1 a.2.1 s - along b.1.1 b.2.1 t) (planeSpace x.dir).2 = 0 := by
              rw [hr, dot_smul_left, o4, mul_zero]
            rw [dot_sub_left] at d1 d2
            ext <;> simp only [planar, dot_sub_left, hA.origin, hB.origin, dot_smul_left, o3, o4, mul_zero, sub_zero] <;> linarith
          · rw [← planar_perp hn] at hp
            rw [u3, w3, u3', w3']
            have : perp2 (sub2 (planar x.dir gA.origin a.2.1) (planar x.dir gA.origin a.1.1))
                (sub2 (planar x.dir gB.origin b.2.1) (planar x.dir gB.origin b.1.1)) =
                dot (a.2.1 - a.1.1) (planeSpace x.dir).1 * dot (b.2.1 - b.1.1) (planeSpace x.dir).2 -
                dot (a.2.1 - a.1.1) (planeSpace x.dir).2 * dot (b.2.1 - b.1.1) (planeSpace x.dir).1 := by
              simp only [perp2, sub2, planar, dot_sub_left]; ring
            rw [this]; exact hp
        exact List.length_pos_of_mem (List.mem_flatMap.mpr ⟨a, ha, List.mem_flatMap.mpr ⟨b, hb, List.mem_map_of_mem hst⟩⟩)
      have rev : ∀ (a b : V3 ℝ) (s : ℝ), along a b s = along b a (1 - s) := by
        intro a b s; ext <;> simp [along] <;> ring
      have hr' : along a0.1 a1.1 s - along b0.1 b1.1 t = smul r x.dir := hr
      have negA : |dot (cross (a0.1 - a1.1) (b1.1 - b0.1)) x.dir| = |dot (cross (a1.1 - a0.1) (b1.1 - b0.1)) x.dir| := by
        rw [← abs_neg]; congr 1; simp [cross, dot]; ring
      have negB : |dot (cross (a1.1 - a0.1) (b0.1 - b1.1)) x.dir| = |dot (cross (a1.1 - a0.1) (b1.1 - b0.1)) x.dir| := by
        rw [← abs_neg]; congr 1; simp [cross, dot]; ring
      have negAB : |dot (cross (a0.1 - a1.1) (b0.1 - b1.1)) x.dir| = |dot (cross (a1.1 - a0.1) (b1.1 - b0.1)) x.dir| := by
        congr 1; simp [cross, dot]; ring
      have : 0 < ((ring cA).flatMap fun a => (ring cB).flatMap fun b =>
            (segments2 eps a.1.2 a.2.2 b.1.2 b.2.2).map fun st => (along a.1.1 a.2.1 st.1, along b.1.1 b.2.1 st.2)).length := by
        rcases side_ring k1 with ra | ⟨-, ra⟩ <;> rcases side_ring k2 with rb | ⟨-, rb⟩
        · exact key _ _ ra rb s t r s0 s1 t0 t1 hr' hp
        · exact key _ _ ra rb s (1 - t) r s0 s1 (by linarith) (by linarith) (by rw [← rev]; exact hr') (by rw [negB]; exact hp)
        · exact key _ _ ra rb (1 - s) t r (by linarith) (by linarith) t0 t1 (by rw [← rev]; exact hr') (by rw [negA]; exact hp)
        · exact key _ _ ra rb (1 - s) (1 - t) r (by linarith) (by linarith) (by linarith) (by linarith)
            (by rw [← rev, ← rev]; exact hr') (by rw [negAB]; exact hp)
      omega
  intro q hq
  rw [List.mem_append, List.mem_append] at hq
  rcases hq with (hq | hq) | hq
  · obtain ⟨p, hp, rfl⟩ := List.mem_map.mp hq
    obtain ⟨h1, h2, h3⟩ := (rB2 p).mp hp
    obtain ⟨c, hc, rfl⟩ := List.mem_map.mp h2
    obtain ⟨v1, v2, -⟩ := a2 c hc
    obtain ⟨s1, s2⟩ := poly_project_step hn c.1 x.projB
    simp only [hB.origin]
    refine ⟨.vertexA _ _ v1 s1 (b4 h1) h3, lowA _ v1, v2, ?_, ?_⟩
    · rw [s2]
    · rw [s2]; linarith
  · obtain ⟨p, hp, rfl⟩ := List.mem_map.mp hq
    obtain ⟨h1, h2, h3⟩ := (rA2 p).mp hp
    obtain ⟨c, hc, rfl⟩ := List.mem_map.mp h2
    obtain ⟨v1, v2, -⟩ := b2 c hc
    obtain ⟨s1, s2⟩ := poly_project_step hn c.1 x.projA
    simp only [hA.origin]
    refine ⟨.vertexB (-(dot c.1 x.dir - x.projA)) _ v1 ?_ (a4 h1) h3, ?_, ?_, highB _ v1, v2⟩
    · have : projectPlane c.1 (smul x.projA x.dir) x.dir - c.1 = -(c.1 - projectPlane c.1 (smul x.projA x.dir) x.dir) := by
        ext <;> simp
      rw [this, s1]; ext <;> simp <;> ring
    · rw [s2]
    · rw [s2]; linarith
  · split at hq
    · simp only [List.mem_flatMap, List.mem_map] at hq
      obtain ⟨a, ha, b, hb, st, hst, rfl⟩ := hq
      obtain ⟨ha0, ha1⟩ := ring_mem (a := a.1) (b := a.2) ha
      obtain ⟨hb0, hb1⟩ := ring_mem (a := b.1) (b := b.2) hb
      obtain ⟨u1, u2, u3⟩ := a2 _ ha0
      obtain ⟨w1, w2, w3⟩ := a2 _ ha1
      obtain ⟨u1', u2', u3'⟩ := b2 _ hb0
      obtain ⟨w1', w2', w3'⟩ := b2 _ hb1
      obtain ⟨⟨s0, s1⟩, ⟨t0, t1⟩, hx⟩ := segments2_range hst he
      have l1 := lowA _ u1
      have l2 := lowA _ w1
      have l3 := highB _ u1'
      have l4 := highB _ w1'
      refine ⟨.sides a.1.1 a.2.1 b.1.1 b.2.1 st.1 st.2 u1 w1 u1' w1' s0 s1 t0 t1 rfl rfl ?_, ?_, ?_, ?_, ?_⟩
      · rcases hx with hx | hx
        · left
          rw [u3, w3, u3', w3', ← planar_along, ← planar_along] at hx
          exact ⟨_, planar_inj hn _ _ hA.origin hB.origin hx⟩
        · right
          rw [u3, w3, u3', w3'] at hx
          rw [← planar_perp hn]
          have : perp2 (sub2 (planar x.dir gA.origin a.2.1) (planar x.dir gA.origin a.1.1))
              (sub2 (planar x.dir gB.origin b.2.1) (planar x.dir gB.origin b.1.1)) =
              dot (a.2.1 - a.1.1) (planeSpace x.dir).1 * dot (b.2.1 - b.1.1) (planeSpace x.dir).2 -
              dot (a.2.1 - a.1.1) (planeSpace x.dir).2 * dot (b.2.1 - b.1.1) (planeSpace x.dir).1 := by
            simp only [perp2, sub2, planar, dot_sub_left]; ring
          rw [← this]; exact hx
      · simp only [along_height]; nlinarith
      · simp only [along_height]
        by_cases h0 : st.1 = 0
        · rw [h0]; linarith
        · have : 0 < st.1 := lt_of_le_of_ne s0 (Ne.symm h0); nlinarith
      · simp only [along_height]; nlinarith
      · simp only [along_height]
        by_cases h0 : st.2 = 0
        · rw [h0]; linarith
        · have : 0 < st.2 := lt_of_le_of_ne t0 (Ne.symm h0); nlinarith
    · simp at hq

end Edyn.Collide
