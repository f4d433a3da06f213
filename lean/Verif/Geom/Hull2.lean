import Verif.Geom.Intersect2
import Mathlib.Data.List.Nodup

/-!
# Convex hulls in the plane (C77)

`calculate_convex_hull` and `closest_point_convex_polygon`, `src/edyn/util/shape_util.cpp`.  Scalars are exact
reals.
-/

namespace Edyn.Geom

/-! ## Model -/

/-- The loops which look for the point with the greatest value, `shape_util.cpp` 105-113, 153-164 and 173-184: the
first index with the greatest value.  The values the loops start with, plus or minus `EDYN_SCALAR_MAX`, are taken to be
beyond all coordinates, so that the first point always replaces them; the least value is the greatest one with
the opposite sign. -/
noncomputable def scanMax (key : V2 → ℝ) : List V2 → ℕ → Option (ℕ × ℝ) → Option (ℕ × ℝ)
  | [], _, b => b
  | p :: ps, i, none => scanMax key ps (i + 1) (some (i, key p))
  | p :: ps, i, some b => if b.2 < key p then scanMax key ps (i + 1) (some (i, key p)) else scanMax key ps (i + 1) (some b)

/-- The index found; it starts as zero. -/
noncomputable def furthest2 (key : V2 → ℝ) (pts : List V2) : ℕ := ((scanMax key pts 0 none).map (·.1)).getD 0

/-- `-orthogonal(edge)`, `include/edyn/math/vector2.hpp` 121-125: the edge turned clockwise. -/
noncomputable def outward (a b : V2) : V2 := ⟨b.y - a.y, -(b.x - a.x)⟩

/-- `split_hull_edge`, `shape_util.cpp` 92-127.  The first argument bounds the depth of the recursion; `none`: an
index is out of range or the bound is reached. -/
noncomputable def splitEdge (pts : List V2) (tol : ℝ) : ℕ → List ℕ → ℕ → ℕ → Option (List ℕ × ℕ)
  | 0, _, _, _ => none
  | k + 1, hull, i0, i1 =>
    hull[i0]?.bind fun a => hull[i1]?.bind fun b => pts[a]?.bind fun v0 => pts[b]?.bind fun v1 =>
    let dir := outward v0 v1
    let idx := furthest2 (fun p => dot2 p dir) pts
    pts[idx]?.bind fun w =>
    if tol < dot2 (sub2 w v0) dir then
      (splitEdge pts tol k (hull.insertIdx i1 idx) i0 i1).bind fun r =>
      (splitEdge pts tol k r.1 (i1 + r.2) (i1 + r.2 + 1)).map fun s => (s.1, 1 + (r.2 + s.2))
    else some (hull, 0)

/-- `is_triangle_ccw`, `shape_util.cpp` 225-229. -/
noncomputable def triangleCcw (v0 v1 v2 : V2) : Prop := 0 < dot2 (sub2 v2 v0) ⟨-(v1.y - v0.y), v1.x - v0.x⟩

open Classical in
/-- `calculate_convex_hull`, `shape_util.cpp` 129-205. -/
noncomputable def convexHull2 (k : ℕ) (pts : List V2) (tol : ℝ) : Option (List ℕ) :=
  match pts with
  | [] => some [0]
  | [_] => some [0]
  | [_, _] => some [0, 1]
  | [a, b, c] => if triangleCcw a b c then some [0, 1, 2] else some [2, 1, 0]
  | pts =>
    let mn := furthest2 (fun p => -p.x) pts
    let mx := furthest2 (fun p => p.x) pts
    pts[mn]?.bind fun pmn => pts[mx]?.bind fun pmx =>
    if pmx.x - pmn.x < tol then
      some [furthest2 (fun p => p.y) pts, furthest2 (fun p => -p.y) pts]
    else
      (splitEdge pts tol k [mx, mn, mx] 0 1).bind fun r =>
      (splitEdge pts tol k r.1 (1 + r.2) (1 + r.2 + 1)).map fun s => s.1.dropLast

/-- One round of `closest_point_convex_polygon`, `shape_util.cpp` 244-286; `none`: continue with the next edge. -/
noncomputable def polyRound (v0 v1 v2 p : V2) : Option V2 :=
  let e0 := sub2 v1 v0
  if dot2 (sub2 p v0) (outward v0 v1) < 0 then none
  else if 0 < dot2 (sub2 p v0) e0 then
    if dot2 (sub2 p v1) e0 < 0 then some (along2 v0 v1 (dot2 (sub2 p v0) e0 / dot2 e0 e0))
    else if dot2 (sub2 p v1) (sub2 v2 v1) < 0 then some v1 else none
  else none

/-- `closest_point_convex_polygon`, `shape_util.cpp` 240-290, on the corners in order; `none`: it returns
false. -/
noncomputable def closestPolygon (v : List V2) (p : V2) : Option V2 :=
  (List.range v.length).findSome? fun i =>
    match v[i]?, v[(i + 1) % v.length]?, v[(i + 2) % v.length]? with
    | some v0, some v1, some v2 => polyRound v0 v1 v2 p
    | _, _, _ => none

/-! ## Specification -/

/-- Twice the area of the triangle from the side `a b` to `p`, positive if `p` is to the right of the side: outside of
a counter-clockwise polygon. -/
noncomputable def outArea (a b p : V2) : ℝ := (b.y - a.y) * (p.x - a.x) - (b.x - a.x) * (p.y - a.y)

/-- `b` follows `a` in the closed sequence. -/
def Follows (h : List ℕ) (a b : ℕ) : Prop := ∃ i, h[i]? = some a ∧ h[(i + 1) % h.length]? = some b

/-- No point is further in some direction: the point is on the border of the convex hull. -/
def Border (pts : List V2) (u : V2) : Prop :=
  ∃ n : V2, (n.x ≠ 0 ∨ n.y ≠ 0) ∧ ∀ p ∈ pts, dot2 p n ≤ dot2 u n

/-! ## The furthest point -/

theorem scanMax_spec (key : V2 → ℝ) (pts : List V2) : ∀ (ps : List V2) (i : ℕ) (b : Option (ℕ × ℝ)),
    (∀ j, ps[j]? = pts[i + j]?) →
    (∀ x, b = some x → ∃ q, pts[x.1]? = some q ∧ key q = x.2) →
    (ps ≠ [] ∨ b ≠ none) →
    ∃ j m, scanMax key ps i b = some (j, m) ∧ (∃ q, pts[j]? = some q ∧ key q = m) ∧ (∀ p ∈ ps, key p ≤ m) ∧
      ∀ x, b = some x → x.2 ≤ m := by
  intro ps
  induction ps with
  | nil =>
    intro i b _ hb hne
    cases b with
    | none => simp at hne
    | some x => exact ⟨x.1, x.2, rfl, hb x rfl, by simp, by rintro _ ⟨⟩; exact le_rfl⟩
  | cons q ps ih =>
    intro i b hps hb hne
    have hq : pts[i]? = some q := by have := hps 0; simpa using this.symm
    have hps' : ∀ j, ps[j]? = pts[i + 1 + j]? := by
      intro j; have := hps (j + 1); rw [List.getElem?_cons_succ] at this; rw [this]; congr 1; omega
    have new : ∀ x, (some (i, key q) : Option (ℕ × ℝ)) = some x → ∃ q, pts[x.1]? = some q ∧ key q = x.2 := by
      rintro _ ⟨⟩; exact ⟨q, hq, rfl⟩
    cases b with
    | none =>
      obtain ⟨j, m, e, h1, h2, h3⟩ := ih (i + 1) (some (i, key q)) hps' new (.inr (by simp))
      refine ⟨j, m, by rw [scanMax, e], h1, ?_, by simp⟩
      intro p hp
      rcases List.mem_cons.mp hp with rfl | hp
      · exact h3 _ rfl
      · exact h2 p hp
    | some x =>
      by_cases hlt : x.2 < key q
      · obtain ⟨j, m, e, h1, h2, h3⟩ := ih (i + 1) (some (i, key q)) hps' new (.inr (by simp))
        have h4 := h3 _ rfl
        refine ⟨j, m, by rw [scanMax, if_pos hlt, e], h1, ?_, by rintro _ ⟨⟩; simp at h4; linarith⟩
        intro p hp
        rcases List.mem_cons.mp hp with rfl | hp
        · exact h4
        · exact h2 p hp
      · obtain ⟨j, m, e, h1, h2, h3⟩ := ih (i + 1) (some x) hps' hb (.inr (by simp))
        have h4 := h3 _ rfl
        refine ⟨j, m, by rw [scanMax, if_neg hlt, e], h1, ?_, by rintro _ ⟨⟩; exact h4⟩
        intro p hp
        rcases List.mem_cons.mp hp with rfl | hp
        · linarith [not_lt.mp hlt]
        · exact h2 p hp

/-- The index found is that of a point with the greatest value. -/
theorem furthest2_spec (key : V2 → ℝ) {pts : List V2} (hne : pts ≠ []) :
    ∃ q, pts[furthest2 key pts]? = some q ∧ ∀ p ∈ pts, key p ≤ key q := by
  obtain ⟨j, m, e, ⟨q, h1, h2⟩, h3, _⟩ := scanMax_spec key pts pts 0 none (by intro j; rw [Nat.zero_add]) (by simp) (.inl hne)
  refine ⟨q, ?_, fun p hp => by rw [h2]; exact h3 p hp⟩
  unfold furthest2
  rw [e]; exact h1

/-! ## Splitting an edge -/

/-- Vertices found so far, with directions in which nothing is beyond them, and the directions turning
counter-clockwise from the first vertex over the edge to the second one. -/
def Wedge (pts : List V2) (a b : V2) : Prop :=
  ∃ na nb : V2, (∀ p ∈ pts, dot2 (sub2 p a) na ≤ 0) ∧ (∀ p ∈ pts, dot2 (sub2 p b) nb ≤ 0) ∧
    0 < perp2 na (outward a b) ∧ 0 < perp2 (outward a b) nb

open Classical in
/-- The number of points outside of the edge. -/
noncomputable def outCount (pts : List V2) (a b : V2) : ℕ := pts.countP fun p => decide (0 < outArea a b p)

theorem dot_outward (a b p : V2) : dot2 (sub2 p a) (outward a b) = outArea a b p := by
  simp only [dot2, sub2, outward, outArea]; ring

theorem outArea_self (a b : V2) : outArea a b a = 0 ∧ outArea a b b = 0 := by
  constructor <;> simp only [outArea] <;> ring

/-- What is outside of the edge from the first vertex to the furthest point. -/
theorem out_first {pts : List V2} {a b w : V2} (hW : Wedge pts a b) (hw : w ∈ pts)
    (hpos : 0 < outArea a b w) (hmax : ∀ p ∈ pts, outArea a b p ≤ outArea a b w) :
    (∀ p ∈ pts, 0 < outArea a w p → 0 < outArea a b p) ∧
    (Wedge pts a w ∨ ∀ p ∈ pts, outArea a w p ≤ 0) := by
  obtain ⟨na, nb, ha, hb, h1, h2⟩ := hW
  have key : ∀ p, perp2 na (outward a b) * outArea a w p =
      outArea a b w * dot2 (sub2 p a) na + -dot2 (sub2 w a) na * outArea a b p := by
    intro p; simp only [perp2, outward, outArea, dot2, sub2]; ring
  have hwa := ha w hw
  have sub : ∀ p ∈ pts, 0 < outArea a w p → 0 < outArea a b p := by
    intro p hp hlt
    by_contra hn
    have h3 := key p
    have h4 := ha p hp
    have : 0 < perp2 na (outward a b) * outArea a w p := mul_pos h1 hlt
    nlinarith
  refine ⟨sub, ?_⟩
  rcases hwa.lt_or_eq with hlt | heq
  · left
    refine ⟨na, outward a b, ha, ?_, ?_, ?_⟩
    · intro p hp
      have := hmax p hp
      have e : dot2 (sub2 p w) (outward a b) = outArea a b p - outArea a b w := by
        simp only [dot2, sub2, outward, outArea]; ring
      rw [e]; linarith
    · have e : perp2 na (outward a w) = -dot2 (sub2 w a) na := by simp only [perp2, outward, dot2, sub2]; ring
      rw [e]; linarith
    · have e : perp2 (outward a w) (outward a b) = outArea a b w := by simp only [perp2, outward, outArea]; ring
      rw [e]; exact hpos
  · right
    intro p hp
    have h3 := key p
    rw [heq] at h3
    have h4 := ha p hp
    by_contra hn
    push Not at hn
    have : 0 < perp2 na (outward a b) * outArea a w p := mul_pos h1 hn
    nlinarith

/-- What is outside of the edge from the furthest point to the second vertex. -/
theorem out_second {pts : List V2} {a b w : V2} (hW : Wedge pts a b) (hw : w ∈ pts)
    (hpos : 0 < outArea a b w) (hmax : ∀ p ∈ pts, outArea a b p ≤ outArea a b w) :
    (∀ p ∈ pts, 0 < outArea w b p → 0 < outArea a b p) ∧
    (Wedge pts w b ∨ ∀ p ∈ pts, outArea w b p ≤ 0) := by
  obtain ⟨na, nb, ha, hb, h1, h2⟩ := hW
  have key : ∀ p, perp2 (outward a b) nb * outArea w b p =
      outArea a b w * dot2 (sub2 p b) nb + -dot2 (sub2 w b) nb * outArea a b p := by
    intro p; simp only [perp2, outward, outArea, dot2, sub2]; ring
  have hwb := hb w hw
  refine ⟨?_, ?_⟩
  · intro p hp hlt
    by_contra hn
    have h3 := key p
    have h4 := hb p hp
    have : 0 < perp2 (outward a b) nb * outArea w b p := mul_pos h2 hlt
    nlinarith
  rcases hwb.lt_or_eq with hlt | heq
  · left
    refine ⟨outward a b, nb, ?_, hb, ?_, ?_⟩
    · intro p hp
      have := hmax p hp
      have e : dot2 (sub2 p w) (outward a b) = outArea a b p - outArea a b w := by
        simp only [dot2, sub2, outward, outArea]; ring
      rw [e]; linarith
    · have e : perp2 (outward a b) (outward w b) = outArea a b w := by simp only [perp2, outward, outArea]; ring
      rw [e]; exact hpos
    · have e : perp2 (outward w b) nb = -dot2 (sub2 w b) nb := by simp only [perp2, outward, dot2, sub2]; ring
      rw [e]; linarith
  · right
    intro p hp
    have h3 := key p
    rw [heq] at h3
    have h4 := hb p hp
    by_contra hn
    push Not at hn
    have : 0 < perp2 (outward a b) nb * outArea w b p := mul_pos h2 hn
    nlinarith

theorem outCount_lt {pts : List V2} {a b a' b' w : V2} (hsub : ∀ p ∈ pts, 0 < outArea a' b' p → 0 < outArea a b p)
    (hw : w ∈ pts) (h1 : 0 < outArea a b w) (h2 : ¬ 0 < outArea a' b' w) : outCount pts a' b' < outCount pts a b := by
  classical
  unfold outCount
  induction pts with
  | nil => simp at hw
  | cons q ps ih =>
    rw [List.countP_cons, List.countP_cons]
    have hle : ps.countP (fun p => decide (0 < outArea a' b' p)) ≤ ps.countP (fun p => decide (0 < outArea a b p)) := by
      apply List.countP_mono_left
      intro p hp h
      simp only [decide_eq_true_eq] at h ⊢
      exact hsub p (List.mem_cons_of_mem _ hp) h
    rcases List.mem_cons.mp hw with rfl | hw'
    · simp only [h1, h2, decide_true, decide_false, if_true]
      simp
      omega
    · have := ih (fun p hp => hsub p (List.mem_cons_of_mem _ hp)) hw'
      have hq := hsub q List.mem_cons_self
      by_cases h : 0 < outArea a' b' q
      · simp only [h, hq h, decide_true, if_true]; omega
      · simp only [h, decide_false]; simp; split_ifs <;> omega

/-- The edge is final: no point is outside of it by more than the tolerance. -/
def Final (pts : List V2) (tol : ℝ) (i j : ℕ) : Prop :=
  ∀ a b, pts[i]? = some a → pts[j]? = some b → ∀ p ∈ pts, outArea a b p ≤ tol

theorem insert_at (L R : List ℕ) (a b w : ℕ) :
    (L ++ a :: b :: R).insertIdx (L.length + 1) w = L ++ a :: w :: b :: R := by
  induction L with
  | nil => rfl
  | cons x L ih => simp only [List.cons_append, List.length_cons]; rw [List.insertIdx_succ_cons, ih]

theorem split_spec (pts : List V2) (tol : ℝ) (ht : 0 ≤ tol) : ∀ (N ia ib : ℕ) (a b : V2), pts[ia]? = some a →
    pts[ib]? = some b → outCount pts a b ≤ N → (Wedge pts a b ∨ ∀ p ∈ pts, outArea a b p ≤ 0) →
    ∃ mid : List ℕ,
      (∀ k L R, N < k → splitEdge pts tol k (L ++ ia :: ib :: R) L.length (L.length + 1) =
        some (L ++ ia :: (mid ++ ib :: R), mid.length)) ∧
      (∀ i ∈ mid, ∃ p, pts[i]? = some p ∧ 0 < outArea a b p ∧ Border pts p) ∧ mid.Nodup ∧
      List.IsChain (Final pts tol) (ia :: (mid ++ [ib])) := by
  intro N
  induction N with
  | zero =>
    intro ia ib a b ha hb hN _
    have hno : ∀ p ∈ pts, ¬ 0 < outArea a b p := by
      classical
      have : outCount pts a b = 0 := by omega
      unfold outCount at this
      rw [List.countP_eq_zero] at this
      intro p hp; simpa using this p hp
    refine ⟨[], ?_, by simp, by simp, ?_⟩
    · intro k L R hk
      obtain ⟨k, rfl⟩ : ∃ j, k = j + 1 := ⟨k - 1, by omega⟩
      have e0 : (L ++ ia :: ib :: R)[L.length]? = some ia := by simp
      have e1 : (L ++ ia :: ib :: R)[L.length + 1]? = some ib := by simp
      have hne : pts ≠ [] := by intro h; rw [h] at ha; simp at ha
      obtain ⟨w, hw, _⟩ := furthest2_spec (fun p => dot2 p (outward a b)) hne
      rw [splitEdge, e0, Option.bind_some, e1, Option.bind_some, ha, Option.bind_some, hb, Option.bind_some]
      simp only [hw, Option.bind_some]
      rw [dot_outward, if_neg (by have := hno w (List.mem_of_getElem? hw); linarith)]
      simp
    · simp only [List.nil_append]
      rw [List.isChain_cons_cons]
      refine ⟨?_, List.isChain_singleton _⟩
      intro a' b' ha' hb' p hp
      rw [ha] at ha'; rw [hb] at hb'
      cases ha'; cases hb'
      have := hno p hp; linarith
  | succ N ih =>
    intro ia ib a b ha hb hN hW
    have hne : pts ≠ [] := by intro h; rw [h] at ha; simp at ha
    obtain ⟨w, hw, hwmax⟩ := furthest2_spec (fun p => dot2 p (outward a b)) hne
    have hmax : ∀ p ∈ pts, outArea a b p ≤ outArea a b w := by
      intro p hp
      have := hwmax p hp
      rw [← dot_outward, ← dot_outward]
      simp only [dot2, sub2] at this ⊢
      linarith
    have hwm := List.mem_of_getElem? hw
    by_cases hlt : tol < outArea a b w
    · have hpos : 0 < outArea a b w := by linarith
      have hW' : Wedge pts a b := by
        rcases hW with h | h
        · exact h
        · have := h w hwm; linarith
      obtain ⟨f1, f2⟩ := out_first hW' hwm hpos hmax
      obtain ⟨g1, g2⟩ := out_second hW' hwm hpos hmax
      have c1 := outCount_lt f1 hwm hpos (by rw [(outArea_self a w).2]; simp)
      have c2 := outCount_lt g1 hwm hpos (by rw [(outArea_self w b).1]; simp)
      set iw := furthest2 (fun p => dot2 p (outward a b)) pts with hiw
      obtain ⟨m1, s1, t1, n1, ch1⟩ := ih ia iw a w ha hw (by omega) f2
      obtain ⟨m2, s2, t2, n2, ch2⟩ := ih iw ib w b hw hb (by omega) g2
      refine ⟨m1 ++ iw :: m2, ?_, ?_, ?_, ?_⟩
      · intro k L R hk
        obtain ⟨k, rfl⟩ : ∃ j, k = j + 1 := ⟨k - 1, by omega⟩
        have e0 : (L ++ ia :: ib :: R)[L.length]? = some ia := by simp
        have e1 : (L ++ ia :: ib :: R)[L.length + 1]? = some ib := by simp
        rw [splitEdge, e0, Option.bind_some, e1, Option.bind_some, ha, Option.bind_some, hb, Option.bind_some]
        simp only [← hiw, hw, Option.bind_some]
        rw [dot_outward, if_pos hlt, insert_at, s1 k L (ib :: R) (by omega), Option.bind_some]
        simp only
        have e2 : L ++ ia :: (m1 ++ iw :: ib :: R) = (L ++ ia :: m1) ++ iw :: ib :: R := by simp
        have e3 : L.length + 1 + m1.length = (L ++ ia :: m1).length := by simp; omega
        rw [e2, e3, s2 k (L ++ ia :: m1) R (by omega)]
        simp; omega
      · intro i hi
        rw [List.mem_append, List.mem_cons] at hi
        rcases hi with hi | rfl | hi
        · obtain ⟨p, h1, h2, h3⟩ := t1 i hi
          exact ⟨p, h1, f1 p (List.mem_of_getElem? h1) h2, h3⟩
        · refine ⟨w, hw, hpos, outward a b, ?_, hwmax⟩
          by_contra hn
          push Not at hn
          obtain ⟨hx, hy⟩ := hn
          simp only [outward] at hx hy
          have : outArea a b w = 0 := by
            simp only [outArea]; rw [hx, show b.x - a.x = 0 by linarith]; ring
          linarith
        · obtain ⟨p, h1, h2, h3⟩ := t2 i hi
          exact ⟨p, h1, g1 p (List.mem_of_getElem? h1) h2, h3⟩
      · rw [List.nodup_append, List.nodup_cons]
        refine ⟨n1, ⟨?_, n2⟩, ?_⟩
        · intro hi
          obtain ⟨p, h1, h2, _⟩ := t2 iw hi
          rw [hw] at h1; cases h1
          rw [(outArea_self w b).1] at h2; exact lt_irrefl _ h2
        · intro i hi j hj hij
          rw [hij] at hi
          obtain ⟨p, h1, h2, _⟩ := t1 j hi
          rcases List.mem_cons.mp hj with rfl | hj
          · rw [hw] at h1; cases h1
            rw [(outArea_self a w).2] at h2; exact lt_irrefl _ h2
          · obtain ⟨q, h3, h4, _⟩ := t2 j hj
            rw [h1] at h3; cases h3
            have h5 := hmax p (List.mem_of_getElem? h1)
            have e : outArea a w p + outArea w b p = outArea a b p - outArea a b w := by
              simp only [outArea]; ring
            linarith
      · have e : ia :: (m1 ++ iw :: m2 ++ [ib]) = (ia :: m1) ++ iw :: (m2 ++ [ib]) := by simp
        rw [e, List.isChain_split]
        exact ⟨by simpa using ch1, ch2⟩
    · refine ⟨[], ?_, by simp, by simp, ?_⟩
      · intro k L R hk
        obtain ⟨k, rfl⟩ : ∃ j, k = j + 1 := ⟨k - 1, by omega⟩
        have e0 : (L ++ ia :: ib :: R)[L.length]? = some ia := by simp
        have e1 : (L ++ ia :: ib :: R)[L.length + 1]? = some ib := by simp
        rw [splitEdge, e0, Option.bind_some, e1, Option.bind_some, ha, Option.bind_some, hb, Option.bind_some]
        simp only [hw, Option.bind_some]
        rw [dot_outward, if_neg hlt]
        simp
      · simp only [List.nil_append]
        rw [List.isChain_cons_cons]
        refine ⟨?_, List.isChain_singleton _⟩
        intro a' b' ha' hb' p hp
        rw [ha] at ha'; rw [hb] at hb'
        cases ha'; cases hb'
        have := hmax p hp; linarith [not_lt.mp hlt]

/-! ## The hull -/

theorem follows_chain {R : ℕ → ℕ → Prop} {x : ℕ} {t : List ℕ} (h : List.IsChain R (x :: t ++ [x])) {a b : ℕ}
    (hf : Follows (x :: t) a b) : R a b := by
  obtain ⟨i, h1, h2⟩ := hf
  rw [List.isChain_iff_getElem] at h
  obtain ⟨hi, e1⟩ := List.getElem?_eq_some_iff.mp h1
  have hlen : (x :: t ++ [x]).length = (x :: t).length + 1 := by simp
  have := h i (by rw [hlen]; omega)
  rw [List.getElem_append_left hi, e1] at this
  by_cases hlast : i + 1 < (x :: t).length
  · rw [Nat.mod_eq_of_lt hlast] at h2
    obtain ⟨hj, e2⟩ := List.getElem?_eq_some_iff.mp h2
    rw [List.getElem_append_left hj, e2] at this
    exact this
  · have e : i + 1 = (x :: t).length := by omega
    rw [e, Nat.mod_self] at h2
    simp only [List.getElem?_cons_zero, Option.some.injEq] at h2
    rw [List.getElem_append_right (by omega)] at this
    simp only [List.getElem_singleton] at this
    rw [← h2]; exact this

/-- The full statement: no point is further than the tolerance outside of a side of the hull. -/
def HullFull (tol : ℝ) : Prop :=
  ∀ pts : List V2, 4 ≤ pts.length → (∃ p ∈ pts, ∃ q ∈ pts, tol ≤ p.x - q.x) → ∀ k, pts.length < k → ∀ hull,
    convexHull2 k pts tol = some hull → ∀ i j, Follows hull i j → ∀ a b, pts[i]? = some a → pts[j]? = some b →
      ∀ p ∈ pts, outArea a b p ≤ tol * Real.sqrt (dot2 (sub2 b a) (sub2 b a))

/-- **C77, the convex hull of points in the plane, partial.** For every list of at least four points which is as
wide as the tolerance, the recursion ends at a depth of at most the number of points; the hull consists of
different points on the border of the set; the triangle from any side of the hull to any of the points, if it is
outside, has at most half the tolerance as area.  Missing: the distance is not bounded by the tolerance, see
`hull_refuted`. -/
theorem convex_hull_partial (pts : List V2) (tol : ℝ) (ht : 0 < tol) (h4 : 4 ≤ pts.length)
    (hw : ∃ p ∈ pts, ∃ q ∈ pts, tol ≤ p.x - q.x) :
    ∃ hull, (∀ k, pts.length < k → convexHull2 k pts tol = some hull) ∧ 2 ≤ hull.length ∧ hull.Nodup ∧
      (∀ i ∈ hull, ∃ p, pts[i]? = some p ∧ Border pts p) ∧
      ∀ i j, Follows hull i j → ∀ a b, pts[i]? = some a → pts[j]? = some b → ∀ p ∈ pts, outArea a b p ≤ tol := by
  have hne : pts ≠ [] := by intro h; rw [h] at h4; simp at h4
  obtain ⟨pmn, emn, hmn⟩ := furthest2_spec (fun p => -p.x) hne
  obtain ⟨pmx, emx, hmx⟩ := furthest2_spec (fun p => p.x) hne
  have hwidth : tol ≤ pmx.x - pmn.x := by
    obtain ⟨p, hp, q, hq, h⟩ := hw
    have h1 := hmx p hp
    have h2 := hmn q hq
    linarith
  have cnt : ∀ a b, outCount pts a b ≤ pts.length := fun a b => List.countP_le_length
  have W1 : Wedge pts pmx pmn := by
    refine ⟨⟨1, 0⟩, ⟨-1, 0⟩, ?_, ?_, ?_, ?_⟩
    · intro p hp; have := hmx p hp; simp only [dot2, sub2]; linarith
    · intro p hp; have := hmn p hp; simp only [dot2, sub2]; linarith
    · simp only [perp2, outward]; linarith
    · simp only [perp2, outward]; linarith
  have W2 : Wedge pts pmn pmx := by
    refine ⟨⟨-1, 0⟩, ⟨1, 0⟩, ?_, ?_, ?_, ?_⟩
    · intro p hp; have := hmn p hp; simp only [dot2, sub2]; linarith
    · intro p hp; have := hmx p hp; simp only [dot2, sub2]; linarith
    · simp only [perp2, outward]; linarith
    · simp only [perp2, outward]; linarith
  set mn := furthest2 (fun p => -p.x) pts with hmnd
  set mx := furthest2 (fun p => p.x) pts with hmxd
  obtain ⟨m1, s1, t1, n1, c1⟩ := split_spec pts tol ht.le pts.length mx mn pmx pmn emx emn (cnt _ _) (.inl W1)
  obtain ⟨m2, s2, t2, n2, c2⟩ := split_spec pts tol ht.le pts.length mn mx pmn pmx emn emx (cnt _ _) (.inl W2)
  have opp : ∀ p, outArea pmn pmx p = -outArea pmx pmn p := by intro p; simp only [outArea]; ring
  have hmne : mx ≠ mn := by
    intro e; rw [e, emn] at emx; cases emx; linarith
  have hmem : ∀ i ∈ m1, i ≠ mx ∧ i ≠ mn := by
    intro i hi
    obtain ⟨p, h1, h2, _⟩ := t1 i hi
    constructor
    · rintro rfl; rw [emx] at h1; cases h1; rw [(outArea_self _ _).1] at h2; exact lt_irrefl _ h2
    · rintro rfl; rw [emn] at h1; cases h1; rw [(outArea_self _ _).2] at h2; exact lt_irrefl _ h2
  have hmem2 : ∀ i ∈ m2, i ≠ mx ∧ i ≠ mn ∧ i ∉ m1 := by
    intro i hi
    obtain ⟨p, h1, h2, _⟩ := t2 i hi
    refine ⟨?_, ?_, ?_⟩
    · rintro rfl; rw [emx] at h1; cases h1; rw [(outArea_self _ _).2] at h2; exact lt_irrefl _ h2
    · rintro rfl; rw [emn] at h1; cases h1; rw [(outArea_self _ _).1] at h2; exact lt_irrefl _ h2
    · intro hi'
      obtain ⟨q, h3, h4, _⟩ := t1 i hi'
      rw [h1] at h3; cases h3
      rw [opp] at h2; linarith
  refine ⟨mx :: (m1 ++ mn :: m2), ?_, by simp; omega, ?_, ?_, ?_⟩
  · intro k hk
    have e : convexHull2 k pts tol = (splitEdge pts tol k [mx, mn, mx] 0 1).bind fun r =>
        (splitEdge pts tol k r.1 (1 + r.2) (1 + r.2 + 1)).map fun s => s.1.dropLast := by
      rcases pts with _ | ⟨a, _ | ⟨b, _ | ⟨c, _ | ⟨d, rest⟩⟩⟩⟩
      · simp at h4
      · simp at h4
      · simp at h4
      · simp at h4
      · simp only [convexHull2, ← hmnd, ← hmxd, emn, emx, Option.bind_some]
        rw [if_neg (by linarith)]
    have q1 := s1 k [] [mx] hk
    simp only [List.nil_append, List.length_nil, Nat.zero_add] at q1
    have q2 := s2 k (mx :: m1) [] hk
    have e2 : mx :: m1 ++ [mn, mx] = mx :: (m1 ++ mn :: [mx]) := by simp
    rw [e2, show (mx :: m1).length = 1 + m1.length by simp; omega] at q2
    rw [e, q1, Option.bind_some]
    simp only
    rw [q2]
    simp only [Option.map_some, Option.some.injEq]
    rw [show mx :: m1 ++ mn :: (m2 ++ [mx]) = (mx :: (m1 ++ mn :: m2)) ++ [mx] by simp, List.dropLast_concat]
  · rw [List.nodup_cons, List.nodup_append, List.nodup_cons]
    refine ⟨?_, n1, ⟨fun h => (hmem2 _ h).2.1 rfl, n2⟩, ?_⟩
    · rw [List.mem_append, List.mem_cons]
      rintro (h | h | h)
      · exact (hmem _ h).1 rfl
      · exact hmne h
      · exact (hmem2 _ h).1 rfl
    · rintro i hi j hj rfl
      rcases List.mem_cons.mp hj with h | h
      · exact (hmem _ hi).2 h
      · exact (hmem2 _ h).2.2 hi
  · intro i hi
    rw [List.mem_cons, List.mem_append, List.mem_cons] at hi
    rcases hi with rfl | hi | rfl | hi
    · refine ⟨pmx, emx, ⟨1, 0⟩, .inl one_ne_zero, fun p hp => ?_⟩
      have := hmx p hp; simp only [dot2]; linarith
    · obtain ⟨p, h1, _, h3⟩ := t1 i hi; exact ⟨p, h1, h3⟩
    · refine ⟨pmn, emn, ⟨-1, 0⟩, .inl (by simp), fun p hp => ?_⟩
      have := hmn p hp; simp only [dot2]; linarith
    · obtain ⟨p, h1, _, h3⟩ := t2 i hi; exact ⟨p, h1, h3⟩
  · intro i j hf
    have ch : List.IsChain (Final pts tol) (mx :: (m1 ++ mn :: m2) ++ [mx]) := by
      rw [show mx :: (m1 ++ mn :: m2) ++ [mx] = (mx :: m1) ++ mn :: (m2 ++ [mx]) by simp, List.isChain_split]
      exact ⟨by simpa using c1, c2⟩
    exact follows_chain ch hf

/-- **C77, up to three points and slivers.** The hull of a triangle is the triangle, counter-clockwise.  The hull of at
least four points which are not as wide as the tolerance is the highest and the lowest one. -/
theorem convex_hull_small (k : ℕ) (tol : ℝ) :
    (∀ a b c : V2, ∃ hull, convexHull2 k [a, b, c] tol = some hull ∧ (∀ i, i ∈ hull ↔ i < 3) ∧ hull.Nodup ∧
      ∀ i j, Follows hull i j → ∀ u v, [a, b, c][i]? = some u → [a, b, c][j]? = some v → ∀ p ∈ [a, b, c], outArea u v p ≤ 0) ∧
    (∀ pts : List V2, 4 ≤ pts.length → (∀ p ∈ pts, ∀ q ∈ pts, p.x - q.x < tol) → ∃ i j hi lo,
      convexHull2 k pts tol = some [i, j] ∧ pts[i]? = some hi ∧ pts[j]? = some lo ∧ ∀ p ∈ pts, lo.y ≤ p.y ∧ p.y ≤ hi.y) := by
  constructor
  · intro a b c
    have hf : ∀ x y z i j : ℕ, Follows [x, y, z] i j → (i = x ∧ j = y) ∨ (i = y ∧ j = z) ∨ (i = z ∧ j = x) := by
      rintro x y z i j ⟨n, h1, h2⟩
      obtain ⟨hn, _⟩ := List.getElem?_eq_some_iff.mp h1
      simp only [List.length_cons, List.length_nil] at hn h2
      have : n = 0 ∨ n = 1 ∨ n = 2 := by omega
      rcases this with rfl | rfl | rfl <;> simp_all
    classical
    show ∃ hull, (if triangleCcw a b c then some [0, 1, 2] else some [2, 1, 0]) = some hull ∧ _
    by_cases h : triangleCcw a b c
    · rw [if_pos h]
      refine ⟨_, rfl, by intro i; simp; omega, by simp, ?_⟩
      intro i j hij u v hu hv p hp
      simp only [triangleCcw, dot2, sub2] at h
      rcases hf _ _ _ _ _ hij with ⟨rfl, rfl⟩ | ⟨rfl, rfl⟩ | ⟨rfl, rfl⟩ <;> simp at hu hv <;> subst hu <;> subst hv <;>
        simp only [List.mem_cons, List.not_mem_nil, or_false] at hp <;> rcases hp with rfl | rfl | rfl <;>
        simp only [outArea] <;> linarith
    · rw [if_neg h]
      refine ⟨_, rfl, by intro i; simp; omega, by simp, ?_⟩
      intro i j hij u v hu hv p hp
      simp only [triangleCcw, dot2, sub2] at h
      rcases hf _ _ _ _ _ hij with ⟨rfl, rfl⟩ | ⟨rfl, rfl⟩ | ⟨rfl, rfl⟩ <;> simp at hu hv <;> subst hu <;> subst hv <;>
        simp only [List.mem_cons, List.not_mem_nil, or_false] at hp <;> rcases hp with rfl | rfl | rfl <;>
        simp only [outArea] <;> linarith
  · intro pts h4 hs
    have hne : pts ≠ [] := by intro h; rw [h] at h4; simp at h4
    obtain ⟨pmn, emn, hmn⟩ := furthest2_spec (fun p => -p.x) hne
    obtain ⟨pmx, emx, hmx⟩ := furthest2_spec (fun p => p.x) hne
    obtain ⟨lo, elo, hlo⟩ := furthest2_spec (fun p => -p.y) hne
    obtain ⟨hi, ehi, hhi⟩ := furthest2_spec (fun p => p.y) hne
    refine ⟨_, _, hi, lo, ?_, ehi, elo, fun p hp => ⟨by have := hlo p hp; linarith, hhi p hp⟩⟩
    have hd := hs pmx (List.mem_of_getElem? emx) pmn (List.mem_of_getElem? emn)
    rcases pts with _ | ⟨a, _ | ⟨b, _ | ⟨c, _ | ⟨d, rest⟩⟩⟩⟩
    · simp at h4
    · simp at h4
    · simp at h4
    · simp at h4
    · simp only [convexHull2, emn, emx, Option.bind_some]
      rw [if_pos hd]

/-- A square of side 1/50 and the tolerance 1/1000: the hull consists of two points, although the other two are
further than the tolerance from the line through them. -/
theorem hull_refuted : ¬ HullFull (1 / 1000) := by
  intro h
  have hh : convexHull2 5 [⟨0, 0⟩, ⟨1 / 50, 0⟩, ⟨1 / 50, 1 / 50⟩, ⟨0, 1 / 50⟩] (1 / 1000) = some [1, 0] := by
    have f1 : furthest2 (fun p => -p.x) [⟨0, 0⟩, ⟨1 / 50, 0⟩, ⟨1 / 50, 1 / 50⟩, ⟨0, 1 / 50⟩] = 0 := by
      norm_num [furthest2, scanMax]
    have f2 : furthest2 (fun p => p.x) [⟨0, 0⟩, ⟨1 / 50, 0⟩, ⟨1 / 50, 1 / 50⟩, ⟨0, 1 / 50⟩] = 1 := by
      norm_num [furthest2, scanMax]
    have o1 : outward ⟨1 / 50, 0⟩ ⟨0, 0⟩ = ⟨0, 1 / 50⟩ := by norm_num [outward]
    have o2 : outward ⟨0, 0⟩ ⟨1 / 50, 0⟩ = ⟨0, -(1 / 50)⟩ := by norm_num [outward]
    have f3 : furthest2 (fun p => dot2 p ⟨0, 1 / 50⟩) [⟨0, 0⟩, ⟨1 / 50, 0⟩, ⟨1 / 50, 1 / 50⟩, ⟨0, 1 / 50⟩] = 2 := by
      norm_num [furthest2, scanMax, dot2]
    have f4 : furthest2 (fun p => dot2 p ⟨0, -(1 / 50)⟩) [⟨0, 0⟩, ⟨1 / 50, 0⟩, ⟨1 / 50, 1 / 50⟩, ⟨0, 1 / 50⟩] = 0 := by
      norm_num [furthest2, scanMax, dot2]
    have s1 : splitEdge [⟨0, 0⟩, ⟨1 / 50, 0⟩, ⟨1 / 50, 1 / 50⟩, ⟨0, 1 / 50⟩] (1 / 1000) 5 [1, 0, 1] 0 1 = some ([1, 0, 1], 0) := by
      rw [splitEdge]
      simp only [List.getElem?_cons_zero, List.getElem?_cons_succ, Option.bind_some, o1, f3]
      rw [if_neg (by norm_num [dot2, sub2])]
    have s2 : splitEdge [⟨0, 0⟩, ⟨1 / 50, 0⟩, ⟨1 / 50, 1 / 50⟩, ⟨0, 1 / 50⟩] (1 / 1000) 5 [1, 0, 1] 1 2 = some ([1, 0, 1], 0) := by
      rw [splitEdge]
      simp only [List.getElem?_cons_zero, List.getElem?_cons_succ, Option.bind_some, o2, f4]
      rw [if_neg (by norm_num [dot2, sub2])]
    unfold convexHull2
    simp only [f1, f2, List.getElem?_cons_zero, List.getElem?_cons_succ, Option.bind_some]
    rw [if_neg (by norm_num), s1]
    simp only [Option.bind_some, Nat.add_zero, s2]
    rfl
  have := h [⟨0, 0⟩, ⟨1 / 50, 0⟩, ⟨1 / 50, 1 / 50⟩, ⟨0, 1 / 50⟩] (by simp)
    ⟨⟨1 / 50, 0⟩, by simp, ⟨0, 0⟩, by simp, by norm_num⟩ 5 (by simp) _ hh 1 0 ⟨0, by simp⟩ ⟨1 / 50, 0⟩ ⟨0, 0⟩ (by simp) (by simp)
    ⟨1 / 50, 1 / 50⟩ (by simp)
  have e : dot2 (sub2 ⟨0, 0⟩ ⟨1 / 50, 0⟩) (sub2 ⟨0, 0⟩ ⟨1 / 50, 0⟩) = (1 / 50) ^ 2 := by norm_num [dot2, sub2]
  rw [e, Real.sqrt_sq (by norm_num)] at this
  norm_num [outArea] at this

/-- Not vacuous: a square of side two. -/
example : 4 ≤ ([⟨0, 0⟩, ⟨2, 0⟩, ⟨2, 2⟩, ⟨0, 2⟩] : List V2).length ∧
    ∃ p ∈ ([⟨0, 0⟩, ⟨2, 0⟩, ⟨2, 2⟩, ⟨0, 2⟩] : List V2), ∃ q ∈ ([⟨0, 0⟩, ⟨2, 0⟩, ⟨2, 2⟩, ⟨0, 2⟩] : List V2), (1 / 1000 : ℝ) ≤ p.x - q.x :=
  ⟨by simp, ⟨2, 0⟩, by simp, ⟨0, 0⟩, by simp, by norm_num⟩

/-! ## The closest point of a polygon -/

/-- The convex hull of some points: what lies in all half planes which contain them. -/
def InHull (vs : List V2) (x : V2) : Prop := ∀ n : V2, ∀ c, (∀ v ∈ vs, dot2 v n ≤ c) → dot2 x n ≤ c

/-- A counter-clockwise convex polygon with a real corner at every vertex. -/
def ConvexPolygon (v : List V2) : Prop :=
  3 ≤ v.length ∧ ∀ i a b c, i < v.length → v[i]? = some a → v[(i + 1) % v.length]? = some b →
    v[(i + 2) % v.length]? = some c → 0 < perp2 (sub2 b a) (sub2 c b) ∧ ∀ q ∈ v, outArea a b q ≤ 0

noncomputable def distSqr2 (p q : V2) : ℝ := dot2 (sub2 p q) (sub2 p q)

/-- The full statement: a point of the polygon is returned exactly for points outside of it, and it is the closest one. -/
def ClosestPolygonFull : Prop :=
  ∀ v p, ConvexPolygon v → (closestPolygon v p = none → InHull v p) ∧
    ∀ q, closestPolygon v p = some q → InHull v q ∧ ∀ x, InHull v x → distSqr2 p q ≤ distSqr2 p x

/-- **C77, the point of a polygon closest to a point, partial.** What is returned is the point of the polygon closest to
the given one.  Nothing is returned for points inside.  A point which lies outside of a side and between its ends gets
a result.  Missing: points beyond an acute corner, see `closest_polygon_refuted`. -/
theorem closest_polygon_partial (v : List V2) (p : V2) (hv : ConvexPolygon v) :
    (∀ q, closestPolygon v p = some q → InHull v q ∧ ∀ x, InHull v x → distSqr2 p q ≤ distSqr2 p x) ∧
    ((∀ i a b, v[i]? = some a → v[(i + 1) % v.length]? = some b → outArea a b p < 0) → closestPolygon v p = none) ∧
    (∀ i a b, v[i]? = some a → v[(i + 1) % v.length]? = some b → 0 ≤ outArea a b p → 0 < dot2 (sub2 p a) (sub2 b a) →
      dot2 (sub2 p b) (sub2 b a) < 0 → closestPolygon v p ≠ none) := by
  obtain ⟨h3, hconv⟩ := hv
  have get : ∀ j, ∃ a, v[j % v.length]? = some a := fun j =>
    ⟨_, List.getElem?_eq_getElem (Nat.mod_lt _ (by omega))⟩
  -- nothing is closer if all vertices are on the other side of the result
  have far : ∀ q : V2, (∀ u ∈ v, dot2 (sub2 u q) (sub2 p q) ≤ 0) → ∀ x, InHull v x → distSqr2 p q ≤ distSqr2 p x := by
    intro q hq x hx
    have := hx (sub2 p q) (dot2 q (sub2 p q)) (fun u hu => by
      have := hq u hu; simp only [dot2, sub2] at this ⊢; linarith)
    simp only [distSqr2, dot2, sub2] at this ⊢
    nlinarith [mul_self_nonneg (x.x - q.x), mul_self_nonneg (x.y - q.y)]
  refine ⟨?_, ?_, ?_⟩
  · intro q hq
    unfold closestPolygon at hq
    obtain ⟨i, hi, hr⟩ := List.exists_of_findSome?_eq_some hq
    rw [List.mem_range] at hi
    obtain ⟨a, ea⟩ : ∃ a, v[i]? = some a := ⟨_, List.getElem?_eq_getElem hi⟩
    obtain ⟨b, eb⟩ := get (i + 1)
    obtain ⟨c, ec⟩ := get (i + 2)
    rw [ea, eb, ec] at hr
    simp only at hr
    obtain ⟨turn, hin⟩ := hconv i a b c hi ea eb ec
    have hin2 : ∀ u ∈ v, outArea b c u ≤ 0 := by
      obtain ⟨d, ed⟩ := get ((i + 1) % v.length + 2)
      have e2 : ((i + 1) % v.length + 1) % v.length = (i + 2) % v.length := by rw [Nat.mod_add_mod]
      exact (hconv ((i + 1) % v.length) b c d (Nat.mod_lt _ (by omega)) eb (by rw [e2]; exact ec) ed).2
    have ma := List.mem_of_getElem? ea
    have mb := List.mem_of_getElem? eb
    unfold polyRound at hr
    simp only at hr
    split_ifs at hr with c1 c2 c3 c4
    · rw [dot_outward, not_lt] at c1
      cases hr
      have hee : 0 < dot2 (sub2 b a) (sub2 b a) := by
        have : dot2 (sub2 p a) (sub2 b a) - dot2 (sub2 p b) (sub2 b a) = dot2 (sub2 b a) (sub2 b a) := by
          simp only [dot2, sub2]; ring
        linarith
      set t := dot2 (sub2 p a) (sub2 b a) / dot2 (sub2 b a) (sub2 b a) with htd
      have t0 : 0 ≤ t := by positivity
      have t1 : t ≤ 1 := by
        rw [htd, div_le_one hee]
        have : dot2 (sub2 p a) (sub2 b a) - dot2 (sub2 p b) (sub2 b a) = dot2 (sub2 b a) (sub2 b a) := by
          simp only [dot2, sub2]; ring
        linarith
      constructor
      · intro n k hk
        have h1 := hk a ma
        have h2 := hk b mb
        simp only [dot2, along2] at h1 h2 ⊢
        nlinarith
      · apply far
        intro u hu
        have hu' := hin u hu
        have ht : t * dot2 (sub2 b a) (sub2 b a) = dot2 (sub2 p a) (sub2 b a) := by rw [htd]; field_simp
        -- the step to `p` is along the outward direction
        have key : dot2 (sub2 u (along2 a b t)) (sub2 p (along2 a b t)) * dot2 (sub2 b a) (sub2 b a) =
            outArea a b u * outArea a b p := by
          clear_value t
          have q1 : dot2 (sub2 p (along2 a b t)) (sub2 b a) = 0 := by
            have : dot2 (sub2 p (along2 a b t)) (sub2 b a) =
                dot2 (sub2 p a) (sub2 b a) - t * dot2 (sub2 b a) (sub2 b a) := by
              simp only [dot2, sub2, along2]; ring
            rw [this, ht]; ring
          have q2 : outArea a b p = dot2 (sub2 p (along2 a b t)) (outward a b) := by
            simp only [dot2, sub2, along2, outArea, outward]; ring
          have q3 : outArea a b u = dot2 (sub2 u (along2 a b t)) (outward a b) := by
            simp only [dot2, sub2, along2, outArea, outward]; ring
          rw [q2, q3]
          have gen : ∀ x y e : V2, dot2 y e = 0 → dot2 x y * dot2 e e = dot2 x ⟨e.y, -e.x⟩ * dot2 y ⟨e.y, -e.x⟩ := by
            intro x y e he
            have : dot2 x y * dot2 e e = dot2 x ⟨e.y, -e.x⟩ * dot2 y ⟨e.y, -e.x⟩ + dot2 x e * dot2 y e := by
              simp only [dot2]; ring
            rw [this, he]; ring
          exact gen _ _ _ q1
        by_contra hn
        push Not at hn
        have h1 := mul_pos hn hee
        rw [key] at h1
        nlinarith
    · rw [Option.some.injEq] at hr
      subst hr
      rw [not_lt] at c3
      constructor
      · intro n k hk; exact hk b mb
      · apply far
        intro u hu
        have h1 := hin u hu
        have h2 := hin2 u hu
        have key : perp2 (sub2 b a) (sub2 c b) * dot2 (sub2 u b) (sub2 p b) =
            -outArea a b u * dot2 (sub2 p b) (sub2 c b) + outArea b c u * dot2 (sub2 p b) (sub2 b a) := by
          simp only [perp2, sub2, dot2, outArea]; ring
        by_contra hn
        push Not at hn
        have h3 := mul_pos turn hn
        rw [key] at h3
        nlinarith
  · intro hin
    unfold closestPolygon
    rw [List.findSome?_eq_none_iff]
    intro i hi
    rw [List.mem_range] at hi
    obtain ⟨a, ea⟩ : ∃ a, v[i]? = some a := ⟨_, List.getElem?_eq_getElem hi⟩
    obtain ⟨b, eb⟩ := get (i + 1)
    obtain ⟨c, ec⟩ := get (i + 2)
    rw [ea, eb, ec]
    simp only [polyRound]
    rw [dot_outward, if_pos (hin i a b ea eb)]
  · intro i a b ea eb h0 h1 h2 hnone
    unfold closestPolygon at hnone
    rw [List.findSome?_eq_none_iff] at hnone
    obtain ⟨hi, _⟩ := List.getElem?_eq_some_iff.mp ea
    have := hnone i (List.mem_range.mpr hi)
    obtain ⟨c, ec⟩ := get (i + 2)
    rw [ea, eb, ec] at this
    simp only [polyRound] at this
    rw [dot_outward, if_neg (not_lt.mpr h0), if_pos h1, if_pos h2] at this
    simp at this

theorem right_triangle_convex : ConvexPolygon [⟨0, 0⟩, ⟨1, 0⟩, ⟨0, 1⟩] := by
  refine ⟨by simp, ?_⟩
  intro i a b c hi ea eb ec
  simp only [List.length_cons, List.length_nil] at hi eb ec
  have : i = 0 ∨ i = 1 ∨ i = 2 := by omega
  rcases this with rfl | rfl | rfl <;> simp at ea eb ec <;> subst ea <;> subst eb <;> subst ec <;>
    norm_num [perp2, sub2, outArea]

/-- A point beyond an acute corner of a triangle is taken to be inside. -/
theorem closest_polygon_refuted : ¬ ClosestPolygonFull := by
  intro h
  have h1 := (h [⟨0, 0⟩, ⟨1, 0⟩, ⟨0, 1⟩] ⟨3, 1⟩ right_triangle_convex).1 (by
    norm_num [closestPolygon, List.range_succ, polyRound, dot2, sub2, outward])
  have := h1 ⟨1, 0⟩ 1 (by norm_num [dot2])
  norm_num [dot2] at this

end Edyn.Geom
