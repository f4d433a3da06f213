import Mathlib.Algebra.Order.Field.Basic
import Mathlib.Algebra.Order.Field.Rat
import Mathlib.Tactic.Linarith
import Verif.Math.Vec

/-!
# Where a new contact point goes (C60)

`insertion_point_index`, `src/edyn/math/geom.cpp` 857-988, and what it uses.  Scalars are elements of an
ordered field; `root` stands for `std::sqrt`, about which nothing is assumed.
-/

namespace Edyn.Contact

open Edyn.Math

variable {T : Type} [Field T] [LinearOrder T] [IsStrictOrderedRing T]

/-- `insertion_point_result`, `include/edyn/math/geom.hpp` 251-262.  `append` stands for the index that
`num_points` had, and `num_points` is incremented. -/
inductive Ins where
  | none
  | append
  | similar (i : Nat)
  | replace (i : Nat)
deriving DecidableEq

/-- The constants: `contact_merging_threshold`, `EDYN_EPSILON`, the threshold `1e-18` of
`try_normalize`, and `std::sqrt`. -/
structure Consts (T : Type) where
  merging : T
  eps : T
  tiny : T
  root : T → T

/-- `try_normalize`, `include/edyn/math/vector3.hpp` 239-248. -/
def tryNormalize (c : Consts T) (v : V3 T) : Option (V3 T) :=
  if V3.lengthSqr v > c.tiny then some (V3.smul (1 / c.root (V3.lengthSqr v)) v) else none

/-- `point_in_triangle`, `src/edyn/math/triangle.cpp` 7-26, with `get_triangle_edges` 28-34. -/
def pointInTriangle (c : Consts T) (v0 v1 v2 n p : V3 T) : Bool :=
  let d0 := V3.dot (V3.cross (v1 - v0) n) (p - v0)
  let d1 := V3.dot (V3.cross (v2 - v1) n) (p - v1)
  let d2 := V3.dot (V3.cross (v0 - v2) n) (p - v2)
  decide ((d0 > -c.eps ∧ d1 > -c.eps ∧ d2 > -c.eps) ∨ (d0 < c.eps ∧ d1 < c.eps ∧ d2 < c.eps))

/-- `manifold_score`, `geom.cpp` 846-855. -/
def score (p0 p1 p2 p3 : V3 T) : T :=
  V3.lengthSqr (V3.cross (p0 - p1) (p0 - p2)) + V3.lengthSqr (V3.cross (p0 - p2) (p0 - p3)) +
    V3.lengthSqr (V3.cross (p0 - p3) (p0 - p1)) + V3.lengthSqr (V3.cross (p1 - p2) (p2 - p3))

/-- The loops that find the best of some values, `geom.cpp` 942-947 (with `better a b`: `a < b`) and
970-975 (with `a > b`): the index of the best one among those better than `best`. -/
def pick (better : T → T → Bool) : List T → Nat → T → Option Nat → Option Nat
  | [], _, _, found => found
  | x :: xs, i, best, found =>
    if better x best then pick better xs (i + 1) x (some i) else pick better xs (i + 1) best found

/-- `insertion_point_index`, two points, `geom.cpp` 877-902. -/
def insert2 (c : Consts T) (p0 p1 p : V3 T) : Ins :=
  if V3.lengthSqr (V3.cross (p - p0) (p - p1)) > c.eps then .append
  else
    let d0 := V3.distanceSqr p p0
    let d1 := V3.distanceSqr p p1
    let cur := V3.distanceSqr p0 p1
    if d0 > cur ∧ d0 > d1 then if d1 < c.merging * c.merging then .similar 1 else .replace 1
    else if d1 > cur ∧ d1 > d0 then if d0 < c.merging * c.merging then .similar 0 else .replace 0
    else .none

/-- `insertion_point_index`, three points, `geom.cpp` 904-956.  The search for the closest pair starts
from `EDYN_SCALAR_MAX`, which is taken to be larger than all distances. -/
def insert3 (c : Consts T) (p0 p1 p2 p : V3 T) : Ins :=
  match tryNormalize c (V3.cross (p0 - p1) (p1 - p2)) with
  | some n =>
    if |V3.dot (p - p0) n| < c.eps ∧ pointInTriangle c p0 p1 p2 n p = true then .none else .append
  | none =>
    let d0 := V3.dot (p1 - p0) (p2 - p0)
    if d0 > 0 ∧ d0 < 1 then .replace 1
    else
      let d1 := V3.dot (p0 - p1) (p2 - p1)
      if d1 > 0 ∧ d1 < 1 then .replace 0
      else
        let d2 := V3.dot (p2 - p0) (p1 - p0)
        if d2 > 0 ∧ d2 < 1 then .replace 2
        else
          let e0 := V3.distanceSqr p0 p1
          let e1 := V3.distanceSqr p1 p2
          let e2 := V3.distanceSqr p2 p0
          .replace ((pick (fun a b => decide (a < b)) [e1, e2] 1 e0 (some 0)).getD 0)

/-- `insertion_point_index`, four points, `geom.cpp` 958-987. -/
def insert4 (c : Consts T) (p0 p1 p2 p3 p : V3 T) : Ins :=
  match pick (fun a b => decide (a > b))
      [score p p1 p2 p3, score p p0 p2 p3, score p p0 p1 p3, score p p0 p1 p2] 0
      (score p0 p1 p2 p3) none with
  | some i =>
    if V3.distanceSqr ([p0, p1, p2, p3].getD i p0) p < c.merging * c.merging then .similar i else .replace i
  | none => .none

/-- `insertion_point_index`, `geom.cpp` 857-988. -/
def insertionPoint (c : Consts T) (pts : List (V3 T)) (p : V3 T) : Ins :=
  match pts with
  | [] => .append
  | [p0] => if V3.distanceSqr p p0 > c.merging * c.merging then .append else .similar 0
  | [p0, p1] => insert2 c p0 p1 p
  | [p0, p1, p2] => insert3 c p0 p1 p2 p
  | p0 :: p1 :: p2 :: p3 :: _ => insert4 c p0 p1 p2 p3 p

/-! ### Indices -/

theorem pick_range (better : T → T → Bool) : ∀ (xs : List T) (i : Nat) (b : T) (o : Option Nat) (j : Nat),
    pick better xs i b o = some j → o = some j ∨ (i ≤ j ∧ j < i + xs.length) := by
  intro xs
  induction xs with
  | nil => intro i b o j h; exact Or.inl h
  | cons x xs ih =>
    intro i b o j h
    simp only [pick] at h
    split at h
    · rcases ih _ _ _ _ h with e | e
      · cases e; right; simp
      · right; simp; omega
    · rcases ih _ _ _ _ h with e | e
      · exact Or.inl e
      · right; simp; omega

/-- The place found for a point is in the manifold, or it is the first free one of the four. -/
theorem insertion_in_range (c : Consts T) (pts : List (V3 T)) (p : V3 T) :
    (insertionPoint c pts p = .append → pts.length < 4) ∧
    ∀ i, (insertionPoint c pts p = .similar i ∨ insertionPoint c pts p = .replace i) → i < pts.length := by
  match pts with
  | [] => simp [insertionPoint]
  | [p0] =>
    simp only [insertionPoint]
    split <;> simp
  | [p0, p1] =>
    simp only [insertionPoint, insert2]
    split
    · simp
    · split
      · split <;> simp
      · split
        · split <;> simp
        · simp
  | [p0, p1, p2] =>
    refine ⟨fun _ => by simp, ?_⟩
    intro i
    simp only [insertionPoint, insert3]
    cases tryNormalize c (V3.cross (p0 - p1) (p1 - p2)) with
    | some n => simp only; split <;> simp
    | none =>
      simp only
      split
      · simp; omega
      · split
        · simp; omega
        · split
          · simp; omega
          · intro h
            have h : (pick (fun a b => decide (a < b)) [V3.distanceSqr p1 p2, V3.distanceSqr p2 p0] 1
                (V3.distanceSqr p0 p1) (some 0)).getD 0 = i := by
              rcases h with h | h
              · cases h
              · injection h
            cases hp : pick (fun a b => decide (a < b)) [V3.distanceSqr p1 p2, V3.distanceSqr p2 p0] 1
                (V3.distanceSqr p0 p1) (some 0) with
            | none => rw [hp] at h; simp at h; simp; omega
            | some j =>
              rw [hp] at h; simp at h; subst h
              rcases pick_range _ _ _ _ _ _ hp with e | e
              · cases e; simp
              · simp at e; simp; omega
  | p0 :: p1 :: p2 :: p3 :: l =>
    simp only [insertionPoint, insert4]
    cases hp : pick (fun a b => decide (a > b))
      [score p p1 p2 p3, score p p0 p2 p3, score p p0 p1 p3, score p p0 p1 p2] 0
      (score p0 p1 p2 p3) none with
    | none => simp
    | some j =>
      rcases pick_range _ _ _ _ _ _ hp with e | e
      · cases e
      · simp at e
        simp only
        split <;> simp <;> omega

/-! ### Quality of the choice -/

/-- The best of some values, if one is better than the first. -/
theorem pick_best : ∀ (xs : List T) (i : Nat) (b : T) (o : Option Nat),
    match pick (fun a b => decide (a > b)) xs i b o with
    | none => o = none ∧ ∀ x ∈ xs, x ≤ b
    | some j => (o = some j ∧ ∀ x ∈ xs, x ≤ b) ∨
        (i ≤ j ∧ ∃ y, xs[j - i]? = some y ∧ b < y ∧ ∀ x ∈ xs, x ≤ y) := by
  intro xs
  induction xs with
  | nil => intro i b o; simp only [pick]; cases o <;> simp
  | cons x xs ih =>
    intro i b o
    simp only [pick, decide_eq_true_eq]
    by_cases hb : x > b
    · rw [if_pos hb]
      have := ih (i + 1) x (some i)
      cases hp : pick (fun a b => decide (a > b)) xs (i + 1) x (some i) with
      | none => rw [hp] at this; simp at this
      | some j =>
        rw [hp] at this
        simp only at this ⊢
        right
        rcases this with ⟨e, hx⟩ | ⟨hj, y, hy, hlt, hx⟩
        · cases e
          refine ⟨le_refl _, x, by simp, hb, ?_⟩
          simpa using hx
        · refine ⟨by omega, y, ?_, lt_trans hb hlt, ?_⟩
          · rw [show j - i = (j - (i + 1)) + 1 by omega]; simpa using hy
          · intro z hz
            rcases List.mem_cons.1 hz with rfl | hz
            · exact hlt.le
            · exact hx z hz
    · rw [if_neg hb]
      have hb : x ≤ b := not_lt.1 hb
      have := ih (i + 1) b o
      cases hp : pick (fun a b => decide (a > b)) xs (i + 1) b o with
      | none =>
        rw [hp] at this
        simp only at this ⊢
        exact ⟨this.1, by simpa [hb] using this.2⟩
      | some j =>
        rw [hp] at this
        simp only at this ⊢
        rcases this with ⟨e, hx⟩ | ⟨hj, y, hy, hlt, hx⟩
        · left; exact ⟨e, by simpa [hb] using hx⟩
        · right
          refine ⟨by omega, y, ?_, hlt, ?_⟩
          · rw [show j - i = (j - (i + 1)) + 1 by omega]; simpa using hy
          · intro z hz
            rcases List.mem_cons.1 hz with rfl | hz
            · exact le_trans hb hlt.le
            · exact hx z hz

/-- Specification: twice the area of a triangle, squared, and the sum over the four faces of a
tetrahedron, whose vertices may be listed in any order. -/
def area2 (a b c : V3 T) : T := V3.lengthSqr (V3.cross (b - a) (c - a))

def faces (a b c d : V3 T) : T := area2 a b c + area2 a c d + area2 a d b + area2 b c d

/-- The score is the sum over the faces, so the order in which the points are listed is irrelevant. -/
theorem score_eq_faces (a b c d : V3 T) : score a b c d = faces a b c d := by
  simp only [score, faces, area2, V3.lengthSqr, V3.dot, V3.cross_x, V3.cross_y, V3.cross_z, V3.sub_x,
    V3.sub_y, V3.sub_z]
  ring

theorem faces_swap (a b c d : V3 T) : faces a b c d = faces b a c d ∧ faces a b c d = faces a c b d ∧
    faces a b c d = faces a b d c := by
  refine ⟨?_, ?_, ?_⟩ <;>
  · simp only [faces, area2, V3.lengthSqr, V3.dot, V3.cross_x, V3.cross_y, V3.cross_z, V3.sub_x,
      V3.sub_y, V3.sub_z]
    ring

/-- The faces of a list of four points. -/
def facesOf : List (V3 T) → T
  | [a, b, c, d] => faces a b c d
  | _ => 0

/-- With four points present: the new point takes the place of one of them exactly if that makes the sum
of the faces larger, and it takes the place with which the sum becomes as large as possible. -/
theorem four_points_best (c : Consts T) (p0 p1 p2 p3 p : V3 T) :
    match insertionPoint c [p0, p1, p2, p3] p with
    | .append => False
    | .none => ∀ j < 4, facesOf ([p0, p1, p2, p3].set j p) ≤ facesOf [p0, p1, p2, p3]
    | .similar i | .replace i =>
      facesOf [p0, p1, p2, p3] < facesOf ([p0, p1, p2, p3].set i p) ∧
      ∀ j < 4, facesOf ([p0, p1, p2, p3].set j p) ≤ facesOf ([p0, p1, p2, p3].set i p) := by
  have e0 : facesOf ([p0, p1, p2, p3].set 0 p) = score p p1 p2 p3 := by
    rw [score_eq_faces]; rfl
  have e1 : facesOf ([p0, p1, p2, p3].set 1 p) = score p p0 p2 p3 := by
    rw [score_eq_faces]; exact (faces_swap p p0 p2 p3).1.symm ▸ rfl
  have e2 : facesOf ([p0, p1, p2, p3].set 2 p) = score p p0 p1 p3 := by
    rw [score_eq_faces, (faces_swap p p0 p1 p3).1, (faces_swap p0 p p1 p3).2.1]; rfl
  have e3 : facesOf ([p0, p1, p2, p3].set 3 p) = score p p0 p1 p2 := by
    rw [score_eq_faces, (faces_swap p p0 p1 p2).1, (faces_swap p0 p p1 p2).2.1,
      (faces_swap p0 p1 p p2).2.2]; rfl
  have ec : facesOf [p0, p1, p2, p3] = score p0 p1 p2 p3 := by rw [score_eq_faces]; rfl
  have hj : ∀ j < 4, facesOf ([p0, p1, p2, p3].set j p) ∈
      [score p p1 p2 p3, score p p0 p2 p3, score p p0 p1 p3, score p p0 p1 p2] := by
    intro j hj
    obtain rfl | rfl | rfl | rfl : j = 0 ∨ j = 1 ∨ j = 2 ∨ j = 3 := by omega
    · rw [e0]; simp
    · rw [e1]; simp
    · rw [e2]; simp
    · rw [e3]; simp
  have hi : ∀ (i : Nat) (y : T), ([score p p1 p2 p3, score p p0 p2 p3, score p p0 p1 p3,
      score p p0 p1 p2] : List T)[i]? = some y → facesOf ([p0, p1, p2, p3].set i p) = y := by
    intro i y h
    match i with
    | 0 => rw [e0]; simpa using h
    | 1 => rw [e1]; simpa using h
    | 2 => rw [e2]; simpa using h
    | 3 => rw [e3]; simpa using h
    | i + 4 => simp at h
  have hb := pick_best [score p p1 p2 p3, score p p0 p2 p3, score p p0 p1 p3, score p p0 p1 p2] 0
    (score p0 p1 p2 p3) none
  simp only [insertionPoint, insert4]
  cases hp : pick (fun a b => decide (a > b))
      [score p p1 p2 p3, score p p0 p2 p3, score p p0 p1 p3, score p p0 p1 p2] 0
      (score p0 p1 p2 p3) none with
  | none =>
    rw [hp] at hb
    simp only at hb ⊢
    intro j h
    rw [ec]; exact hb.2 _ (hj j h)
  | some i =>
    rw [hp] at hb
    simp only at hb ⊢
    rcases hb with ⟨e, -⟩ | ⟨-, y, hy, hlt, hx⟩
    · cases e
    · have := hi i y (by simpa using hy)
      by_cases hm : V3.distanceSqr ([p0, p1, p2, p3].getD i p0) p < c.merging * c.merging
      · rw [if_pos hm]
        exact ⟨by rw [ec, this]; exact hlt, fun j h => by rw [this]; exact hx _ (hj j h)⟩
      · rw [if_neg hm]
        exact ⟨by rw [ec, this]; exact hlt, fun j h => by rw [this]; exact hx _ (hj j h)⟩

/-- With two points present: a point that is off the line is added; otherwise a point is only replaced if
the segment becomes longer, by as much as possible, and a point inside the segment is ignored. -/
theorem two_points_best (c : Consts T) (p0 p1 p : V3 T) :
    match insertionPoint c [p0, p1] p with
    | .append => c.eps < area2 p p0 p1
    | .none => area2 p p0 p1 ≤ c.eps ∧
        ∀ j < 2, ∀ a b, [p0, p1].set j p = [a, b] → V3.distanceSqr a b ≤ V3.distanceSqr p0 p1 ∨
          V3.distanceSqr p p0 = V3.distanceSqr p p1
    | .similar i | .replace i => area2 p p0 p1 ≤ c.eps ∧ ∀ a b, [p0, p1].set i p = [a, b] →
        V3.distanceSqr p0 p1 < V3.distanceSqr a b ∧ V3.distanceSqr p p0 ≤ V3.distanceSqr a b ∧
        V3.distanceSqr p p1 ≤ V3.distanceSqr a b := by
  have ha : V3.lengthSqr (V3.cross (p - p0) (p - p1)) = area2 p p0 p1 := by
    simp only [area2, V3.lengthSqr, V3.dot, V3.cross_x, V3.cross_y, V3.cross_z, V3.sub_x, V3.sub_y,
      V3.sub_z]
    ring
  have hs : V3.distanceSqr p0 p = V3.distanceSqr p p0 := by
    simp only [V3.distanceSqr, V3.lengthSqr, V3.dot, V3.sub_x, V3.sub_y, V3.sub_z]; ring
  simp only [insertionPoint, insert2, ha]
  by_cases h : area2 p p0 p1 > c.eps
  · rw [if_pos h]; exact h
  · rw [if_neg h]
    have h' := not_lt.1 h
    by_cases h0 : V3.distanceSqr p p0 > V3.distanceSqr p0 p1 ∧ V3.distanceSqr p p0 > V3.distanceSqr p p1
    · rw [if_pos h0]
      by_cases hm : V3.distanceSqr p p1 < c.merging * c.merging
      on_goal 1 => rw [if_pos hm]
      on_goal 2 => rw [if_neg hm]
      all_goals
        refine ⟨h', ?_⟩
        intro a b e
        simp at e
        obtain ⟨rfl, rfl⟩ := e
        rw [hs]
        exact ⟨h0.1, le_refl _, h0.2.le⟩
    · rw [if_neg h0]
      by_cases h1 : V3.distanceSqr p p1 > V3.distanceSqr p0 p1 ∧ V3.distanceSqr p p1 > V3.distanceSqr p p0
      · rw [if_pos h1]
        by_cases hm : V3.distanceSqr p p0 < c.merging * c.merging
        on_goal 1 => rw [if_pos hm]
        on_goal 2 => rw [if_neg hm]
        all_goals
          refine ⟨h', ?_⟩
          intro a b e
          simp at e
          obtain ⟨rfl, rfl⟩ := e
          exact ⟨h1.1, h1.2.le, le_refl _⟩
      · rw [if_neg h1]
        refine ⟨h', ?_⟩
        intro j hj a b e
        obtain rfl | rfl : j = 0 ∨ j = 1 := by omega
        · simp at e
          obtain ⟨rfl, rfl⟩ := e
          by_contra hc
          rw [not_or, not_le] at hc
          rcases lt_trichotomy (V3.distanceSqr p p0) (V3.distanceSqr p p1) with q | q | q
          · exact h1 ⟨hc.1, q⟩
          · exact hc.2 q
          · exact h0 ⟨lt_trans hc.1 q, q⟩
        · simp at e
          obtain ⟨rfl, rfl⟩ := e
          by_contra hc
          rw [not_or, not_le, hs] at hc
          rcases lt_trichotomy (V3.distanceSqr p p0) (V3.distanceSqr p p1) with q | q | q
          · exact h1 ⟨lt_trans hc.1 q, q⟩
          · exact hc.2 q
          · exact h0 ⟨hc.1, q⟩

/-- Specification: `b` is strictly between `a` and `c` on a line. -/
def Between (a b c : V3 T) : Prop := ∃ t : T, 0 < t ∧ t < 1 ∧ b = a + V3.smul t (c - a)

/-- C60 in full, the part about three points on a line: the one that is replaced is not an end. -/
def ThreeFullStatement (c : Consts T) : Prop := ∀ p0 p1 p2 p : V3 T, ∀ i,
  (Between p0 p1 p2 → insertionPoint c [p0, p1, p2] p = .replace i → i = 1) ∧
  (Between p1 p0 p2 → insertionPoint c [p0, p1, p2] p = .replace i → i = 0) ∧
  (Between p0 p2 p1 → insertionPoint c [p0, p1, p2] p = .replace i → i = 2)

theorem cross_eq_zero_of_between {a b c : V3 T} (h : Between a b c) : V3.cross (a - b) (b - c) = 0 := by
  obtain ⟨t, -, -, rfl⟩ := h
  ext <;> simp <;> ring

/-- The middle of three aligned points is replaced if it is listed second and the product of its distances
from the first and of their ends is below one. -/
theorem three_points_middle_partial (c : Consts T) (ht : 0 ≤ c.tiny) (p0 p1 p2 p : V3 T)
    (h : Between p0 p1 p2) (hne : p0 ≠ p2) (hs : V3.distanceSqr p0 p2 ≤ 1) :
    insertionPoint c [p0, p1, p2] p = .replace 1 := by
  have hz := cross_eq_zero_of_between h
  have hn : tryNormalize c (V3.cross (p0 - p1) (p1 - p2)) = none := by
    rw [hz]
    simp only [tryNormalize, V3.lengthSqr, V3.dot, V3.zero_x, V3.zero_y, V3.zero_z, mul_zero, add_zero,
      if_neg (not_lt.2 ht)]
  obtain ⟨t, h0, h1, rfl⟩ := h
  have hd : V3.dot (p0 + V3.smul t (p2 - p0) - p0) (p2 - p0) = t * V3.distanceSqr p0 p2 := by
    simp only [V3.dot, V3.distanceSqr, V3.lengthSqr, V3.sub_x, V3.sub_y, V3.sub_z, V3.add_x, V3.add_y,
      V3.add_z, V3.smul_x, V3.smul_y, V3.smul_z]
    ring
  have hpos : 0 < V3.distanceSqr p0 p2 := by
    have hnn : 0 ≤ V3.distanceSqr p0 p2 := by
      simp only [V3.distanceSqr, V3.lengthSqr, V3.dot]
      nlinarith [mul_self_nonneg (p0 - p2).x, mul_self_nonneg (p0 - p2).y, mul_self_nonneg (p0 - p2).z]
    refine lt_of_le_of_ne hnn fun e => hne ?_
    simp only [V3.distanceSqr, V3.lengthSqr, V3.dot] at e
    have hx : (p0 - p2).x = 0 := by
      nlinarith [mul_self_nonneg (p0 - p2).x, mul_self_nonneg (p0 - p2).y, mul_self_nonneg (p0 - p2).z]
    have hy : (p0 - p2).y = 0 := by
      nlinarith [mul_self_nonneg (p0 - p2).x, mul_self_nonneg (p0 - p2).y, mul_self_nonneg (p0 - p2).z]
    have hz : (p0 - p2).z = 0 := by
      nlinarith [mul_self_nonneg (p0 - p2).x, mul_self_nonneg (p0 - p2).y, mul_self_nonneg (p0 - p2).z]
    simp only [V3.sub_x, V3.sub_y, V3.sub_z] at hx hy hz
    ext <;> linarith
  simp only [insertionPoint, insert3, hn, hd]
  rw [if_pos]
  constructor
  · exact mul_pos h0 hpos
  · nlinarith

/-- Concrete constants over the rational numbers. -/
def exC : Consts ℚ := ⟨1 / 100, 1 / 4503599627370496, 1 / 1000000000000000000, fun x => x⟩

/-- The end of three aligned points is replaced: they are one and two metres apart, or the middle one
is listed last. -/
theorem three_points_end_replaced : ¬ ThreeFullStatement exC := by
  intro h
  have := (h ⟨0, 0, 0⟩ ⟨1, 0, 0⟩ ⟨2, 0, 0⟩ ⟨0, 1, 0⟩ 0).1 ⟨1 / 2, by norm_num, by norm_num, by
    ext <;> simp⟩ (by decide +kernel)
  cases this

theorem three_points_order_matters :
    insertionPoint exC [⟨0, 0, 0⟩, ⟨9 / 10, 0, 0⟩, ⟨1 / 10, 0, 0⟩] ⟨0, 1, 0⟩ = .replace 1 ∧
    Between (⟨0, 0, 0⟩ : V3 ℚ) ⟨1 / 10, 0, 0⟩ ⟨9 / 10, 0, 0⟩ := by
  refine ⟨by decide +kernel, 1 / 9, by norm_num, by norm_num, ?_⟩
  ext <;> simp <;> norm_num

/-- The test for the third point repeats the one for the second, so the third point is only replaced
when it is one of the closest pair. -/
theorem third_point_branch_dead (p0 p1 p2 : V3 T) :
    V3.dot (p2 - p0) (p1 - p0) = V3.dot (p1 - p0) (p2 - p0) := by
  simp only [V3.dot]; ring

/-- Cases that occur. -/
example : insertionPoint exC [⟨0, 0, 0⟩, ⟨1, 0, 0⟩] ⟨2, 0, 0⟩ = .replace 1 := by decide +kernel
example : insertionPoint exC [⟨0, 0, 0⟩, ⟨1, 0, 0⟩] ⟨1 / 2, 0, 0⟩ = .none := by decide +kernel
example : insertionPoint exC [⟨0, 0, 0⟩, ⟨1, 0, 0⟩, ⟨1, 1, 0⟩, ⟨0, 1, 0⟩] ⟨2, 0, 0⟩ = .replace 1 := by
  decide +kernel
example : insertionPoint exC [⟨0, 0, 0⟩, ⟨1, 0, 0⟩, ⟨1, 1, 0⟩, ⟨0, 1, 0⟩] ⟨1 / 2, 1 / 2, 0⟩ = .none := by
  decide +kernel
example : insertionPoint exC [⟨0, 0, 0⟩, ⟨1 / 4, 0, 0⟩, ⟨1 / 2, 0, 0⟩] ⟨0, 1, 0⟩ = .replace 1 := by
  decide +kernel

end Edyn.Contact
