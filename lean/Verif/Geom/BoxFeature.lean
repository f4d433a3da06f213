import Verif.Geom.Support
import Mathlib.Tactic.IntervalCases
import Mathlib.Tactic.FinCases
import Mathlib.Data.Fin.VecNotation

/-!
# Features of boxes (C75)

`src/edyn/shapes/box_shape.cpp`, `include/edyn/shapes/box_shape.hpp`.  Scalars are exact reals.
-/

namespace Edyn.Geom

open Edyn.Math V3

/-! ## Model -/

/-- `box_feature`, `box_shape.hpp` 12-16. -/
inductive BoxFeat
  | vertex | edge | face
deriving DecidableEq

/-- `box_shape::get_vertex`, `box_shape.cpp` 115-128; `none`: the assertion fails. -/
noncomputable def boxVertex (h : V3 ℝ) : ℕ → Option (V3 ℝ)
  | 0 => some ⟨h.x, h.y, h.z⟩
  | 1 => some ⟨h.x, -h.y, h.z⟩
  | 2 => some ⟨h.x, -h.y, -h.z⟩
  | 3 => some ⟨h.x, h.y, -h.z⟩
  | 4 => some ⟨-h.x, h.y, h.z⟩
  | 5 => some ⟨-h.x, h.y, -h.z⟩
  | 6 => some ⟨-h.x, -h.y, -h.z⟩
  | 7 => some ⟨-h.x, -h.y, h.z⟩
  | _ => none

/-- `box_shape::edge_indices`, `box_shape.hpp` 21-34. -/
def boxEdges : List (ℕ × ℕ) :=
  [(0, 1), (1, 2), (2, 3), (3, 0), (4, 5), (5, 6), (6, 7), (7, 4), (0, 4), (1, 7), (2, 6), (3, 5)]

/-- `box_shape::face_indices`, `box_shape.hpp` 36-43. -/
def boxFaces : List (ℕ × ℕ × ℕ × ℕ) :=
  [(0, 1, 2, 3), (4, 5, 6, 7), (0, 3, 5, 4), (1, 7, 6, 2), (0, 4, 7, 1), (3, 2, 6, 5)]

/-- `box_shape::get_edge`, `box_shape.cpp` 134-140. -/
noncomputable def boxEdge (h : V3 ℝ) (i : ℕ) : Option (List (V3 ℝ)) :=
  boxEdges[i]?.bind fun e => (boxVertex h e.1).bind fun v => (boxVertex h e.2).map fun w => [v, w]

/-- `box_shape::get_face`, `box_shape.cpp` 150-158. -/
noncomputable def boxFace (h : V3 ℝ) (i : ℕ) : Option (List (V3 ℝ)) :=
  boxFaces[i]?.bind fun f => (boxVertex h f.1).bind fun a => (boxVertex h f.2.1).bind fun b =>
    (boxVertex h f.2.2.1).bind fun c => (boxVertex h f.2.2.2).map fun d => [a, b, c, d]

/-- `box_shape::get_face_normal`, `box_shape.cpp` 185-196. -/
def boxNormal : ℕ → Option (V3 ℝ)
  | 0 => some ⟨1, 0, 0⟩
  | 1 => some ⟨-1, 0, 0⟩
  | 2 => some ⟨0, 1, 0⟩
  | 3 => some ⟨0, -1, 0⟩
  | 4 => some ⟨0, 0, 1⟩
  | 5 => some ⟨0, 0, -1⟩
  | _ => none

/-- `get_face_tangent`, `box_shape.cpp` 171-183. -/
def boxTangent : ℕ → Option (V3 ℝ)
  | 0 => some ⟨0, 0, 1⟩
  | 1 => some ⟨0, 0, -1⟩
  | 2 => some ⟨1, 0, 0⟩
  | 3 => some ⟨-1, 0, 0⟩
  | 4 => some ⟨0, 1, 0⟩
  | 5 => some ⟨0, -1, 0⟩
  | _ => none

/-- `box_shape::get_face_center`, `box_shape.cpp` 202-206. -/
noncomputable def boxFaceCenter (h : V3 ℝ) (i : ℕ) (pos : V3 ℝ) (orn : Quat ℝ) : Option (V3 ℝ) :=
  (boxNormal i).map fun n =>
    pos + smul (if i / 2 = 0 then h.x else if i / 2 = 1 then h.y else h.z) (Quat.rotate orn n)

/-- `box_shape::get_face_basis`, `box_shape.cpp` 208-213: the columns. -/
noncomputable def boxBasis (i : ℕ) (orn : Quat ℝ) : Option (V3 ℝ × V3 ℝ × V3 ℝ) :=
  (boxNormal i).bind fun y => (boxTangent i).map fun x =>
    (Quat.rotate orn x, Quat.rotate orn y, Quat.rotate orn (cross x y))

/-- `box_shape::get_face_half_extents`, `box_shape.cpp` 215-225. -/
def boxFaceHalf (h : V3 ℝ) (i : ℕ) : ℝ × ℝ :=
  if i = 0 ∨ i = 1 then (h.z, h.y) else if i = 2 ∨ i = 3 then (h.x, h.z) else (h.y, h.x)

/-- `box_shape::get_face_edge_index`, `box_shape.cpp` 227-239. -/
def boxFaceEdge (f e : ℕ) : Option ℕ :=
  if f < 6 ∧ e < 4 then
    [0, 1, 2, 3, 4, 5, 6, 7, 3, 11, 4, 8, 9, 6, 10, 1, 8, 7, 9, 0, 2, 10, 5, 11][f * 4 + e]?
  else none

/-- `box_shape::get_edge_index`, `box_shape.cpp` 241-255; `none`: the assertion fails. -/
def boxEdgeIndex (v w : ℕ) : Option ℕ :=
  boxEdges.findIdx? fun e => (e.1 = v ∧ e.2 = w) ∨ (e.2 = v ∧ e.1 = w)

/-- `box_shape::get_edge_face_indices`, `box_shape.cpp` 384-401. -/
def boxEdgeFaces (i : ℕ) : Option (ℕ × ℕ) :=
  [(0, 4), (0, 3), (0, 5), (0, 2), (1, 2), (1, 5), (1, 3), (1, 4), (4, 2), (3, 4), (5, 3), (2, 5)][i]?

/-- `box_shape::support_face_index`, `box_shape.cpp` 257-265, with `max_index_abs`, `vector3.hpp` 298-317. -/
noncomputable def boxSupportFace (d : V3 ℝ) : ℕ :=
  let i := if |d.x| < |d.y| then 1 else 0
  let m := if |d.x| < |d.y| then |d.y| else |d.x|
  let i := if m < |d.z| then 2 else i
  let c := if i = 0 then d.x else if i = 1 then d.y else d.z
  if c < 0 then i * 2 + 1 else i * 2

/-- `box_shape::get_vertex_index_from_face`, `box_shape.cpp` 267-271. -/
def boxFaceVertex (f : ℕ) (i : Fin 4) : Option ℕ :=
  boxFaces[f]?.map fun q => ![q.1, q.2.1, q.2.2.1, q.2.2.2] i

/-- The first loop of `support_feature`, `box_shape.cpp` 49-61: the index of the greatest projection.  The
lowest scalar the loop starts with is replaced by the first projection. -/
noncomputable def boxBest (p : Fin 4 → ℝ) : Fin 4 :=
  let m : Fin 4 := if p 0 < p 1 then 1 else 0
  let m := if p m < p 2 then 2 else m
  if p m < p 3 then 3 else m

/-- The vertices of the face the feature consists of. -/
inductive BoxSel
  | vertex (i : Fin 4) | edge (i j : Fin 4) | face

/-- The second loop and the choice, `box_shape.cpp` 63-95. -/
noncomputable def boxSelect (p : Fin 4 → ℝ) (tol : ℝ) : BoxSel :=
  let m := boxBest p
  match [(0 : Fin 4), 1, 2, 3].filter fun i => i ≠ m ∧ p m - tol < p i with
  | [] => .vertex m
  | [i] => .edge m i
  | [i, j] =>
    if p m ≤ p i ∧ p m ≤ p j then .edge i j
    else if p i ≤ p m ∧ p i ≤ p j then .edge m j
    else .edge m i
  | _ => .face

/-- `box_shape::support_feature`, `box_shape.cpp` 30-96; `none`: an assertion fails. -/
noncomputable def boxSupportFeature (h d : V3 ℝ) (tol : ℝ) : Option (BoxFeat × ℕ × ℝ) :=
  let f := boxSupportFace d
  (boxFaceVertex f 0).bind fun i0 => (boxFaceVertex f 1).bind fun i1 => (boxFaceVertex f 2).bind fun i2 =>
  (boxFaceVertex f 3).bind fun i3 =>
  (boxVertex h i0).bind fun v0 => (boxVertex h i1).bind fun v1 => (boxVertex h i2).bind fun v2 =>
  (boxVertex h i3).bind fun v3 =>
  let p := ![dot v0 d, dot v1 d, dot v2 d, dot v3 d]
  let ix := ![i0, i1, i2, i3]
  let proj := p (boxBest p)
  match boxSelect p tol with
  | .vertex i => some (.vertex, ix i, proj)
  | .edge i j => (boxEdgeIndex (ix i) (ix j)).map fun e => (.edge, e, proj)
  | .face => some (.face, f, proj)

/-- `box_shape::support_feature` of a placed box, `box_shape.cpp` 98-106. -/
noncomputable def boxSupportFeatureAt (h pos : V3 ℝ) (orn : Quat ℝ) (axisPos axisDir : V3 ℝ) (tol : ℝ) :
    Option (BoxFeat × ℕ × ℝ) :=
  (boxSupportFeature h (Quat.rotate orn.conjugate axisDir) tol).map fun r =>
    (r.1, r.2.1, r.2.2 + dot (pos - axisPos) axisDir)

/-- `box_shape::get_closest_feature_on_face`, `box_shape.cpp` 273-382; `none`: the variables are left
uninitialised. -/
noncomputable def boxClosestFeature (h : V3 ℝ) (f : ℕ) (p : V3 ℝ) (tol : ℝ) : Option (BoxFeat × ℕ) :=
  let t : V3 ℝ := ⟨h.x - tol, h.y - tol, h.z - tol⟩
  if f = 0 ∨ f = 1 then
    let pf := 0 < p.x
    some <|
    if t.y < p.y then
      if t.z < p.z then (.vertex, if pf then 0 else 4)
      else if p.z < -t.z then (.vertex, if pf then 3 else 5)
      else (.edge, if pf then 3 else 4)
    else if p.y < -t.y then
      if t.z < p.z then (.vertex, if pf then 1 else 7)
      else if p.z < -t.z then (.vertex, if pf then 2 else 6)
      else (.edge, if pf then 1 else 6)
    else if t.z < p.z then (.edge, if pf then 0 else 7)
    else if p.z < -t.z then (.edge, if pf then 2 else 5)
    else (.face, f)
  else if f = 2 ∨ f = 3 then
    let pf := 0 < p.y
    some <|
    if t.x < p.x then
      if t.z < p.z then (.vertex, if pf then 0 else 1)
      else if p.z < -t.z then (.vertex, if pf then 3 else 2)
      else (.edge, if pf then 3 else 1)
    else if p.x < -t.x then
      if t.z < p.z then (.vertex, if pf then 4 else 7)
      else if p.z < -t.z then (.vertex, if pf then 5 else 6)
      else (.edge, if pf then 4 else 6)
    else if t.z < p.z then (.edge, if pf then 8 else 9)
    else if p.z < -t.z then (.edge, if pf then 11 else 10)
    else (.face, f)
  else if f = 4 ∨ f = 5 then
    let pf := 0 < p.z
    some <|
    if t.x < p.x then
      if t.y < p.y then (.vertex, if pf then 0 else 3)
      else if p.y < -t.y then (.vertex, if pf then 1 else 2)
      else (.edge, if pf then 0 else 2)
    else if p.x < -t.x then
      if t.y < p.y then (.vertex, if pf then 4 else 5)
      else if p.y < -t.y then (.vertex, if pf then 7 else 6)
      else (.edge, if pf then 7 else 5)
    else if t.y < p.y then (.edge, if pf then 8 else 11)
    else if p.y < -t.y then (.edge, if pf then 9 else 10)
    else (.face, f)
  else none

/-- The vertices of a feature, as the functions of the shape give them. -/
noncomputable def boxFeatVerts (h : V3 ℝ) : BoxFeat → ℕ → Option (List (V3 ℝ))
  | .vertex, i => (boxVertex h i).map fun v => [v]
  | .edge, i => boxEdge h i
  | .face, i => boxFace h i

/-! ## Specification -/

/-- A corner of the box. -/
def Corner (h v : V3 ℝ) : Prop :=
  (v.x = h.x ∨ v.x = -h.x) ∧ (v.y = h.y ∨ v.y = -h.y) ∧ (v.z = h.z ∨ v.z = -h.z)

/-- Two corners which are mirror images along exactly one axis: the ends of an edge. -/
def EdgeEnds (v w : V3 ℝ) : Prop :=
  (w.x = -v.x ∧ w.y = v.y ∧ w.z = v.z) ∨ (w.x = v.x ∧ w.y = -v.y ∧ w.z = v.z) ∨ (w.x = v.x ∧ w.y = v.y ∧ w.z = -v.z)

/-- The corners of a feature: one corner, the ends of an edge, or the four corners of a side of the box. -/
def FeatureCorners (h : V3 ℝ) (k : BoxFeat) (vs : List (V3 ℝ)) : Prop :=
  (∀ v ∈ vs, Corner h v) ∧
  match k with
  | .vertex => ∃ v, vs = [v]
  | .edge => ∃ v w, vs = [v, w] ∧ EdgeEnds v w
  | .face => vs.length = 4 ∧ ∃ n k, (n = ex ∨ n = ey ∨ n = ez ∨ n = -ex ∨ n = -ey ∨ n = -ez) ∧
      ∀ v, Corner h v → (v ∈ vs ↔ dot v n = k)

/-! ## The tables -/

/-- Every index gives a feature of its kind, and no other index does. -/
theorem box_feature_corners (h : V3 ℝ) (hx : 0 < h.x) (hy : 0 < h.y) (hz : 0 < h.z) (k : BoxFeat) (i : ℕ) :
    (∀ vs, boxFeatVerts h k i = some vs → FeatureCorners h k vs) ∧
    ((∃ vs, boxFeatVerts h k i = some vs) ↔ i < match k with | .vertex => 8 | .edge => 12 | .face => 6) := by
  cases k
  · by_cases hi : i < 8
    · interval_cases i <;> simp [boxFeatVerts, boxVertex, FeatureCorners, Corner]
    · have : boxVertex h i = none := by
        match i, hi with
        | i + 8, _ => rfl
        | 0, hi | 1, hi | 2, hi | 3, hi | 4, hi | 5, hi | 6, hi | 7, hi => exact absurd (by norm_num) hi
      simp [boxFeatVerts, this, hi]
  · by_cases hi : i < 12
    · interval_cases i <;> simp [boxFeatVerts, boxEdge, boxEdges, boxVertex, FeatureCorners, Corner, EdgeEnds]
    · have : boxEdges[i]? = none := List.getElem?_eq_none (by simp [boxEdges]; omega)
      simp [boxFeatVerts, boxEdge, this, hi]
  · by_cases hi : i < 6
    · have key : ∀ n : ℕ, n < 6 → ∀ vs, boxFace h n = some vs → FeatureCorners h .face vs := by
        intro n hn vs hv
        have e1 : h.x ≠ -h.x := by intro e; linarith
        have e2 : h.y ≠ -h.y := by intro e; linarith
        have e3 : h.z ≠ -h.z := by intro e; linarith
        interval_cases n <;> simp only [boxFace, boxFaces, boxVertex, List.getElem?_cons_zero,
            List.getElem?_cons_succ, Option.bind_some, Option.map_some, Option.some.injEq] at hv <;> subst hv <;>
          refine ⟨by simp [Corner], rfl, ?_⟩
        · refine ⟨ex, h.x, by simp, ?_⟩
          rintro ⟨x, y, z⟩ ⟨c1 | c1, c2 | c2, c3 | c3⟩ <;> simp at c1 c2 c3 <;> subst c1 c2 c3 <;>
            simp [dot, ex, e1, e1.symm, e2, e2.symm, e3, e3.symm]
        · refine ⟨-ex, h.x, by simp, ?_⟩
          rintro ⟨x, y, z⟩ ⟨c1 | c1, c2 | c2, c3 | c3⟩ <;> simp at c1 c2 c3 <;> subst c1 c2 c3 <;>
            simp [dot, ex, e1, e1.symm, e2, e2.symm, e3, e3.symm]
        · refine ⟨ey, h.y, by simp, ?_⟩
          rintro ⟨x, y, z⟩ ⟨c1 | c1, c2 | c2, c3 | c3⟩ <;> simp at c1 c2 c3 <;> subst c1 c2 c3 <;>
            simp [dot, ey, e1, e1.symm, e2, e2.symm, e3, e3.symm]
        · refine ⟨-ey, h.y, by simp, ?_⟩
          rintro ⟨x, y, z⟩ ⟨c1 | c1, c2 | c2, c3 | c3⟩ <;> simp at c1 c2 c3 <;> subst c1 c2 c3 <;>
            simp [dot, ey, e1, e1.symm, e2, e2.symm, e3, e3.symm]
        · refine ⟨ez, h.z, by simp, ?_⟩
          rintro ⟨x, y, z⟩ ⟨c1 | c1, c2 | c2, c3 | c3⟩ <;> simp at c1 c2 c3 <;> subst c1 c2 c3 <;>
            simp [dot, ez, e1, e1.symm, e2, e2.symm, e3, e3.symm]
        · refine ⟨-ez, h.z, by simp, ?_⟩
          rintro ⟨x, y, z⟩ ⟨c1 | c1, c2 | c2, c3 | c3⟩ <;> simp at c1 c2 c3 <;> subst c1 c2 c3 <;>
            simp [dot, ez, e1, e1.symm, e2, e2.symm, e3, e3.symm]
      refine ⟨fun vs hv => key i hi vs hv, ?_⟩
      interval_cases i <;> simp [boxFeatVerts, boxFace, boxFaces, boxVertex]
    · have : boxFaces[i]? = none := List.getElem?_eq_none (by simp [boxFaces]; omega)
      simp [boxFeatVerts, boxFace, this, hi]

/-- **C75, the faces of a box.** The corners of a face go around it counter-clockwise seen from outside: the
normal points outwards and the cross product of the first two sides is along it; the centre is the mean of
the corners; the columns of the basis are orthonormal, the second one is the normal, and the corners are the
centre plus and minus the half extents along the other two. -/
theorem box_face_spec (h : V3 ℝ) (i : ℕ) (hi : i < 6) :
    ∃ a b c d n x z center, boxFace h i = some [a, b, c, d] ∧ boxNormal i = some n ∧ lengthSqr n = 1 ∧
      boxFaceCenter h i 0 1 = some center ∧ boxBasis i 1 = some (x, n, z) ∧
      lengthSqr x = 1 ∧ lengthSqr z = 1 ∧ dot x n = 0 ∧ dot z n = 0 ∧ dot x z = 0 ∧ cross x n = z ∧
      (∀ v, boxSet h v → dot v n ≤ dot center n) ∧
      cross (b - a) (c - b) = smul (4 * (boxFaceHalf h i).1 * (boxFaceHalf h i).2) n ∧
      center = smul (1 / 4) (a + b + c + d) ∧
      ∀ v, v ∈ [a, b, c, d] ↔ ∃ s t : ℝ, (s = 1 ∨ s = -1) ∧ (t = 1 ∨ t = -1) ∧
        v = center + smul (s * (boxFaceHalf h i).1) x + smul (t * (boxFaceHalf h i).2) z := by
  have q : ∀ v : V3 ℝ, (0 : V3 ℝ) + v = v := by intro v; ext <;> simp
  interval_cases i <;> simp only [boxFace, boxFaces, boxVertex, List.getElem?_cons_zero,
      List.getElem?_cons_succ, Option.bind_some, Option.map_some, Option.some.injEq, boxNormal, boxFaceCenter,
      boxBasis, boxTangent, rotate_one, boxFaceHalf, q] <;>
    refine ⟨_, _, _, _, _, _, _, _, rfl, rfl, by norm_num [lengthSqr, dot], rfl, rfl, by norm_num [lengthSqr, dot],
      by norm_num [lengthSqr, dot, cross], by norm_num [dot], by norm_num [dot, cross], by norm_num [dot, cross], rfl,
      ?_, by ext <;> simp [cross] <;> ring, by ext <;> simp <;> ring, ?_⟩
  all_goals first
    | (rintro v ⟨h1, h2, h3⟩
       rw [abs_le] at h1 h2 h3
       simp [dot]
       linarith)
    | (intro v
       constructor
       · intro hv
         simp only [List.mem_cons, List.not_mem_nil, or_false] at hv
         rcases hv with rfl | rfl | rfl | rfl
         all_goals first
           | (refine ⟨1, 1, .inl rfl, .inl rfl, ?_⟩; (ext <;> simp [cross]); done)
           | (refine ⟨1, -1, .inl rfl, .inr rfl, ?_⟩; (ext <;> simp [cross]); done)
           | (refine ⟨-1, 1, .inr rfl, .inl rfl, ?_⟩; (ext <;> simp [cross]); done)
           | (refine ⟨-1, -1, .inr rfl, .inr rfl, ?_⟩; (ext <;> simp [cross]); done)
       · rintro ⟨s, t, rfl | rfl, rfl | rfl, rfl⟩ <;> simp [V3.ext_iff, cross])

/-- **C75, the faces of a placed box.** The centre and the basis of a face of a placed box are those of the box
itself, placed; the centre is the middle of the face of the placed box and no point of the placed box is
further along the second column. -/
theorem box_face_placed (h : V3 ℝ) (i : ℕ) (hi : i < 6) (pos : V3 ℝ) (orn : Quat ℝ) (ho : orn.lengthSqr = 1) :
    ∃ center x y z, boxFaceCenter h i 0 1 = some center ∧ boxBasis i 1 = some (x, y, z) ∧
      boxFaceCenter h i pos orn = some (pos + Quat.rotate orn center) ∧
      boxBasis i orn = some (Quat.rotate orn x, Quat.rotate orn y, Quat.rotate orn z) ∧
      ∀ w, Placed (boxSet h) pos orn w → dot w (Quat.rotate orn y) ≤ dot (pos + Quat.rotate orn center) (Quat.rotate orn y) := by
  obtain ⟨a, b, c, d, n, x, z, center, -, hn, -, hc, hb, -, -, -, -, -, -, hle, -⟩ := box_face_spec h i hi
  refine ⟨center, x, n, z, hc, hb, ?_, ?_, ?_⟩
  · simp only [boxFaceCenter, hn, Option.map_some, Option.some.injEq, rotate_one] at hc ⊢
    rw [← hc, rotate_add, rotate_smul]
    congr 1
    ext <;> simp [Quat.rotate, dot, cross]
  · simp only [boxBasis, hn, Option.bind_some, Option.map_eq_some_iff, rotate_one, Prod.mk.injEq] at hb ⊢
    obtain ⟨t, ht, rfl, -, rfl⟩ := hb
    exact ⟨t, ht, rfl, trivial, rfl⟩
  · rintro w ⟨p, hp, rfl⟩
    rw [dot_add_left, dot_add_left, rotate_dot orn ho, rotate_dot orn ho]
    linarith [hle p hp]

/-- **C75, edges and faces of a box agree.** The edge with the index the table gives for side `e` of a face
joins the corners `e` and `e + 1` of the face; the two faces the table gives for an edge are different, contain
its ends, and no other face does. -/
theorem box_edge_tables (f : ℕ) (hf : f < 6) (e : Fin 4) :
    ∃ k, boxFaceEdge f e = some k ∧ ∃ v w, boxFaceVertex f e = some v ∧ boxFaceVertex f (e + 1) = some w ∧
      boxEdgeIndex v w = some k ∧ boxEdgeIndex w v = some k ∧
      (boxEdges[k]? = some (v, w) ∨ boxEdges[k]? = some (w, v)) := by
  interval_cases f <;> fin_cases e <;> exact ⟨_, rfl, _, _, rfl, rfl, by decide, by decide, by decide⟩

theorem box_edge_faces (k : ℕ) (hk : k < 12) :
    ∃ v w f g, boxEdges[k]? = some (v, w) ∧ boxEdgeFaces k = some (f, g) ∧ f ≠ g ∧
      ∀ j, j < 6 → ((∃ a b, boxFaceVertex j a = some v ∧ boxFaceVertex j b = some w) ↔ j = f ∨ j = g) := by
  have ex4 : ∀ P : Fin 4 → Prop, (∃ a, P a) ↔ P 0 ∨ P 1 ∨ P 2 ∨ P 3 := fun P => Fin.exists_fin_succ.trans (by
    simp [Fin.exists_fin_succ])
  interval_cases k <;> refine ⟨_, _, _, _, rfl, rfl, by norm_num, ?_⟩ <;> intro j hj <;> interval_cases j <;>
    simp [boxFaceVertex, boxFaces, ex4]

/-! ## Choosing among the corners of a face -/

theorem boxBest_spec (p : Fin 4 → ℝ) (j : Fin 4) : p j ≤ p (boxBest p) := by
  unfold boxBest
  fin_cases j <;> simp only <;> split_ifs <;> simp_all <;> linarith

/-- What is chosen when the corners form a parallelogram. -/
theorem boxSelect_spec (p : Fin 4 → ℝ) (tol : ℝ) (hp : p 0 + p 2 = p 1 + p 3) :
    match boxSelect p tol with
    | .vertex i => p i = p (boxBest p) ∧ ∀ j, j ≠ i → p j ≤ p i - tol
    | .edge i j => (j = i + 1 ∨ i = j + 1) ∧ p i = p (boxBest p) ∧ p i - tol < p j ∧
        (∀ k, k ≠ i → p k ≤ p j) ∧ ∃ k, p k ≤ p i - tol
    | .face => ∀ j, j = boxBest p ∨ p (boxBest p) - tol < p j := by
  have hb := boxBest_spec p
  unfold boxSelect
  simp only
  generalize boxBest p = m at hb ⊢
  have h0 := hb 0
  have h1 := hb 1
  have h2 := hb 2
  have h3 := hb 3
  clear hb
  have all4 : ∀ P : Fin 4 → Prop, (∀ a, P a) ↔ P 0 ∧ P 1 ∧ P 2 ∧ P 3 := fun P => Fin.forall_fin_succ.trans (by
    simp [Fin.forall_fin_succ])
  have ex4 : ∀ P : Fin 4 → Prop, (∃ a, P a) ↔ P 0 ∨ P 1 ∨ P 2 ∨ P 3 := fun P => Fin.exists_fin_succ.trans (by
    simp [Fin.exists_fin_succ])
  have key : ∀ P : BoxSel → Prop, ∀ s : BoxSel, (∃ s', s = s' ∧ P s') → P s := fun P s ⟨_, e, h⟩ => e ▸ h
  fin_cases m <;> simp only [Fin.zero_eta, Fin.mk_one, Fin.reduceFinMk] at h0 h1 h2 h3 ⊢
  · by_cases c1 : p 0 - tol < p 1 <;> by_cases c2 : p 0 - tol < p 2 <;> by_cases c3 : p 0 - tol < p 3 <;>
      simp [c1, c2, c3, List.filter_cons] <;> (try split_ifs) <;> (try simp [all4, ex4]) <;> grind
  · by_cases c1 : p 1 - tol < p 0 <;> by_cases c2 : p 1 - tol < p 2 <;> by_cases c3 : p 1 - tol < p 3 <;>
      simp [c1, c2, c3, List.filter_cons] <;> (try split_ifs) <;> (try simp [all4, ex4]) <;> grind
  · by_cases c1 : p 2 - tol < p 0 <;> by_cases c2 : p 2 - tol < p 1 <;> by_cases c3 : p 2 - tol < p 3 <;>
      simp [c1, c2, c3, List.filter_cons] <;> (try split_ifs) <;> (try simp [all4, ex4]) <;> grind
  · by_cases c1 : p 3 - tol < p 0 <;> by_cases c2 : p 3 - tol < p 1 <;> by_cases c3 : p 3 - tol < p 2 <;>
      simp [c1, c2, c3, List.filter_cons] <;> (try split_ifs) <;> (try simp [all4, ex4]) <;> grind

/-- The face along the greatest component. -/
theorem boxSupportFace_spec (d : V3 ℝ) :
    ∃ n, boxSupportFace d < 6 ∧ boxNormal (boxSupportFace d) = some n ∧ |d.x| ≤ dot d n ∧ |d.y| ≤ dot d n ∧
      |d.z| ≤ dot d n := by
  have key : ∀ i, boxSupportFace d = i → boxNormal i = boxNormal (boxSupportFace d) ∧ (i = boxSupportFace d) :=
    fun i h => ⟨by rw [h], h.symm⟩
  have ax := abs_cases d.x
  have ay := abs_cases d.y
  have az := abs_cases d.z
  by_cases h1 : |d.x| < |d.y|
  · by_cases h2 : |d.y| < |d.z|
    · by_cases h3 : d.z < 0
      · have : boxSupportFace d = 5 := by simp [boxSupportFace, h1, h2, h3]
        rw [this]; exact ⟨_, by norm_num, rfl, by simp [dot]; grind, by simp [dot]; grind, by simp [dot]; grind⟩
      · have : boxSupportFace d = 4 := by simp [boxSupportFace, h1, h2, h3]
        rw [this]; exact ⟨_, by norm_num, rfl, by simp [dot]; grind, by simp [dot]; grind, by simp [dot]; grind⟩
    · by_cases h3 : d.y < 0
      · have : boxSupportFace d = 3 := by simp [boxSupportFace, h1, h2, h3]
        rw [this]; exact ⟨_, by norm_num, rfl, by simp [dot]; grind, by simp [dot]; grind, by simp [dot]; grind⟩
      · have : boxSupportFace d = 2 := by simp [boxSupportFace, h1, h2, h3]
        rw [this]; exact ⟨_, by norm_num, rfl, by simp [dot]; grind, by simp [dot]; grind, by simp [dot]; grind⟩
  · by_cases h2 : |d.x| < |d.z|
    · by_cases h3 : d.z < 0
      · have : boxSupportFace d = 5 := by simp [boxSupportFace, h1, h2, h3]
        rw [this]; exact ⟨_, by norm_num, rfl, by simp [dot]; grind, by simp [dot]; grind, by simp [dot]; grind⟩
      · have : boxSupportFace d = 4 := by simp [boxSupportFace, h1, h2, h3]
        rw [this]; exact ⟨_, by norm_num, rfl, by simp [dot]; grind, by simp [dot]; grind, by simp [dot]; grind⟩
    · by_cases h3 : d.x < 0
      · have : boxSupportFace d = 1 := by simp [boxSupportFace, h1, h2, h3]
        rw [this]; exact ⟨_, by norm_num, rfl, by simp [dot]; grind, by simp [dot]; grind, by simp [dot]; grind⟩
      · have : boxSupportFace d = 0 := by simp [boxSupportFace, h1, h2, h3]
        rw [this]; exact ⟨_, by norm_num, rfl, by simp [dot]; grind, by simp [dot]; grind, by simp [dot]; grind⟩

/-- The corners of a face: they form a parallelogram, neighbours are the ends of an edge, and each corner of
the box on the side of the face is one of them. -/
theorem boxFace_data (h : V3 ℝ) (f : ℕ) (hf : f < 6) :
    ∃ (ix : Fin 4 → ℕ) (vs : Fin 4 → V3 ℝ) (n : V3 ℝ), boxNormal f = some n ∧
      (∀ i, boxFaceVertex f i = some (ix i)) ∧ (∀ i, boxVertex h (ix i) = some (vs i)) ∧
      boxFace h f = some [vs 0, vs 1, vs 2, vs 3] ∧ vs 0 + vs 2 = vs 1 + vs 3 ∧
      (∀ i j, j = i + 1 ∨ i = j + 1 → ∃ e, boxEdgeIndex (ix i) (ix j) = some e ∧
        (boxEdge h e = some [vs i, vs j] ∨ boxEdge h e = some [vs j, vs i])) ∧
      (∀ i, Corner h (vs i)) ∧
      (((n = ex ∨ n = -ex) ∧ ∀ k, dot (vs k) n = h.x) ∨ ((n = ey ∨ n = -ey) ∧ ∀ k, dot (vs k) n = h.y) ∨
        ((n = ez ∨ n = -ez) ∧ ∀ k, dot (vs k) n = h.z)) ∧
      ∀ v, Corner h v → (∃ k, v = vs k) ∨ (∃ k, v = vs k - smul (2 * dot (vs k) n) n) := by
  have all4 : ∀ P : Fin 4 → Prop, (∀ a, P a) ↔ P 0 ∧ P 1 ∧ P 2 ∧ P 3 := fun P => Fin.forall_fin_succ.trans (by
    simp [Fin.forall_fin_succ])
  have ex4 : ∀ P : Fin 4 → Prop, (∃ a, P a) ↔ P 0 ∨ P 1 ∨ P 2 ∨ P 3 := fun P => Fin.exists_fin_succ.trans (by
    simp [Fin.exists_fin_succ])
  have edge : ∀ (g : Fin 4 → ℕ) (vs : Fin 4 → V3 ℝ), (∀ i, boxFaceVertex f i = some (g i)) →
      (∀ i, boxVertex h (g i) = some (vs i)) → ∀ i j, j = i + 1 ∨ i = j + 1 → ∃ e, boxEdgeIndex (g i) (g j) = some e ∧
        (boxEdge h e = some [vs i, vs j] ∨ boxEdge h e = some [vs j, vs i]) := by
    intro g vs hg hv i j hij
    have step : ∀ i, ∃ e, boxEdgeIndex (g i) (g (i + 1)) = some e ∧ boxEdgeIndex (g (i + 1)) (g i) = some e ∧
        (boxEdge h e = some [vs i, vs (i + 1)] ∨ boxEdge h e = some [vs (i + 1), vs i]) := by
      intro i
      obtain ⟨k, _, v, w, h1, h2, h3, h4, h5⟩ := box_edge_tables f hf i
      rw [hg, Option.some.injEq] at h1 h2
      subst h1 h2
      refine ⟨k, h3, h4, ?_⟩
      unfold boxEdge
      rcases h5 with he | he
      · left; simp [he, hv]
      · right; simp [he, hv]
    rcases hij with rfl | rfl
    · obtain ⟨e, h1, _, h3⟩ := step i
      exact ⟨e, h1, h3⟩
    · obtain ⟨e, _, h2, h3⟩ := step j
      exact ⟨e, h2, h3.symm⟩
  suffices main : ∃ (g : Fin 4 → ℕ) (vs : Fin 4 → V3 ℝ) (n : V3 ℝ), boxNormal f = some n ∧
      (∀ i, boxFaceVertex f i = some (g i)) ∧ (∀ i, boxVertex h (g i) = some (vs i)) ∧
      boxFace h f = some [vs 0, vs 1, vs 2, vs 3] ∧ vs 0 + vs 2 = vs 1 + vs 3 ∧ (∀ i, Corner h (vs i)) ∧
      (((n = ex ∨ n = -ex) ∧ ∀ k, dot (vs k) n = h.x) ∨ ((n = ey ∨ n = -ey) ∧ ∀ k, dot (vs k) n = h.y) ∨
        ((n = ez ∨ n = -ez) ∧ ∀ k, dot (vs k) n = h.z)) ∧
      (∀ v, Corner h v → (∃ k, v = vs k) ∨ (∃ k, v = vs k - smul (2 * dot (vs k) n) n)) by
    obtain ⟨g, vs, n, h1, h2, h3, h4, h5, h6, h8, h7⟩ := main
    exact ⟨g, vs, n, h1, h2, h3, h4, h5, edge g vs h2 h3, h6, h8, h7⟩
  clear edge
  interval_cases f
  · refine ⟨![0, 1, 2, 3], ![⟨h.x, h.y, h.z⟩, ⟨h.x, -h.y, h.z⟩, ⟨h.x, -h.y, -h.z⟩, ⟨h.x, h.y, -h.z⟩], _, rfl, ?_, ?_, rfl, ?_, ?_, ?_, ?_⟩
    · rw [all4]; exact ⟨rfl, rfl, rfl, rfl⟩
    · rw [all4]; exact ⟨rfl, rfl, rfl, rfl⟩
    · ext <;> simp
    · rw [all4]; simp [Corner]
    · simp [all4, dot, ex, ey, ez, V3.ext_iff]
    · rintro ⟨x, y, z⟩ ⟨c1 | c1, c2 | c2, c3 | c3⟩ <;> simp at c1 c2 c3 <;> subst c1 c2 c3 <;>
        rw [ex4, ex4] <;> simp [V3.ext_iff, dot] <;> grind
  · refine ⟨![4, 5, 6, 7], ![⟨-h.x, h.y, h.z⟩, ⟨-h.x, h.y, -h.z⟩, ⟨-h.x, -h.y, -h.z⟩, ⟨-h.x, -h.y, h.z⟩], _, rfl, ?_, ?_, rfl, ?_, ?_, ?_, ?_⟩
    · rw [all4]; exact ⟨rfl, rfl, rfl, rfl⟩
    · rw [all4]; exact ⟨rfl, rfl, rfl, rfl⟩
    · ext <;> simp
    · rw [all4]; simp [Corner]
    · simp [all4, dot, ex, ey, ez, V3.ext_iff]
    · rintro ⟨x, y, z⟩ ⟨c1 | c1, c2 | c2, c3 | c3⟩ <;> simp at c1 c2 c3 <;> subst c1 c2 c3 <;>
        rw [ex4, ex4] <;> simp [V3.ext_iff, dot] <;> grind
  · refine ⟨![0, 3, 5, 4], ![⟨h.x, h.y, h.z⟩, ⟨h.x, h.y, -h.z⟩, ⟨-h.x, h.y, -h.z⟩, ⟨-h.x, h.y, h.z⟩], _, rfl, ?_, ?_, rfl, ?_, ?_, ?_, ?_⟩
    · rw [all4]; exact ⟨rfl, rfl, rfl, rfl⟩
    · rw [all4]; exact ⟨rfl, rfl, rfl, rfl⟩
    · ext <;> simp
    · rw [all4]; simp [Corner]
    · simp [all4, dot, ex, ey, ez, V3.ext_iff]
    · rintro ⟨x, y, z⟩ ⟨c1 | c1, c2 | c2, c3 | c3⟩ <;> simp at c1 c2 c3 <;> subst c1 c2 c3 <;>
        rw [ex4, ex4] <;> simp [V3.ext_iff, dot] <;> grind
  · refine ⟨![1, 7, 6, 2], ![⟨h.x, -h.y, h.z⟩, ⟨-h.x, -h.y, h.z⟩, ⟨-h.x, -h.y, -h.z⟩, ⟨h.x, -h.y, -h.z⟩], _, rfl, ?_, ?_, rfl, ?_, ?_, ?_, ?_⟩
    · rw [all4]; exact ⟨rfl, rfl, rfl, rfl⟩
    · rw [all4]; exact ⟨rfl, rfl, rfl, rfl⟩
    · ext <;> simp
    · rw [all4]; simp [Corner]
    · simp [all4, dot, ex, ey, ez, V3.ext_iff]
    · rintro ⟨x, y, z⟩ ⟨c1 | c1, c2 | c2, c3 | c3⟩ <;> simp at c1 c2 c3 <;> subst c1 c2 c3 <;>
        rw [ex4, ex4] <;> simp [V3.ext_iff, dot] <;> grind
  · refine ⟨![0, 4, 7, 1], ![⟨h.x, h.y, h.z⟩, ⟨-h.x, h.y, h.z⟩, ⟨-h.x, -h.y, h.z⟩, ⟨h.x, -h.y, h.z⟩], _, rfl, ?_, ?_, rfl, ?_, ?_, ?_, ?_⟩
    · rw [all4]; exact ⟨rfl, rfl, rfl, rfl⟩
    · rw [all4]; exact ⟨rfl, rfl, rfl, rfl⟩
    · ext <;> simp
    · rw [all4]; simp [Corner]
    · simp [all4, dot, ex, ey, ez, V3.ext_iff]
    · rintro ⟨x, y, z⟩ ⟨c1 | c1, c2 | c2, c3 | c3⟩ <;> simp at c1 c2 c3 <;> subst c1 c2 c3 <;>
        rw [ex4, ex4] <;> simp [V3.ext_iff, dot] <;> grind
  · refine ⟨![3, 2, 6, 5], ![⟨h.x, h.y, -h.z⟩, ⟨h.x, -h.y, -h.z⟩, ⟨-h.x, -h.y, -h.z⟩, ⟨-h.x, h.y, -h.z⟩], _, rfl, ?_, ?_, rfl, ?_, ?_, ?_, ?_⟩
    · rw [all4]; exact ⟨rfl, rfl, rfl, rfl⟩
    · rw [all4]; exact ⟨rfl, rfl, rfl, rfl⟩
    · ext <;> simp
    · rw [all4]; simp [Corner]
    · simp [all4, dot, ex, ey, ez, V3.ext_iff]
    · rintro ⟨x, y, z⟩ ⟨c1 | c1, c2 | c2, c3 | c3⟩ <;> simp at c1 c2 c3 <;> subst c1 c2 c3 <;>
        rw [ex4, ex4] <;> simp [V3.ext_iff, dot] <;> grind

theorem corner_box {h v : V3 ℝ} (hx : 0 ≤ h.x) (hy : 0 ≤ h.y) (hz : 0 ≤ h.z) (hv : Corner h v) : boxSet h v := by
  obtain ⟨h1, h2, h3⟩ := hv
  refine ⟨?_, ?_, ?_⟩
  · rcases h1 with e | e <;> rw [e, abs_le] <;> constructor <;> linarith
  · rcases h2 with e | e <;> rw [e, abs_le] <;> constructor <;> linarith
  · rcases h3 with e | e <;> rw [e, abs_le] <;> constructor <;> linarith

theorem supportBox_corner (h d : V3 ℝ) : Corner h (supportBox h d) := by
  unfold supportBox Corner
  refine ⟨?_, ?_, ?_⟩ <;> simp only <;> split_ifs <;> simp

/-- The face which is examined contains a corner furthest along the direction. -/
theorem boxBest_projection (h d : V3 ℝ) (hx : 0 ≤ h.x) (hy : 0 ≤ h.y) (hz : 0 ≤ h.z) {n : V3 ℝ} {vs : Fin 4 → V3 ℝ}
    (hc : ∀ i, Corner h (vs i)) (hpos : 0 ≤ dot d n) (hside : ∀ k, 0 ≤ dot (vs k) n)
    (hall : ∀ v, Corner h v → (∃ k, v = vs k) ∨ (∃ k, v = vs k - smul (2 * dot (vs k) n) n)) :
    IsProjection (boxSet h) d (dot (vs (boxBest fun k => dot (vs k) d)) d) := by
  set p := fun k => dot (vs k) d
  refine ⟨⟨_, corner_box hx hy hz (hc _), rfl⟩, fun w hw => ?_⟩
  have h1 : dot w d ≤ dot (supportBox h d) d := by rw [supportBox_dot]; exact box_le_extent hw d
  refine le_trans h1 ?_
  rcases hall _ (supportBox_corner h d) with ⟨k, hk⟩ | ⟨k, hk⟩
  · rw [hk]; exact boxBest_spec p k
  · rw [hk, dot_sub_left, dot_smul_left]
    have h2 : dot (vs k) d ≤ dot (vs (boxBest p)) d := boxBest_spec p k
    have h3 : 0 ≤ 2 * dot (vs k) n * dot n d := by
      rw [dot_comm n d]; have := hside k; positivity
    linarith

/-- **C75, the support feature of a box.** In every direction and for every tolerance no assertion fails; the
projection is the largest one of a point of the box; the feature has an index of its kind; all its corners are
within the tolerance of the projection and one of them has it. -/
theorem box_support_feature_partial (h : V3 ℝ) (hx : 0 ≤ h.x) (hy : 0 ≤ h.y) (hz : 0 ≤ h.z) (d : V3 ℝ) (tol : ℝ) :
    ∃ k i proj vs, boxSupportFeature h d tol = some (k, i, proj) ∧ IsProjection (boxSet h) d proj ∧
      boxFeatVerts h k i = some vs ∧ (∃ v ∈ vs, dot v d = proj) ∧
      (∀ v ∈ vs, Corner h v ∧ (dot v d = proj ∨ proj - tol < dot v d)) ∧
      ((|d.y| ≤ |d.x| → |d.z| ≤ |d.x| → tol ≤ 2 * h.x * |d.x|) → (|d.x| ≤ |d.y| → |d.z| ≤ |d.y| → tol ≤ 2 * h.y * |d.y|) →
        (|d.x| ≤ |d.z| → |d.y| ≤ |d.z| → tol ≤ 2 * h.z * |d.z|) →
        ∀ w, Corner h w → proj - tol < dot w d → w ∈ vs ∨ (k = .edge ∧ ∀ v ∈ vs, dot w d ≤ dot v d)) := by
  obtain ⟨n, f6, hn, dx, dy, dz⟩ := boxSupportFace_spec d
  unfold boxSupportFeature
  simp only
  generalize boxSupportFace d = f at f6 hn ⊢
  obtain ⟨ix, vs, n', hn', hix, hvs, hface, hpar, hedge, hcor, hside, hall⟩ := boxFace_data h f f6
  rw [hn, Option.some.injEq] at hn'
  subst hn'
  have hpos : 0 ≤ dot d n := le_trans (abs_nonneg _) dx
  have hs0 : ∀ k, 0 ≤ dot (vs k) n := by
    rcases hside with ⟨_, e⟩ | ⟨_, e⟩ | ⟨_, e⟩ <;> intro k <;> rw [e k] <;> assumption
  have hproj := boxBest_projection h d hx hy hz hcor hpos hs0 hall
  simp only [hix, hvs, Option.bind_some]
  have ep : ![dot (vs 0) d, dot (vs 1) d, dot (vs 2) d, dot (vs 3) d] = fun k => dot (vs k) d := by
    funext k; fin_cases k <;> rfl
  have ei : ![ix 0, ix 1, ix 2, ix 3] = ix := by funext k; fin_cases k <;> rfl
  rw [ep, ei]
  set p := fun k => dot (vs k) d with hp
  have hpp : p 0 + p 2 = p 1 + p 3 := by
    simp only [hp]
    rw [← dot_add_left, ← dot_add_left, hpar]
  have hsel := boxSelect_spec p tol hpp
  -- corners on the opposite side are too far
  have hopp : (|d.y| ≤ |d.x| → |d.z| ≤ |d.x| → tol ≤ 2 * h.x * |d.x|) →
      (|d.x| ≤ |d.y| → |d.z| ≤ |d.y| → tol ≤ 2 * h.y * |d.y|) →
      (|d.x| ≤ |d.z| → |d.y| ≤ |d.z| → tol ≤ 2 * h.z * |d.z|) → ∀ w, Corner h w →
      p (boxBest p) - tol < dot w d → ∃ k, w = vs k := by
    intro t1 t2 t3 w hw hlt
    rcases hall w hw with hk | ⟨k, hk⟩
    · exact hk
    · exfalso
      have hb : dot (vs k) d ≤ p (boxBest p) := boxBest_spec p k
      rw [hk, dot_sub_left, dot_smul_left, dot_comm n d] at hlt
      have : tol ≤ 2 * dot (vs k) n * dot d n := by
        have neg : ∀ x : ℝ, |x| ≤ -x → |x| = -x := fun x h => le_antisymm h (neg_le_abs x)
        have pos : ∀ x : ℝ, |x| ≤ x → |x| = x := fun x h => le_antisymm h (le_abs_self x)
        rcases hside with ⟨e | e, c⟩ | ⟨e | e, c⟩ | ⟨e | e, c⟩ <;> rw [c k] <;> rw [e] at dx dy dz ⊢ <;>
          simp only [dot, ex, ey, ez, neg_x, neg_y, neg_z, mul_neg, mul_zero, mul_one, add_zero, zero_add,
            neg_zero] at dx dy dz ⊢
        · rw [← pos _ dx] at dy dz ⊢; exact t1 dy dz
        · rw [← neg _ dx] at dy dz; rw [← mul_neg, ← neg _ dx]; exact t1 dy dz
        · rw [← pos _ dy] at dx dz ⊢; exact t2 dx dz
        · rw [← neg _ dy] at dx dz; rw [← mul_neg, ← neg _ dy]; exact t2 dx dz
        · rw [← pos _ dz] at dx dy ⊢; exact t3 dx dy
        · rw [← neg _ dz] at dx dy; rw [← mul_neg, ← neg _ dz]; exact t3 dx dy
      linarith
  cases hs : boxSelect p tol with
  | vertex i =>
    rw [hs] at hsel
    simp only at hsel
    refine ⟨_, _, _, [vs i], rfl, hproj, by simp [boxFeatVerts, hvs], ⟨_, List.mem_singleton.mpr rfl, hsel.1⟩, ?_, ?_⟩
    · intro v hv
      rw [List.mem_singleton] at hv
      subst hv
      exact ⟨hcor i, .inl hsel.1⟩
    · intro t1 t2 t3 w hw hlt
      obtain ⟨k, rfl⟩ := hopp t1 t2 t3 w hw hlt
      left
      by_cases hki : k = i
      · rw [hki]; exact List.mem_singleton.mpr rfl
      · have h1 := hsel.2 k hki
        have h2 := hsel.1
        simp only [hp] at h1 h2 hlt
        linarith
  | edge i j =>
    rw [hs] at hsel
    simp only at hsel
    obtain ⟨hadj, hi, hj, hle, _⟩ := hsel
    obtain ⟨e, he1, he2⟩ := hedge i j hadj
    simp only [he1, Option.map_some]
    have fin : ∀ l : List (V3 ℝ), (∀ v, v ∈ l ↔ v = vs i ∨ v = vs j) → boxEdge h e = some l →
        ∃ k i_1 proj vs, some (BoxFeat.edge, e, p (boxBest p)) = some (k, i_1, proj) ∧ IsProjection (boxSet h) d proj ∧
          boxFeatVerts h k i_1 = some vs ∧ (∃ v ∈ vs, dot v d = proj) ∧
          (∀ v ∈ vs, Corner h v ∧ (dot v d = proj ∨ proj - tol < dot v d)) ∧
          ((|d.y| ≤ |d.x| → |d.z| ≤ |d.x| → tol ≤ 2 * h.x * |d.x|) →
            (|d.x| ≤ |d.y| → |d.z| ≤ |d.y| → tol ≤ 2 * h.y * |d.y|) →
            (|d.x| ≤ |d.z| → |d.y| ≤ |d.z| → tol ≤ 2 * h.z * |d.z|) →
            ∀ w, Corner h w → proj - tol < dot w d → w ∈ vs ∨ (k = .edge ∧ ∀ v ∈ vs, dot w d ≤ dot v d)) := by
      intro l hl hel
      refine ⟨_, _, _, l, rfl, hproj, hel, ⟨vs i, (hl _).mpr (.inl rfl), hi⟩, ?_, ?_⟩
      · intro v hv
        rcases (hl v).mp hv with rfl | rfl
        · exact ⟨hcor i, .inl hi⟩
        · exact ⟨hcor j, .inr (by rw [← hi]; exact hj)⟩
      · intro t1 t2 t3 w hw hlt
        obtain ⟨k, rfl⟩ := hopp t1 t2 t3 w hw hlt
        by_cases hki : k = i
        · left; rw [hl, hki]; exact .inl rfl
        · right
          refine ⟨rfl, fun v hv => ?_⟩
          have h1 : p k ≤ p j := hle k hki
          rcases (hl v).mp hv with rfl | rfl
          · exact le_of_le_of_eq (boxBest_spec p k) hi.symm
          · exact h1
    rcases he2 with he2 | he2
    · exact fin _ (by simp) he2
    · exact fin _ (by intro v; simp [or_comm]) he2
  | face =>
    rw [hs] at hsel
    simp only at hsel
    have mem : ∀ k, vs k ∈ [vs 0, vs 1, vs 2, vs 3] := by intro k; fin_cases k <;> simp
    refine ⟨_, _, _, _, rfl, hproj, hface, ⟨_, mem (boxBest p), rfl⟩, ?_, ?_⟩
    · intro v hv
      have : ∃ k, v = vs k := by
        simp only [List.mem_cons, List.not_mem_nil, or_false] at hv
        rcases hv with e | e | e | e
        exacts [⟨0, e⟩, ⟨1, e⟩, ⟨2, e⟩, ⟨3, e⟩]
      obtain ⟨k, rfl⟩ := this
      refine ⟨hcor k, ?_⟩
      rcases hsel k with e | e
      · left; rw [e]
      · exact .inr e
    · intro t1 t2 t3 w hw hlt
      obtain ⟨k, rfl⟩ := hopp t1 t2 t3 w hw hlt
      exact .inl (mem k)

/-- The placed box: the projection is measured from the point on the axis. -/
theorem box_support_feature_at (h : V3 ℝ) (hx : 0 ≤ h.x) (hy : 0 ≤ h.y) (hz : 0 ≤ h.z) (pos : V3 ℝ) (orn : Quat ℝ)
    (hq : orn.lengthSqr = 1) (axisPos d : V3 ℝ) (tol : ℝ) :
    ∃ k i proj vs, boxSupportFeatureAt h pos orn axisPos d tol = some (k, i, proj) ∧ boxFeatVerts h k i = some vs ∧
      IsProjection (Placed (boxSet h) pos orn) d (proj + dot axisPos d) ∧
      (∃ v ∈ vs, dot (pos + Quat.rotate orn v - axisPos) d = proj) ∧
      ∀ v ∈ vs, Corner h v ∧ (dot (pos + Quat.rotate orn v - axisPos) d = proj ∨
        proj - tol < dot (pos + Quat.rotate orn v - axisPos) d) := by
  obtain ⟨k, i, proj, vs, h1, ⟨⟨q, hq1, hq2⟩, h2⟩, h3, ⟨v, hv, hvd⟩, h5, _⟩ :=
    box_support_feature_partial h hx hy hz (Quat.rotate orn.conjugate d) tol
  have e : ∀ v, dot (pos + Quat.rotate orn v - axisPos) d =
      dot v (Quat.rotate orn.conjugate d) + dot (pos - axisPos) d := by
    intro v
    rw [show pos + Quat.rotate orn v - axisPos = Quat.rotate orn v + (pos - axisPos) by ext <;> simp <;> ring,
      dot_add_left, dot_rotate hq]
  refine ⟨k, i, proj + dot (pos - axisPos) d, vs, by simp [boxSupportFeatureAt, h1], h3, ?_, ⟨v, hv, by rw [e, hvd]⟩, ?_⟩
  · have := placed_projection pos hq (S := boxSet h) (d := d) ⟨hq1, fun w hw => by rw [hq2]; exact h2 w hw⟩
    rw [hq2] at this
    rw [show proj + dot (pos - axisPos) d + dot axisPos d = dot pos d + proj by rw [dot_sub_left]; ring]
    exact this
  · intro v hv
    refine ⟨(h5 v hv).1, ?_⟩
    rw [e]
    rcases (h5 v hv).2 with e | e
    · left; rw [e]
    · right; linarith

theorem boxBest_zero {p : Fin 4 → ℝ} (h1 : p 1 ≤ p 0) (h2 : p 2 ≤ p 0) (h3 : p 3 ≤ p 0) : boxBest p = 0 := by
  unfold boxBest
  simp only
  rw [if_neg (not_lt.mpr h1), if_neg (not_lt.mpr h2), if_neg (not_lt.mpr h3)]

theorem boxSelect_face {p : Fin 4 → ℝ} {tol : ℝ} (hb : boxBest p = 0) (h1 : p 0 - tol < p 1) (h2 : p 0 - tol < p 2)
    (h3 : p 0 - tol < p 3) : boxSelect p tol = .face := by
  unfold boxSelect
  simp [hb, List.filter_cons, h1, h2, h3]

theorem boxSelect_three {p : Fin 4 → ℝ} {tol : ℝ} (hb : boxBest p = 0) (h1 : p 0 - tol < p 1) (h2 : ¬ p 0 - tol < p 2)
    (h3 : p 0 - tol < p 3) (h4 : p 3 < p 0) (h5 : p 3 < p 1) : boxSelect p tol = .edge 0 1 := by
  unfold boxSelect
  simp [hb, List.filter_cons, h1, h2, h3, not_le.mpr h4, not_le.mpr h5]

/-- The full statement: the feature consists of all corners within the tolerance of the projection. -/
def BoxFeatureFull : Prop :=
  ∀ (h d : V3 ℝ) (tol : ℝ), 0 < h.x → 0 < h.y → 0 < h.z → lengthSqr d = 1 → 0 < tol →
    ∀ k i proj vs, boxSupportFeature h d tol = some (k, i, proj) → boxFeatVerts h k i = some vs →
      ∀ w, Corner h w → proj - tol < dot w d → w ∈ vs

/-- A box flatter than the tolerance: the corners of the lower side are left out. -/
theorem box_feature_thin : ¬ BoxFeatureFull := by
  intro hf
  have hfa : boxSupportFace ⟨1, 0, 0⟩ = 0 := by norm_num [boxSupportFace]
  have hsf : ∃ k i proj vs, boxSupportFeature ⟨1, 1, 1⟩ ⟨1, 0, 0⟩ 3 = some (k, i, proj) ∧
      boxFeatVerts ⟨1, 1, 1⟩ k i = some vs ∧ proj = 1 ∧ vs.length ≤ 4 ∧ ∀ v ∈ vs, v.x = 1 := by
    obtain ⟨k, i, proj, vs, h1, h2, h3, ⟨v, hv, hvd⟩, h5, _⟩ :=
      box_support_feature_partial ⟨1, 1, 1⟩ (by norm_num) (by norm_num) (by norm_num) ⟨1, 0, 0⟩ 3
    have hb : proj = 1 := by
      have a1 := h2.2 ⟨1, 1, 1⟩ (by norm_num [boxSet])
      rw [← hvd] at a1 ⊢
      have := (corner_box (h := ⟨1, 1, 1⟩) (by norm_num) (by norm_num) (by norm_num) (h5 v hv).1).1
      rw [abs_le] at this
      norm_num [dot] at a1 this ⊢
      linarith
    have hface : k = .face ∧ i = 0 := by
      unfold boxSupportFeature at h1
      simp only [hfa, boxFaceVertex, boxFaces, boxVertex, List.getElem?_cons_zero, Option.map_some,
        Option.bind_some, Matrix.cons_val_zero, Matrix.cons_val_one, Matrix.cons_val] at h1
      have hb := boxBest_zero (p := ![(1 : ℝ), 1, 1, 1]) (by simp) (by simp) (by simp)
      have hs : boxSelect ![(1 : ℝ), 1, 1, 1] 3 = .face := boxSelect_face hb (by simp) (by simp) (by simp)
      norm_num [dot, hs] at h1
      exact ⟨h1.1.symm, h1.2.1.symm⟩
    obtain ⟨rfl, rfl⟩ := hface
    simp only [boxFeatVerts, boxFace, boxFaces, boxVertex, List.getElem?_cons_zero, Option.bind_some, Option.map_some,
      Option.some.injEq] at h3
    refine ⟨_, _, _, vs, h1, ?_, hb, ?_, ?_⟩
    · rw [← h3]; rfl
    · rw [← h3]; simp
    · rw [← h3]; simp
  obtain ⟨k, i, proj, vs, h1, h2, h3, _, h4⟩ := hsf
  have := hf ⟨1, 1, 1⟩ ⟨1, 0, 0⟩ 3 (by norm_num) (by norm_num) (by norm_num) (by norm_num [lengthSqr, dot]) (by norm_num)
    k i proj vs h1 h2 ⟨-1, 1, 1⟩ (by norm_num [Corner]) (by norm_num [dot, h3])
  have := h4 _ this
  norm_num at this

/-- Three corners within the tolerance: the lowest one is left out. -/
theorem box_feature_three : ∃ vs w, boxSupportFeature ⟨1, 1, 1⟩ ⟨2 / 7, 3 / 7, 6 / 7⟩ 1 = some (.edge, 8, 11 / 7) ∧
    boxFeatVerts ⟨1, 1, 1⟩ .edge 8 = some vs ∧ Corner ⟨1, 1, 1⟩ w ∧ (11 / 7 : ℝ) - 1 < dot w ⟨2 / 7, 3 / 7, 6 / 7⟩ ∧
    w ∉ vs := by
  refine ⟨[⟨1, 1, 1⟩, ⟨-1, 1, 1⟩], ⟨1, -1, 1⟩, ?_, rfl, by norm_num [Corner], by norm_num [dot], by norm_num⟩
  have hfa : boxSupportFace ⟨2 / 7, 3 / 7, 6 / 7⟩ = 4 := by norm_num [boxSupportFace, abs_of_pos]
  unfold boxSupportFeature
  simp only [hfa, boxFaceVertex, boxFaces, boxVertex, List.getElem?_cons_zero, List.getElem?_cons_succ, Option.map_some,
    Option.bind_some, Matrix.cons_val_zero, Matrix.cons_val_one, Matrix.cons_val]
  have hb := boxBest_zero (p := ![(11 / 7 : ℝ), 1, 1 / 7, 5 / 7]) (by simp; norm_num) (by simp; norm_num) (by simp; norm_num)
  have hs : boxSelect ![(11 / 7 : ℝ), 1, 1 / 7, 5 / 7] 1 = .edge 0 1 :=
    boxSelect_three hb (by simp; norm_num) (by simp; norm_num) (by simp; norm_num) (by simp; norm_num) (by simp; norm_num)
  have he : boxEdgeIndex 0 4 = some 8 := by decide
  norm_num [dot, hs, hb, he]

theorem closest_region {h p tol : ℝ} (ht : 0 < tol) (hh : tol ≤ h) (hp : |p| ≤ h) :
    (h - tol < p → ∀ v, (v = h ∨ v = -h) → ((|p - v| < tol ∨ |p| ≤ h - tol) ↔ v = h)) ∧
    (p < -(h - tol) → ∀ v, (v = h ∨ v = -h) → ((|p - v| < tol ∨ |p| ≤ h - tol) ↔ v = -h)) ∧
    (¬ h - tol < p → ¬ p < -(h - tol) → ∀ v, (|p - v| < tol ∨ |p| ≤ h - tol)) := by
  rw [abs_le] at hp
  simp only [abs_lt, abs_le]
  refine ⟨?_, ?_, ?_⟩
  · rintro h1 v (rfl | rfl) <;> constructor <;> intro h2
    · rfl
    · left; constructor <;> linarith
    · rcases h2 with h2 | h2 <;> linarith
    · left; constructor <;> linarith
  · rintro h1 v (rfl | rfl) <;> constructor <;> intro h2
    · rcases h2 with h2 | h2 <;> linarith
    · left; constructor <;> linarith
    · rfl
    · left; constructor <;> linarith
  · intro h1 h2 v
    right; constructor <;> linarith

theorem closest_self {h tol : ℝ} (ht : 0 < tol) (p : ℝ) : |p - p| < tol ∨ |p| ≤ h - tol := by
  left; simpa using ht

/-- **C75, the feature of a point of a face.** For a point of the face and a positive tolerance at most the half
extents, the corners of the feature are the corners of the face which, along each of the two axes of the face,
the point is within the tolerance of or the point is not within the tolerance of either side. -/
theorem box_closest_feature_spec (h : V3 ℝ) (f : ℕ) (hf : f < 6) (p : V3 ℝ) (tol : ℝ) (ht : 0 < tol)
    (hx : tol ≤ h.x) (hy : tol ≤ h.y) (hz : tol ≤ h.z) (n : V3 ℝ) (hn : boxNormal f = some n) (hp : boxSet h p)
    (hpn : ∀ v, boxSet h v → dot v n ≤ dot p n) :
    ∃ k i vs, boxClosestFeature h f p tol = some (k, i) ∧ boxFeatVerts h k i = some vs ∧ vs ≠ [] ∧
      ∀ v, v ∈ vs ↔ Corner h v ∧ dot v n = dot p n ∧
        (|p.x - v.x| < tol ∨ |p.x| ≤ h.x - tol) ∧ (|p.y - v.y| < tol ∨ |p.y| ≤ h.y - tol) ∧
        (|p.z - v.z| < tol ∨ |p.z| ≤ h.z - tol) := by
  have hb : boxSet h h := ⟨by rw [abs_le]; constructor <;> linarith, by rw [abs_le]; constructor <;> linarith,
    by rw [abs_le]; constructor <;> linarith⟩
  have hb' : boxSet h (-h) := ⟨by rw [abs_le]; constructor <;> simp; linarith, by rw [abs_le]; constructor <;> simp; linarith,
    by rw [abs_le]; constructor <;> simp; linarith⟩
  have up := hpn h hb
  have dn := hpn (-h) hb'
  obtain ⟨p1, p2, p3⟩ := hp
  obtain ⟨x1, x2, x3⟩ := closest_region ht hx p1
  obtain ⟨y1, y2, y3⟩ := closest_region ht hy p2
  obtain ⟨z1, z2, z3⟩ := closest_region ht hz p3
  have x0 := closest_self (h := h.x) ht p.x
  have y0 := closest_self (h := h.y) ht p.y
  have z0 := closest_self (h := h.z) ht p.z
  rw [abs_le] at p1 p2 p3
  have gx : ∃ X : ℝ → Prop, X = fun v => |p.x - v| < tol ∨ |p.x| ≤ h.x - tol := ⟨_, rfl⟩
  have gy : ∃ Y : ℝ → Prop, Y = fun v => |p.y - v| < tol ∨ |p.y| ≤ h.y - tol := ⟨_, rfl⟩
  have gz : ∃ Z : ℝ → Prop, Z = fun v => |p.z - v| < tol ∨ |p.z| ≤ h.z - tol := ⟨_, rfl⟩
  obtain ⟨X, hX⟩ := gx
  obtain ⟨Y, hY⟩ := gy
  obtain ⟨Z, hZ⟩ := gz
  have eX : ∀ v, (|p.x - v| < tol ∨ |p.x| ≤ h.x - tol) = X v := fun v => by rw [hX]
  have eY : ∀ v, (|p.y - v| < tol ∨ |p.y| ≤ h.y - tol) = Y v := fun v => by rw [hY]
  have eZ : ∀ v, (|p.z - v| < tol ∨ |p.z| ≤ h.z - tol) = Z v := fun v => by rw [hZ]
  simp only [eX, eY, eZ] at x0 x1 x2 x3 y0 y1 y2 y3 z0 z1 z2 z3 ⊢
  clear eX eY eZ hX hY hZ hpn hb hb'
  have nx : h.x ≠ -h.x := by intro e; linarith
  have ny : h.y ≠ -h.y := by intro e; linarith
  have nz : h.z ≠ -h.z := by intro e; linarith
  unfold boxClosestFeature
  interval_cases f
  · simp only [boxNormal, Option.some.injEq] at hn
    subst hn
    have e : p.x = h.x := by simp [dot] at up dn; linarith
    have pf : 0 < p.x := by linarith
    have dd : ∀ v : V3 ℝ, dot v (⟨1, 0, 0⟩ : V3 ℝ) = dot p ⟨1, 0, 0⟩ ↔ v.x = h.x := by
      intro v; simp [dot, e, neg_eq_iff_eq_neg]
    rw [e] at x0
    simp only [dd, pf, if_true, if_false, true_or, or_true, OfNat.ofNat_ne_zero, OfNat.ofNat_ne_one, one_ne_zero,
      OfNat.one_ne_ofNat, OfNat.zero_ne_ofNat, or_self, or_false, Nat.reduceEqDiff]
    split_ifs <;> refine ⟨_, _, _, rfl, rfl, by simp, ?_⟩ <;> rintro ⟨x, y, z⟩ <;> simp [Corner] <;>
      clear e pf dd up dn <;> grind
  · simp only [boxNormal, Option.some.injEq] at hn
    subst hn
    have e : p.x = -h.x := by simp [dot] at up dn; linarith
    have pf : ¬ 0 < p.x := by linarith
    have dd : ∀ v : V3 ℝ, dot v (⟨-1, 0, 0⟩ : V3 ℝ) = dot p ⟨-1, 0, 0⟩ ↔ v.x = -h.x := by
      intro v; simp [dot, e, neg_eq_iff_eq_neg]
    rw [e] at x0
    simp only [dd, pf, if_true, if_false, true_or, or_true, OfNat.ofNat_ne_zero, OfNat.ofNat_ne_one, one_ne_zero,
      OfNat.one_ne_ofNat, OfNat.zero_ne_ofNat, or_self, or_false, Nat.reduceEqDiff]
    split_ifs <;> refine ⟨_, _, _, rfl, rfl, by simp, ?_⟩ <;> rintro ⟨x, y, z⟩ <;> simp [Corner] <;>
      clear e pf dd up dn <;> grind
  · simp only [boxNormal, Option.some.injEq] at hn
    subst hn
    have e : p.y = h.y := by simp [dot] at up dn; linarith
    have pf : 0 < p.y := by linarith
    have dd : ∀ v : V3 ℝ, dot v (⟨0, 1, 0⟩ : V3 ℝ) = dot p ⟨0, 1, 0⟩ ↔ v.y = h.y := by
      intro v; simp [dot, e, neg_eq_iff_eq_neg]
    rw [e] at y0
    simp only [dd, pf, if_true, if_false, true_or, or_true, OfNat.ofNat_ne_zero, OfNat.ofNat_ne_one, one_ne_zero,
      OfNat.one_ne_ofNat, OfNat.zero_ne_ofNat, or_self, or_false, Nat.reduceEqDiff]
    split_ifs <;> refine ⟨_, _, _, rfl, rfl, by simp, ?_⟩ <;> rintro ⟨x, y, z⟩ <;> simp [Corner] <;>
      clear e pf dd up dn <;> grind
  · simp only [boxNormal, Option.some.injEq] at hn
    subst hn
    have e : p.y = -h.y := by simp [dot] at up dn; linarith
    have pf : ¬ 0 < p.y := by linarith
    have dd : ∀ v : V3 ℝ, dot v (⟨0, -1, 0⟩ : V3 ℝ) = dot p ⟨0, -1, 0⟩ ↔ v.y = -h.y := by
      intro v; simp [dot, e, neg_eq_iff_eq_neg]
    rw [e] at y0
    simp only [dd, pf, if_true, if_false, true_or, or_true, OfNat.ofNat_ne_zero, OfNat.ofNat_ne_one, one_ne_zero,
      OfNat.one_ne_ofNat, OfNat.zero_ne_ofNat, or_self, or_false, Nat.reduceEqDiff]
    split_ifs <;> refine ⟨_, _, _, rfl, rfl, by simp, ?_⟩ <;> rintro ⟨x, y, z⟩ <;> simp [Corner] <;>
      clear e pf dd up dn <;> grind
  · simp only [boxNormal, Option.some.injEq] at hn
    subst hn
    have e : p.z = h.z := by simp [dot] at up dn; linarith
    have pf : 0 < p.z := by linarith
    have dd : ∀ v : V3 ℝ, dot v (⟨0, 0, 1⟩ : V3 ℝ) = dot p ⟨0, 0, 1⟩ ↔ v.z = h.z := by
      intro v; simp [dot, e, neg_eq_iff_eq_neg]
    rw [e] at z0
    simp only [dd, pf, if_true, if_false, true_or, or_true, OfNat.ofNat_ne_zero, OfNat.ofNat_ne_one, one_ne_zero,
      OfNat.one_ne_ofNat, OfNat.zero_ne_ofNat, or_self, or_false, Nat.reduceEqDiff]
    split_ifs <;> refine ⟨_, _, _, rfl, rfl, by simp, ?_⟩ <;> rintro ⟨x, y, z⟩ <;> simp [Corner] <;>
      clear e pf dd up dn <;> grind
  · simp only [boxNormal, Option.some.injEq] at hn
    subst hn
    have e : p.z = -h.z := by simp [dot] at up dn; linarith
    have pf : ¬ 0 < p.z := by linarith
    have dd : ∀ v : V3 ℝ, dot v (⟨0, 0, -1⟩ : V3 ℝ) = dot p ⟨0, 0, -1⟩ ↔ v.z = -h.z := by
      intro v; simp [dot, e, neg_eq_iff_eq_neg]
    rw [e] at z0
    simp only [dd, pf, if_true, if_false, true_or, or_true, OfNat.ofNat_ne_zero, OfNat.ofNat_ne_one, one_ne_zero,
      OfNat.one_ne_ofNat, OfNat.zero_ne_ofNat, or_self, or_false, Nat.reduceEqDiff]
    split_ifs <;> refine ⟨_, _, _, rfl, rfl, by simp, ?_⟩ <;> rintro ⟨x, y, z⟩ <;> simp [Corner] <;>
      clear e pf dd up dn <;> grind

/-- Not vacuous: a point of the upper face of a unit box near one of its sides. -/
example : ∃ h p n : V3 ℝ, boxNormal 2 = some n ∧ boxSet h p ∧ (∀ v, boxSet h v → dot v n ≤ dot p n) ∧
    (1 / 10 : ℝ) ≤ h.x ∧ (1 / 10 : ℝ) ≤ h.y ∧ (1 / 10 : ℝ) ≤ h.z := by
  refine ⟨⟨1, 1, 1⟩, ⟨95 / 100, 1, 0⟩, _, rfl, by norm_num [boxSet, abs_of_pos], ?_, by norm_num, by norm_num, by norm_num⟩
  rintro v ⟨_, h2, _⟩
  rw [abs_le] at h2
  simp [dot]
  exact h2.2

end Edyn.Geom
