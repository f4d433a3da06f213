import Verif.Mass.Affine

/-!
# Volume, centroid and moment of inertia of polyhedra (C76, C78)

`mesh_volume` (`src/edyn/math/shape_volume.cpp`), `mesh_centroid`, `make_box_mesh` (`src/edyn/util/shape_util.cpp`),
`convex_mesh::shift_to_centroid` (`src/edyn/shapes/convex_mesh.cpp`) and `moment_of_inertia_polyhedron`
(`src/edyn/dynamics/moment_of_inertia.cpp`).  Scalars are exact reals.
-/

namespace Edyn.Mass

open Edyn.Math V3 Edyn.Geom MeasureTheory

/-! ## Model -/

/-- `convex_mesh`, `include/edyn/shapes/convex_mesh.hpp` 18-32: the vertices, the vertex indices of the faces and, for
each face, its first index and its number of indices.  The flat array of the latter is a list of pairs here, so that the
assertion that it has an even number of elements holds. -/
structure Mesh where
  vertices : List (V3 ℝ)
  indices : List ℕ
  faces : List (ℕ × ℕ)

/-- A triangle. -/
abbrev Tri := V3 ℝ × V3 ℝ × V3 ℝ

/-- The vertex with the given position among the indices; `none`: out of range. -/
def Mesh.vertex (m : Mesh) (i : ℕ) : Option (V3 ℝ) := (m.indices[i]?).bind (m.vertices[·]?)

/-- The inner loops `for j = 1; j < count - 1`, `shape_volume.cpp` 39-48, `shape_util.cpp` 370-386,
`moment_of_inertia.cpp` 118-140: the triangles of the fan around the first vertex. -/
def Mesh.fanLoop (m : Mesh) (first : ℕ) (v0 : V3 ℝ) : ℕ → ℕ → Option (List Tri)
  | _, 0 => some []
  | j, n + 1 =>
    (m.vertex (first + j)).bind fun v1 =>
    (m.vertex (first + j + 1)).bind fun v2 =>
    (m.fanLoop first v0 (j + 1) n).bind fun ts => some ((v0, v1, v2) :: ts)

/-- One face, `shape_volume.cpp` 31-48, `shape_util.cpp` 362-386, `moment_of_inertia.cpp` 111-140.  `none`: fewer than
three vertices, or an index out of range. -/
def Mesh.fan (m : Mesh) (f : ℕ × ℕ) : Option (List Tri) :=
  if 3 ≤ f.2 then (m.vertex f.1).bind fun v0 => m.fanLoop f.1 v0 1 (f.2 - 2) else none

/-- The outer loops over all faces: the triangles in the order they are visited. -/
def Mesh.triangles (m : Mesh) : Option (List Tri) := (m.faces.mapM m.fan).map List.flatten

/-- `normal`, `shape_volume.cpp` 44, `shape_util.cpp` 375. -/
noncomputable def normal (t : Tri) : V3 ℝ := cross (t.2.1 - t.1) (t.2.2 - t.2.1)

/-- `mesh_volume`, `shape_volume.cpp` 22-54. -/
noncomputable def meshVolume (m : Mesh) : Option ℝ :=
  m.triangles.map fun ts => ts.foldl (fun v t => v + dot t.1 (normal t)) 0 / 6

/-- `w`, `shape_util.cpp` 381-384, for one coordinate. -/
noncomputable def weight (a b c : ℝ) : ℝ := lengthSqr (⟨a + b, b + c, c + a⟩ : V3 ℝ)

/-- The loop of `mesh_centroid`, `shape_util.cpp` 375-385. -/
noncomputable def centroidStep (s : V3 ℝ × ℝ) (t : Tri) : V3 ℝ × ℝ :=
  let n := normal t
  (s.1 + ⟨n.x * weight t.1.x t.2.1.x t.2.2.x, n.y * weight t.1.y t.2.1.y t.2.2.y, n.z * weight t.1.z t.2.1.z t.2.2.z⟩,
   s.2 + dot t.1 n)

/-- `mesh_centroid`, `shape_util.cpp` 351-393. -/
noncomputable def meshCentroid (m : Mesh) : Option (V3 ℝ) :=
  m.triangles.map fun ts =>
    let s := ts.foldl centroidStep (0, 0)
    let volume := s.2 / 6
    ⟨s.1.x / (24 * 2 * volume), s.1.y / (24 * 2 * volume), s.1.z / (24 * 2 * volume)⟩

/-- `convex_mesh::shift_to_centroid`, `convex_mesh.cpp` 24-30. -/
noncomputable def shiftToCentroid (m : Mesh) : Option Mesh :=
  (meshCentroid m).map fun c => { m with vertices := m.vertices.map (· - c) }

/-- The sums of `moment_of_inertia_polyhedron`. -/
structure Sums where
  volume : ℝ
  xx : ℝ
  yy : ℝ
  zz : ℝ
  yz : ℝ
  zx : ℝ
  xy : ℝ

/-- `moment_of_inertia.cpp` 124-139. -/
noncomputable def inertiaStep (s : Sums) (t : Tri) : Sums :=
  let v0 := t.1
  let v1 := t.2.1
  let v2 := t.2.2
  let pd := dot v0 (cross v1 v2)
  let v3 := v0 + v1 + v2
  { volume := s.volume + pd
    xx := s.xx + pd * (v0.x * v0.x + v1.x * v1.x + v2.x * v2.x + v3.x * v3.x)
    yy := s.yy + pd * (v0.y * v0.y + v1.y * v1.y + v2.y * v2.y + v3.y * v3.y)
    zz := s.zz + pd * (v0.z * v0.z + v1.z * v1.z + v2.z * v2.z + v3.z * v3.z)
    yz := s.yz + pd * (v0.y * v0.z + v1.y * v1.z + v2.y * v2.z + v3.y * v3.z)
    zx := s.zx + pd * (v0.z * v0.x + v1.z * v1.x + v2.z * v2.x + v3.z * v3.x)
    xy := s.xy + pd * (v0.x * v0.y + v1.x * v1.y + v2.x * v2.y + v3.x * v3.y) }

/-- `moment_of_inertia_polyhedron`, `moment_of_inertia.cpp` 93-157. -/
noncomputable def polyInertia (mass : ℝ) (m : Mesh) : Option (M3 ℝ) :=
  m.triangles.map fun ts =>
    let s := ts.foldl inertiaStep ⟨0, 0, 0, 0, 0, 0, 0⟩
    let density := mass / (s.volume / 6)
    let r := density / 120
    let Iyz := s.yz * r
    let Izx := s.zx * r
    let Ixy := s.xy * r
    ⟨⟨(s.yy + s.zz) * r, Ixy, Izx⟩, ⟨Ixy, (s.zz + s.xx) * r, Iyz⟩, ⟨Izx, Iyz, (s.xx + s.yy) * r⟩⟩

/-- `make_box_mesh`, `shape_util.cpp` 12-38. -/
noncomputable def boxMesh (h : V3 ℝ) : Mesh where
  vertices := [⟨-h.x, -h.y, -h.z⟩, ⟨h.x, -h.y, -h.z⟩, ⟨h.x, -h.y, h.z⟩, ⟨-h.x, -h.y, h.z⟩,
    ⟨-h.x, h.y, -h.z⟩, ⟨h.x, h.y, -h.z⟩, ⟨h.x, h.y, h.z⟩, ⟨-h.x, h.y, h.z⟩]
  indices := [0, 1, 2, 3, 7, 6, 5, 4, 4, 5, 1, 0, 6, 7, 3, 2, 7, 4, 0, 3, 5, 6, 2, 1]
  faces := [(0, 4), (4, 4), (8, 4), (12, 4), (16, 4), (20, 4)]

/-! ## Specification -/

/-- The vertices of a face, in order. -/
def Polygons (m : Mesh) (ps : List (List (V3 ℝ))) : Prop :=
  List.Forall₂ (fun f p => 3 ≤ f.2 ∧ p.length = f.2 ∧ ∀ k < f.2, m.vertex (f.1 + k) = p[k]?) m.faces ps

/-- The directed sides of a polygon, from the given point on; the last one ends at `first`. -/
def sidesFrom (first : V3 ℝ) : List (V3 ℝ) → List (V3 ℝ × V3 ℝ)
  | [] => []
  | [v] => [(v, first)]
  | v :: w :: r => (v, w) :: sidesFrom first (w :: r)

/-- All directed sides of a polygon. -/
def sides : List (V3 ℝ) → List (V3 ℝ × V3 ℝ)
  | [] => []
  | v :: r => sidesFrom v (v :: r)

/-- The surface is closed: each side is passed as often in one direction as in the other. -/
def Closed (ps : List (List (V3 ℝ))) : Prop :=
  ((ps.flatMap sides).map Prod.swap).Perm (ps.flatMap sides)

/-- The triangles between the first point of a polygon and its other sides. -/
def fanFrom (v0 : V3 ℝ) : List (V3 ℝ) → List Tri
  | v :: w :: r => (v0, v, w) :: fanFrom v0 (w :: r)
  | _ => []

/-- A polygon in triangles. -/
def fanOf : List (V3 ℝ) → List Tri
  | [] => []
  | v :: r => fanFrom v r

open Classical in
/-- The polygons are the outward surface of the set: from some point `c`, almost every point of the set is in one
tetrahedron over the surface more which `c` sees from the inside than tetrahedra which it sees from the outside, and
almost every other point is in as many of the one kind as of the other. -/
def Bounds (ps : List (List (V3 ℝ))) (S : Shape) : Prop :=
  ∃ c, ∀ᵐ p : ℝ × ℝ × ℝ, ((ps.flatMap fanOf).map fun t =>
    SignType.sign (det6 c t.1 t.2.1 t.2.2) * (if Tet c t.1 t.2.1 t.2.2 (toV p) then (1 : ℝ) else 0)).sum =
    if S (toV p) then 1 else 0

/-! ## The loops -/

theorem fanLoop_eq (m : Mesh) (first : ℕ) (v0 : V3 ℝ) : ∀ (r : List (V3 ℝ)) (j : ℕ),
    (∀ k < r.length, m.vertex (first + j + k) = r[k]?) →
    m.fanLoop first v0 j (r.length - 1) = some (fanFrom v0 r)
  | [], j, _ => rfl
  | [v], j, _ => rfl
  | v :: w :: r, j, h => by
    have h0 := h 0 (by simp)
    have h1 := h 1 (by simp)
    have ih := fanLoop_eq m first v0 (w :: r) (j + 1) (by
      intro k hk
      have := h (k + 1) (by simp at hk ⊢; omega)
      rw [show first + (j + 1) + k = first + j + (k + 1) by omega, this]
      simp)
    simp only [List.length_cons, Nat.add_sub_cancel] at ih ⊢
    rw [Mesh.fanLoop]
    simp at h0 h1
    rw [h0, h1]
    simp only [Option.bind_some]
    rw [ih]
    rfl

theorem fan_eq (m : Mesh) (f : ℕ × ℕ) (p : List (V3 ℝ)) (h3 : 3 ≤ f.2) (hl : p.length = f.2)
    (h : ∀ k < f.2, m.vertex (f.1 + k) = p[k]?) : m.fan f = some (fanOf p) := by
  rw [Mesh.fan, if_pos h3]
  cases p with
  | nil => simp at hl; omega
  | cons v r =>
    have h0 := h 0 (by omega)
    simp at h0
    rw [h0]
    simp only [Option.bind_some]
    simp at hl
    rw [show f.2 - 2 = r.length - 1 by omega]
    rw [fanLoop_eq m f.1 v r 1]
    · rfl
    · intro k hk
      have := h (k + 1) (by omega)
      rw [show f.1 + 1 + k = f.1 + (k + 1) by omega, this]
      simp

theorem triangles_eq (m : Mesh) (ps : List (List (V3 ℝ))) (h : Polygons m ps) :
    m.triangles = some (ps.flatMap fanOf) := by
  have : ∀ fs, List.Forall₂ (fun f p => 3 ≤ f.2 ∧ p.length = f.2 ∧ ∀ k < f.2, m.vertex (f.1 + k) = p[k]?) fs ps →
      fs.mapM m.fan = some (ps.map fanOf) := by
    clear h
    intro fs h
    induction h with
    | nil => rfl
    | cons hd _ ih =>
      rw [List.mapM_cons, ih, fan_eq m _ _ hd.1 hd.2.1 hd.2.2]
      rfl
  unfold Mesh.triangles
  rw [this _ h]
  rfl

/-! ## Closed surfaces -/

theorem closed_sum {ps : List (List (V3 ℝ))} (h : Closed ps) (g : V3 ℝ → V3 ℝ → ℝ) (hg : ∀ a b, g b a = -g a b) :
    ((ps.flatMap sides).map fun s => g s.1 s.2).sum = 0 := by
  have h1 := (h.map fun s => g s.1 s.2).sum_eq
  rw [List.map_map] at h1
  have h2 : ((ps.flatMap sides).map ((fun s => g s.1 s.2) ∘ Prod.swap)).sum =
      -((ps.flatMap sides).map fun s => g s.1 s.2).sum := by
    generalize ps.flatMap sides = l
    induction l with
    | nil => simp
    | cons s l ih =>
      simp only [List.map_cons, List.sum_cons, ih, Function.comp, Prod.fst_swap, Prod.snd_swap, hg s.1 s.2]
      ring
  linarith

theorem fan_sides (v0 : V3 ℝ) (g : V3 ℝ → V3 ℝ → ℝ) (hg : ∀ a b, g b a = -g a b) : ∀ (v : V3 ℝ) (r : List (V3 ℝ)),
    ((fanFrom v0 (v :: r)).map fun t => g t.1 t.2.1 + g t.2.1 t.2.2 + g t.2.2 t.1).sum =
      g v0 v + ((sidesFrom v0 (v :: r)).map fun s => g s.1 s.2).sum
  | v, [] => by
    simp only [fanFrom, sidesFrom, List.map_nil, List.sum_nil, List.map_cons, List.sum_cons]
    rw [hg v v0]
    ring
  | v, w :: r => by
    rw [fanFrom, sidesFrom]
    simp only [List.map_cons, List.sum_cons]
    rw [fan_sides v0 g hg w r, hg v0 w]
    ring

theorem fanOf_sides (g : V3 ℝ → V3 ℝ → ℝ) (hg : ∀ a b, g b a = -g a b) (p : List (V3 ℝ)) :
    ((fanOf p).map fun t => g t.1 t.2.1 + g t.2.1 t.2.2 + g t.2.2 t.1).sum = ((sides p).map fun s => g s.1 s.2).sum := by
  cases p with
  | nil => rfl
  | cons v r =>
    cases r with
    | nil =>
      have := hg v v
      simp only [fanOf, fanFrom, sides, sidesFrom, List.map_nil, List.sum_nil, List.map_cons, List.sum_cons]
      linarith
    | cons w r =>
      rw [fanOf, fan_sides v g hg w r]
      simp only [sides, sidesFrom, List.map_cons, List.sum_cons]

/-- On a closed surface, two sums over the triangles are equal if their terms differ by what cancels along sides. -/
theorem closed_fan {ps : List (List (V3 ℝ))} (h : Closed ps) (F G : Tri → ℝ) (g : V3 ℝ → V3 ℝ → ℝ)
    (hg : ∀ a b, g b a = -g a b) (e : ∀ t, F t = G t + (g t.1 t.2.1 + g t.2.1 t.2.2 + g t.2.2 t.1)) :
    ((ps.flatMap fanOf).map F).sum = ((ps.flatMap fanOf).map G).sum := by
  have h0 := closed_sum h g hg
  have h1 : ((ps.flatMap fanOf).map fun t => g t.1 t.2.1 + g t.2.1 t.2.2 + g t.2.2 t.1).sum =
      ((ps.flatMap sides).map fun s => g s.1 s.2).sum := by
    clear h h0
    induction ps with
    | nil => rfl
    | cons p ps ih =>
      simp only [List.flatMap_cons, List.map_append, List.sum_append, ih, fanOf_sides g hg p]
  have h2 : ∀ l : List Tri, (l.map F).sum = (l.map G).sum +
      (l.map fun t => g t.1 t.2.1 + g t.2.1 t.2.2 + g t.2.2 t.1).sum := by
    intro l
    induction l with
    | nil => simp
    | cons t l ih =>
      simp only [List.map_cons, List.sum_cons, ih, e t]
      ring
  rw [h2, h1, h0, add_zero]

/-! ## Moments -/

/-- The signed integral over a tetrahedron of the product of two functions, given by their values at the corners. -/
noncomputable def tetMoment (f g : V3 ℝ → ℝ) (c : V3 ℝ) (t : Tri) : ℝ :=
  det6 c t.1 t.2.1 t.2.2 *
    ((f c * g c + f t.1 * g t.1 + f t.2.1 * g t.2.1 + f t.2.2 * g t.2.2 +
      (f c + f t.1 + f t.2.1 + f t.2.2) * (g c + g t.1 + g t.2.1 + g t.2.2)) / 120)

/-- A function linear in the coordinates. -/
def affine (k : ℝ) (n : V3 ℝ) (p : V3 ℝ) : ℝ := k + (n.x * p.x + n.y * p.y + n.z * p.z)

theorem affine_tet (k : ℝ) (n c v0 v1 v2 : V3 ℝ) (s t u : ℝ) :
    affine k n (c + smul s (v0 - c) + smul t (v1 - c) + smul u (v2 - c)) =
      affine k n c + s * (affine k n v0 - affine k n c) + t * (affine k n v1 - affine k n c) +
        u * (affine k n v2 - affine k n c) := by
  simp [affine]
  ring

theorem det6_swap (c v a b : V3 ℝ) : det6 c v b a = -det6 c v a b := by
  simp [det6, dot]
  ring

/-- Moments with respect to another apex differ by moments of tetrahedra over the sides. -/
theorem tetMoment_apex (k l : ℝ) (n m c : V3 ℝ) (t : Tri) :
    tetMoment (affine k n) (affine l m) c t = tetMoment (affine k n) (affine l m) 0 t +
      (-tetMoment (affine k n) (affine l m) 0 (c, t.1, t.2.1) + -tetMoment (affine k n) (affine l m) 0 (c, t.2.1, t.2.2) +
        -tetMoment (affine k n) (affine l m) 0 (c, t.2.2, t.1)) := by
  simp only [tetMoment, det6, dot, cross, sub_x, sub_y, sub_z, affine, zero_x, zero_y, zero_z, sub_zero, mul_zero, add_zero]
  ring

/-- On a closed surface the sum of the moments does not depend on the apex. -/
theorem closed_moment {ps : List (List (V3 ℝ))} (h : Closed ps) (k l : ℝ) (n m c : V3 ℝ) :
    ((ps.flatMap fanOf).map (tetMoment (affine k n) (affine l m) c)).sum =
      ((ps.flatMap fanOf).map (tetMoment (affine k n) (affine l m) 0)).sum := by
  apply closed_fan h _ _ (fun a b => -tetMoment (affine k n) (affine l m) 0 (c, a, b))
  · intro a b
    simp only [tetMoment]
    rw [det6_swap]
    ring
  · exact tetMoment_apex k l n m c

theorem tet_compact (c v0 v1 v2 : V3 ℝ) : IsCompact (region (Tet c v0 v1 v2)) := by
  rw [region_tet]
  apply corner_compact.image
  exact (continuous_const).add (LinearMap.continuous_of_finiteDimensional _)

theorem sign_abs (d : ℝ) : ((SignType.sign d : SignType) : ℝ) * |d| = d := by
  rcases lt_trichotomy d 0 with h | h | h
  · rw [sign_neg h, abs_of_neg h]
    simp
  · rw [h]
    simp
  · rw [sign_pos h, abs_of_pos h]
    simp

theorem tet_moment (k l : ℝ) (n m c : V3 ℝ) (t : Tri) :
    ((SignType.sign (det6 c t.1 t.2.1 t.2.2) : SignType) : ℝ) *
      integralOver (Tet c t.1 t.2.1 t.2.2) (fun p => affine k n p * affine l m p) =
      tetMoment (affine k n) (affine l m) c t := by
  rw [tet_product c t.1 t.2.1 t.2.2 _ (affine k n c) (affine k n t.1) (affine k n t.2.1) (affine k n t.2.2)
    (affine l m c) (affine l m t.1) (affine l m t.2.1) (affine l m t.2.2), ← mul_assoc, sign_abs]
  · rfl
  · intro s t u
    rw [affine_tet, affine_tet]

theorem affine_continuous (k : ℝ) (n : V3 ℝ) : Continuous fun p : ℝ × ℝ × ℝ => affine k n (toV p) := by
  unfold affine toV
  fun_prop

/-- The integral over the set is the sum of the signed integrals over the tetrahedra. -/
theorem bounds_integral {ps : List (List (V3 ℝ))} {S : Shape} (hm : MeasurableSet (region S)) (hc : Closed ps)
    (hb : Bounds ps S) (k l : ℝ) (n m : V3 ℝ) :
    integralOver S (fun p => affine k n p * affine l m p) =
      ((ps.flatMap fanOf).map (tetMoment (affine k n) (affine l m) 0)).sum := by
  classical
  obtain ⟨c, hb⟩ := hb
  rw [← closed_moment hc k l n m c]
  set f : ℝ × ℝ × ℝ → ℝ := fun p => affine k n (toV p) * affine l m (toV p) with hf
  have hcf : Continuous f := (affine_continuous k n).mul (affine_continuous l m)
  have e1 : integralOver S (fun p => affine k n p * affine l m p) =
      ∫ p, ((ps.flatMap fanOf).map fun t => ((SignType.sign (det6 c t.1 t.2.1 t.2.2) : SignType) : ℝ) *
        (region (Tet c t.1 t.2.1 t.2.2)).indicator f p).sum := by
    unfold integralOver
    rw [← integral_indicator hm]
    apply integral_congr_ae
    filter_upwards [hb] with p hp
    have e : ∀ q : Shape, (region q).indicator f p = (if q (toV p) then 1 else 0) * f p := by
      intro q
      by_cases hq : q (toV p)
      · rw [Set.indicator_of_mem (show p ∈ region q from hq), if_pos hq, one_mul]
      · rw [Set.indicator_of_notMem (show p ∉ region q from hq), if_neg hq, zero_mul]
    show (region S).indicator f p = _
    simp only [e, ← mul_assoc]
    rw [List.sum_map_mul_right]
    rw [← hp]
  rw [e1]
  have e2 : ∀ ts : List Tri, (Integrable fun p => (ts.map fun t =>
      ((SignType.sign (det6 c t.1 t.2.1 t.2.2) : SignType) : ℝ) *
        (region (Tet c t.1 t.2.1 t.2.2)).indicator f p).sum) ∧ ∫ p, (ts.map fun t =>
      ((SignType.sign (det6 c t.1 t.2.1 t.2.2) : SignType) : ℝ) *
        (region (Tet c t.1 t.2.1 t.2.2)).indicator f p).sum = (ts.map (tetMoment (affine k n) (affine l m) c)).sum := by
    intro ts
    induction ts with
    | nil => simp
    | cons t ts ih =>
      have hk := tet_compact c t.1 t.2.1 t.2.2
      have hi : Integrable (fun p => ((SignType.sign (det6 c t.1 t.2.1 t.2.2) : SignType) : ℝ) *
          (region (Tet c t.1 t.2.1 t.2.2)).indicator f p) :=
        ((integrable_indicator_iff hk.measurableSet).2 (hcf.continuousOn.integrableOn_compact hk)).const_mul _
      simp only [List.map_cons, List.sum_cons]
      refine ⟨hi.add ih.1, ?_⟩
      rw [integral_add hi ih.1, ih.2, integral_const_mul, integral_indicator hk.measurableSet, ← tet_moment]
      rfl
  exact (e2 _).2

/-! ## Volume and centroid -/

theorem foldl_sum (f : Tri → ℝ) (ts : List Tri) (a : ℝ) : ts.foldl (fun v t => v + f t) a = a + (ts.map f).sum := by
  induction ts generalizing a with
  | nil => simp
  | cons t ts ih =>
    rw [List.foldl_cons, ih]
    simp only [List.map_cons, List.sum_cons]
    ring

theorem det_normal (t : Tri) : dot t.1 (normal t) = 6 * tetMoment (affine 1 0) (affine 1 0) 0 t := by
  simp [normal, tetMoment, affine, det6, dot]
  ring

theorem sum_mul (k : ℝ) (f : Tri → ℝ) (ts : List Tri) : (ts.map fun t => k * f t).sum = k * (ts.map f).sum := by
  rw [List.sum_map_mul_left]

theorem volume_sum {m : Mesh} {ps : List (List (V3 ℝ))} (hp : Polygons m ps) :
    meshVolume m = some ((ps.flatMap fanOf).map (tetMoment (affine 1 0) (affine 1 0) 0)).sum := by
  rw [meshVolume, triangles_eq m ps hp]
  simp only [Option.map_some]
  rw [foldl_sum]
  simp only [det_normal]
  rw [sum_mul]
  congr 1
  ring

/-- **C76**: the volume of a closed mesh is the volume of the set it bounds. -/
theorem mesh_volume_spec (m : Mesh) (ps : List (List (V3 ℝ))) (S : Shape) (hp : Polygons m ps) (hc : Closed ps)
    (hm : MeasurableSet (region S)) (hb : Bounds ps S) : meshVolume m = some (volumeOf S) := by
  rw [volume_sum hp, ← bounds_integral hm hc hb 1 1 0 0]
  simp [volumeOf, affine]

theorem centroid_fold (ts : List Tri) (s : V3 ℝ × ℝ) : ts.foldl centroidStep s =
    (⟨s.1.x + (ts.map fun t => (normal t).x * weight t.1.x t.2.1.x t.2.2.x).sum,
      s.1.y + (ts.map fun t => (normal t).y * weight t.1.y t.2.1.y t.2.2.y).sum,
      s.1.z + (ts.map fun t => (normal t).z * weight t.1.z t.2.1.z t.2.2.z).sum⟩,
     s.2 + (ts.map fun t => dot t.1 (normal t)).sum) := by
  induction ts generalizing s with
  | nil => simp
  | cons t ts ih =>
    rw [List.foldl_cons, ih]
    simp only [centroidStep, List.map_cons, List.sum_cons]
    ext <;> simp only [add_x, add_y, add_z] <;> ring

/-- What cancels along the sides when the centroid is computed from squares of coordinates; `sideY` and `sideZ`
likewise. -/
noncomputable def sideX (a b : V3 ℝ) : ℝ := 2 * (a.y * b.z - a.z * b.y) * (a.x * a.x + a.x * b.x + b.x * b.x)

theorem centroid_x (t : Tri) : (normal t).x * weight t.1.x t.2.1.x t.2.2.x =
    48 * tetMoment (affine 0 ⟨1, 0, 0⟩) (affine 1 0) 0 t +
      (sideX t.1 t.2.1 + sideX t.2.1 t.2.2 + sideX t.2.2 t.1) := by
  simp [sideX, normal, tetMoment, affine, det6, dot, weight, lengthSqr]
  ring

noncomputable def sideY (a b : V3 ℝ) : ℝ := 2 * (a.z * b.x - a.x * b.z) * (a.y * a.y + a.y * b.y + b.y * b.y)

theorem centroid_y (t : Tri) : (normal t).y * weight t.1.y t.2.1.y t.2.2.y =
    48 * tetMoment (affine 0 ⟨0, 1, 0⟩) (affine 1 0) 0 t +
      (sideY t.1 t.2.1 + sideY t.2.1 t.2.2 + sideY t.2.2 t.1) := by
  simp [sideY, normal, tetMoment, affine, det6, dot, weight, lengthSqr]
  ring

noncomputable def sideZ (a b : V3 ℝ) : ℝ := 2 * (a.x * b.y - a.y * b.x) * (a.z * a.z + a.z * b.z + b.z * b.z)

theorem centroid_z (t : Tri) : (normal t).z * weight t.1.z t.2.1.z t.2.2.z =
    48 * tetMoment (affine 0 ⟨0, 0, 1⟩) (affine 1 0) 0 t +
      (sideZ t.1 t.2.1 + sideZ t.2.1 t.2.2 + sideZ t.2.2 t.1) := by
  simp [sideZ, normal, tetMoment, affine, det6, dot, weight, lengthSqr]
  ring

/-- The moments of a surface, from the origin. -/
noncomputable def moment (f g : V3 ℝ → ℝ) (ps : List (List (V3 ℝ))) : ℝ :=
  ((ps.flatMap fanOf).map (tetMoment f g 0)).sum

theorem centroid_sum {m : Mesh} {ps : List (List (V3 ℝ))} (hp : Polygons m ps) (hc : Closed ps) :
    meshCentroid m = some (smul (1 / moment (affine 1 0) (affine 1 0) ps)
      ⟨moment (affine 0 ⟨1, 0, 0⟩) (affine 1 0) ps, moment (affine 0 ⟨0, 1, 0⟩) (affine 1 0) ps,
       moment (affine 0 ⟨0, 0, 1⟩) (affine 1 0) ps⟩) := by
  rw [meshCentroid, triangles_eq m ps hp]
  simp only [Option.map_some]
  rw [centroid_fold]
  simp only [det_normal, sum_mul, zero_x, zero_y, zero_z, zero_add]
  rw [closed_fan hc _ _ _ ?_ centroid_x, closed_fan hc _ _ _ ?_ centroid_y, closed_fan hc _ _ _ ?_ centroid_z]
  · simp only [sum_mul, moment]
    congr 1
    generalize ((ps.flatMap fanOf).map (tetMoment (affine 1 0) (affine 1 0) 0)).sum = v
    by_cases hv : v = 0
    · subst hv
      ext <;> simp
    · ext <;> simp only [smul_x, smul_y, smul_z] <;> field_simp <;> ring
  all_goals
    intro a b
    simp only [sideX, sideY, sideZ]
    ring

/-- **C76**: the centroid of a closed mesh is the centre of mass of the set it bounds. -/
theorem mesh_centroid_spec (m : Mesh) (ps : List (List (V3 ℝ))) (S : Shape) (hp : Polygons m ps) (hc : Closed ps)
    (hm : MeasurableSet (region S)) (hb : Bounds ps S) : meshCentroid m = some (centroidOf S) := by
  rw [centroid_sum hp hc, centroidOf]
  unfold moment
  rw [← bounds_integral hm hc hb, ← bounds_integral hm hc hb, ← bounds_integral hm hc hb, ← bounds_integral hm hc hb]
  simp [volumeOf, affine]

/-! ## Moving to the centroid -/

theorem sidesFrom_map (f : V3 ℝ → V3 ℝ) (v : V3 ℝ) : ∀ r : List (V3 ℝ),
    sidesFrom (f v) (r.map f) = (sidesFrom v r).map (Prod.map f f)
  | [] => rfl
  | [w] => rfl
  | w :: u :: r => by
    have := sidesFrom_map f v (u :: r)
    simp only [List.map_cons] at this ⊢
    rw [sidesFrom, sidesFrom, this]
    rfl

theorem sides_map (f : V3 ℝ → V3 ℝ) (p : List (V3 ℝ)) : sides (p.map f) = (sides p).map (Prod.map f f) := by
  cases p with
  | nil => rfl
  | cons v r =>
    rw [List.map_cons, sides, sides, ← sidesFrom_map]
    rfl

theorem fanFrom_map (f : V3 ℝ → V3 ℝ) (v : V3 ℝ) : ∀ r : List (V3 ℝ),
    fanFrom (f v) (r.map f) = (fanFrom v r).map fun t => (f t.1, f t.2.1, f t.2.2)
  | [] => rfl
  | [w] => rfl
  | w :: u :: r => by
    have := fanFrom_map f v (u :: r)
    simp only [List.map_cons] at this ⊢
    rw [fanFrom, fanFrom, this]
    rfl

theorem fanOf_map (f : V3 ℝ → V3 ℝ) (p : List (V3 ℝ)) :
    fanOf (p.map f) = (fanOf p).map fun t => (f t.1, f t.2.1, f t.2.2) := by
  cases p with
  | nil => rfl
  | cons v r => exact fanFrom_map f v r

theorem closed_map (f : V3 ℝ → V3 ℝ) {ps : List (List (V3 ℝ))} (h : Closed ps) : Closed (ps.map (List.map f)) := by
  unfold Closed at *
  have e : (ps.map (List.map f)).flatMap sides = (ps.flatMap sides).map (Prod.map f f) := by
    rw [List.flatMap_map, List.map_flatMap]
    simp only [sides_map]
  rw [e, List.map_map, show (Prod.swap ∘ Prod.map f f : V3 ℝ × V3 ℝ → _) = Prod.map f f ∘ Prod.swap from rfl, ← List.map_map]
  exact h.map _

theorem polygons_map (f : V3 ℝ → V3 ℝ) {m : Mesh} {ps : List (List (V3 ℝ))} (h : Polygons m ps) :
    Polygons { m with vertices := m.vertices.map f } (ps.map (List.map f)) := by
  unfold Polygons at *
  rw [List.forall₂_map_right_iff]
  refine h.imp ?_
  rintro a p ⟨h3, hl, hv⟩
  refine ⟨h3, by simpa using hl, ?_⟩
  intro k hk
  have := hv k hk
  unfold Mesh.vertex at *
  simp only [List.getElem?_map] at this ⊢
  rw [← this]
  cases m.indices[a.1 + k]? <;> simp

theorem moment_shift (n c : V3 ℝ) {ps : List (List (V3 ℝ))} (hc : Closed ps) :
    moment (affine 0 n) (affine 1 0) (ps.map (List.map (· - c))) =
      moment (affine 0 n) (affine 1 0) ps - dot n c * moment (affine 1 0) (affine 1 0) ps := by
  unfold moment
  rw [← closed_moment hc 0 1 n 0 c, ← closed_moment hc 1 1 0 0 c]
  have e : (ps.map (List.map (· - c))).flatMap fanOf = (ps.flatMap fanOf).map fun t => (t.1 - c, t.2.1 - c, t.2.2 - c) := by
    rw [List.flatMap_map, List.map_flatMap]
    simp only [fanOf_map]
  rw [e, List.map_map]
  generalize ps.flatMap fanOf = l
  induction l with
  | nil => simp
  | cons t l ih =>
    simp only [List.map_cons, List.sum_cons, ih]
    simp [tetMoment, affine, det6, dot]
    ring

theorem moment_shift_one (c : V3 ℝ) {ps : List (List (V3 ℝ))} (hc : Closed ps) :
    moment (affine 1 0) (affine 1 0) (ps.map (List.map (· - c))) = moment (affine 1 0) (affine 1 0) ps := by
  unfold moment
  rw [← closed_moment hc 1 1 0 0 c]
  have e : (ps.map (List.map (· - c))).flatMap fanOf = (ps.flatMap fanOf).map fun t => (t.1 - c, t.2.1 - c, t.2.2 - c) := by
    rw [List.flatMap_map, List.map_flatMap]
    simp only [fanOf_map]
  rw [e, List.map_map]
  generalize ps.flatMap fanOf = l
  induction l with
  | nil => simp
  | cons t l ih =>
    simp only [List.map_cons, List.sum_cons, ih]
    simp [tetMoment, affine, det6, dot]

/-- **C76**: after the mesh is moved to its centroid, its volume is what it was and its centroid is the origin. -/
theorem shift_to_centroid (m : Mesh) (ps : List (List (V3 ℝ))) (hp : Polygons m ps) (hc : Closed ps) (v : ℝ)
    (hv : meshVolume m = some v) (h0 : v ≠ 0) :
    ∃ m', shiftToCentroid m = some m' ∧ meshVolume m' = some v ∧ meshCentroid m' = some 0 := by
  rw [shiftToCentroid, centroid_sum hp hc]
  rw [volume_sum hp, Option.some.injEq] at hv
  have hv' : moment (affine 1 0) (affine 1 0) ps = v := hv
  rw [hv']
  set c : V3 ℝ := smul (1 / v) ⟨moment (affine 0 ⟨1, 0, 0⟩) (affine 1 0) ps, moment (affine 0 ⟨0, 1, 0⟩) (affine 1 0) ps,
       moment (affine 0 ⟨0, 0, 1⟩) (affine 1 0) ps⟩ with hcd
  refine ⟨_, rfl, ?_, ?_⟩
  · rw [volume_sum (polygons_map _ hp)]
    rw [← hv', ← moment_shift_one c hc]
    rfl
  · rw [centroid_sum (polygons_map _ hp) (closed_map _ hc)]
    rw [moment_shift_one c hc, moment_shift _ c hc, moment_shift _ c hc, moment_shift _ c hc, hv']
    congr 1
    rw [hcd]
    ext <;> simp [dot] <;> right <;> field_simp <;> simp

end Edyn.Mass
