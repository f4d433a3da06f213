import Verif.Collide.BoxPoints
import Verif.Collide.CapsuleCapsule
import Verif.Geom.RaycastMesh

/-!
# Contact points of spheres with triangle meshes (C88)

`src/edyn/collision/collide/collide_sphere_mesh.cpp`, over exact reals: the model and the search for the
separating axis.  `eps` is `EDYN_EPSILON`, `tiny` the `1e-18` of `try_normalize`, `tol` is
`support_feature_tolerance`, `K` holds the constants of `insertion_point_index`.
-/

namespace Edyn.Collide

open Edyn.Math hiding lengthSqr_nonneg
open V3 Edyn.Geom Edyn.Contact

/-! ## Model -/

/-- What a `triangle_mesh` stores about one triangle: the vertices, the normal, the normals of the adjacent faces,
and the indices `get_face_edge_index` and `get_face_vertex_index` return,
`include/edyn/shapes/triangle_mesh.hpp` 87-92 and 154-170. -/
structure Facet where
  v : Fin 3 → V3 ℝ
  n : V3 ℝ
  adj : Fin 3 → V3 ℝ
  id : ℕ
  edge : Fin 3 → ℕ
  vert : Fin 3 → ℕ

def Facet.tri (T : Facet) : Tri := ⟨T.v 0, T.v 1, T.v 2⟩

/-- `get_triangle_support_projection`, `src/edyn/math/triangle.cpp` 103-116. -/
noncomputable def triProj (v : Fin 3 → V3 ℝ) (d : V3 ℝ) : ℝ := max (max (dot (v 0) d) (dot (v 1) d)) (dot (v 2) d)

/-- One pass of the loop over the edges, `collide_sphere_mesh.cpp` 26-43, up to the comparison: no candidate if the
direction cannot be normalized; the outer `none` is the assertion of `closest_point_segment`. -/
noncomputable def edgeCand (eps tiny r : ℝ) (v : Fin 3 → V3 ℝ) (p : V3 ℝ) (i : Fin 3) : Option (List (ℝ × V3 ℝ)) :=
  (closestSegment eps (v i) (v (i + 1)) p).map fun c =>
    match tryNormalize tiny (p - c.q) with
    | none => []
    | some d => [(-(dot p (-d) + r) - triProj v d, d)]

/-- The distance and the separating axis, `collide_sphere_mesh.cpp` 21-44. -/
noncomputable def sphereAxis (eps tiny r : ℝ) (T : Facet) (p : V3 ℝ) : Option (ℝ × V3 ℝ) :=
  (edgeCand eps tiny r T.v p 0).bind fun a => (edgeCand eps tiny r T.v p 1).bind fun b =>
  (edgeCand eps tiny r T.v p 2).bind fun c =>
    (a ++ b ++ c).foldl betterAxis (some (dot (p - T.v 0) T.n - r, T.n))

/-- The index of an edge or a vertex is always below three. -/
def corner (i : ℕ) : Fin 3 := Fin.ofNat 3 i

/-- `get_triangle_mesh_feature_index`, `src/edyn/util/shape_util.cpp` 395-407, with the kind of the feature. -/
def Facet.feature (T : Facet) (s : TriState) : Feat :=
  match s.feat with
  | .face => ⟨.triFace, some T.id⟩
  | .edge => ⟨.triEdge, some (T.edge (corner s.index))⟩
  | .vertex => ⟨.triVertex, some (T.vert (corner s.index))⟩

open Classical in
/-- The point for the feature `s` and the axis `sep`, `collide_sphere_mesh.cpp` 80-111. -/
noncomputable def spherePoint (eps r : ℝ) (T : Facet) (c : Ctx) (sep : V3 ℝ) (dist : ℝ) (s : TriState) :
    Option (Option Point) :=
  let p := c.posA
  let mk (pB n : V3 ℝ) (att : Att) : Point :=
    ⟨Quat.rotate c.ornA.conjugate (smul r (-n)), pB, n, dist, att, none, some (T.feature s)⟩
  match s.feat with
  | .face =>
    some (if pointInTriangle eps T.tri T.n p then some (mk (projectPlane p (T.v 0) T.n) T.n .onB) else none)
  | .edge =>
    let v0 := T.v (corner s.index)
    let v1 := T.v (corner s.index + 1)
    (closestLine eps v0 (v1 - v0) p).map fun q => if 0 < q.t ∧ q.t < 1 then some (mk q.q sep .none) else none
  | .vertex => some (some (mk (T.v (corner s.index)) sep .none))

/-- `collide_sphere_triangle`, `collide_sphere_mesh.cpp` 12-113: the point, if one is added; the outer `none` is a
failed assertion. -/
noncomputable def sphereTriangle (eps tiny tol thick r : ℝ) (T : Facet) (c : Ctx) : Option (Option Point) :=
  (sphereAxis eps tiny r T c.posA).bind fun a =>
  if c.thr < a.1 then some none else
  let s := triFeature T.v 0 a.2 tol
  let sep := triClip a.2 T.adj T.v T.n s.feat (corner s.index)
  let s := triFeature T.v 0 sep tol
  let dist := -(dot c.posA (-sep) + r) - s.proj
  if c.thr < dist then some none else
  if thick < -dist then some none else
  spherePoint eps r T c sep dist s

/-- `AABB::inset` with minus the breaking threshold, `include/edyn/comp/aabb.hpp` 16-18 and
`collide_sphere_mesh.cpp` 117-118; `lo` and `hi` are the corners of `aabbA`. -/
noncomputable def grown (brk : ℝ) (lo hi : V3 ℝ) : Box ℝ :=
  ⟨⟨lo.x - brk, lo.y - brk, lo.z - brk⟩, ⟨hi.x + brk, hi.y + brk, hi.z + brk⟩⟩

/-- `collide` of a sphere and a mesh, `collide_sphere_mesh.cpp` 115-123, with `visit_triangles`,
`triangle_mesh.hpp` 115-121: `nodes` is the tree of the mesh. -/
noncomputable def sphereMesh (K : Consts ℝ) (eps tiny tol brk thick r : ℝ) (nodes : List (StaticTree.TNode ℝ))
    (ts : List Facet) (lo hi : V3 ℝ) (c : Ctx) : Res :=
  (StaticTree.queryIds nodes fun b => b.intersect (grown brk lo hi)).bind fun ids =>
    ids.foldlM (fun l i => (ts[i]?).bind fun T => (sphereTriangle eps tiny tol thick r T c).map fun
      | some p => maybeAdd K l p
      | none => l) []

/-! ## Specification -/

/-- What is expected of a triangle in a mesh: the normal is the unit normal, no edge is shorter than the tolerance,
the area is not below it, and the normals of the adjacent faces are unit vectors. -/
structure Facet.Ok (eps : ℝ) (T : Facet) : Prop where
  normal : T.tri.Normal T.n
  edges : ∀ i, eps < lengthSqr (T.v (i + 1) - T.v i)
  area : 9 * (eps * eps) ≤ lengthSqr (cross (T.v 1 - T.v 0) (T.v 2 - T.v 0))
  adj : ∀ i, lengthSqr (T.adj i) = 1

/-- The point of the triangle with the given weights. -/
noncomputable def Facet.at (T : Facet) (w : Fin 3 → ℝ) : V3 ℝ :=
  smul (w 0) (T.v 0) + smul (w 1) (T.v 1) + smul (w 2) (T.v 2)

/-- The weights are those of a point of the triangle, and no point of the triangle is closer to `p`. -/
structure Facet.Nearest (T : Facet) (p : V3 ℝ) (w : Fin 3 → ℝ) : Prop where
  nonneg : ∀ i, 0 ≤ w i
  sum : w 0 + w 1 + w 2 = 1
  least : ∀ x, T.tri.Has x → lengthSqr (T.at w - p) ≤ lengthSqr (x - p)

/-! ## Points of a triangle -/

theorem all3 {P : Fin 3 → Prop} : (∀ i, P i) ↔ P 0 ∧ P 1 ∧ P 2 :=
  Fin.forall_fin_succ.trans (by simp [Fin.forall_fin_succ])

theorem Facet.has_at (T : Facet) {w : Fin 3 → ℝ} (h0 : ∀ i, 0 ≤ w i) (h1 : w 0 + w 1 + w 2 = 1) : T.tri.Has (T.at w) := by
  have key := Tri.hull_of_weights (v0 := T.v 0) (v1 := T.v 1) (v2 := T.v 2) (h0 1) (h0 2) (by linarith [h0 0])
  have e : T.at w = T.v 0 + smul (w 1) (T.v 1 - T.v 0) + smul (w 2) (T.v 2 - T.v 0) := by
    have : w 0 = 1 - w 1 - w 2 := by linarith
    unfold Facet.at
    rw [this]
    ext <;> simp <;> ring
  show Hull [T.v 0, T.v 1, T.v 2] (T.at w)
  rw [e]; exact key

theorem Facet.has_vertex (T : Facet) (i : Fin 3) : T.tri.Has (T.v i) := by
  refine .vertex ?_
  fin_cases i <;> simp [Facet.tri]

theorem Facet.convex (T : Facet) : Convex T.tri.Has := fun _ _ ha hb t t0 t1 => .between t ha hb t0 t1

theorem triProj_le {v : Fin 3 → V3 ℝ} {d : V3 ℝ} {x : ℝ} : triProj v d ≤ x ↔ ∀ i, dot (v i) d ≤ x := by
  rw [all3, triProj, max_le_iff, max_le_iff, and_assoc]

theorem le_triProj (v : Fin 3 → V3 ℝ) (d : V3 ℝ) (i : Fin 3) : dot (v i) d ≤ triProj v d := triProj_le.1 le_rfl i

theorem Facet.le_proj (T : Facet) (d : V3 ℝ) {x : V3 ℝ} (hx : T.tri.Has x) : dot x d ≤ triProj T.v d := by
  refine hull_le ?_ hx
  intro p hp
  simp only [Facet.tri, List.mem_cons, List.not_mem_nil, or_false] at hp
  rcases hp with rfl | rfl | rfl
  · exact le_triProj T.v d 0
  · exact le_triProj T.v d 1
  · exact le_triProj T.v d 2

/-! ## The axis towards the closest point -/

/-- The direction from the closest point to `p`. -/
noncomputable def towards (p q : V3 ℝ) : V3 ℝ := smul (1 / Real.sqrt (lengthSqr (p - q))) (p - q)

theorem towards_unit {p q : V3 ℝ} (h : 0 < lengthSqr (p - q)) : lengthSqr (towards p q) = 1 := by
  have hs := Real.mul_self_sqrt h.le
  have hp := Real.sqrt_pos.2 h
  have : lengthSqr (towards p q) =
      1 / Real.sqrt (lengthSqr (p - q)) * (1 / Real.sqrt (lengthSqr (p - q))) * lengthSqr (p - q) := by
    simp only [towards, lengthSqr, dot, smul_x, smul_y, smul_z]; ring
  rw [this]
  nth_rewrite 3 [← hs]
  field_simp

theorem towards_smul {p q : V3 ℝ} (h : 0 < lengthSqr (p - q)) :
    p - q = smul (Real.sqrt (lengthSqr (p - q))) (towards p q) := by
  have hp := Real.sqrt_pos.2 h
  unfold towards
  ext <;> simp only [smul_x, smul_y, smul_z] <;> field_simp

theorem towards_dot {p q : V3 ℝ} (h : 0 < lengthSqr (p - q)) :
    dot (p - q) (towards p q) = Real.sqrt (lengthSqr (p - q)) := by
  conv_lhs => rw [towards_smul h]
  rw [dot_smul_left, show dot (towards p q) (towards p q) = 1 from towards_unit h, mul_one]

/-- Along a unit vector, no more than the distance; and all of it only along the direction itself. -/
theorem along_le {p q d : V3 ℝ} (h : 0 < lengthSqr (p - q)) (hd : lengthSqr d = 1) :
    dot (p - q) d ≤ Real.sqrt (lengthSqr (p - q)) ∧
      (Real.sqrt (lengthSqr (p - q)) ≤ dot (p - q) d → d = towards p q) := by
  set L := Real.sqrt (lengthSqr (p - q)) with hL
  have hp : 0 < L := Real.sqrt_pos.2 h
  have hu := towards_unit h
  have e : dot (p - q) d = L * dot (towards p q) d := by
    conv_lhs => rw [towards_smul h]
    rw [dot_smul_left]
  have key : lengthSqr (towards p q - d) = 2 - 2 * dot (towards p q) d := by
    have : lengthSqr (towards p q - d) = lengthSqr (towards p q) + lengthSqr d - 2 * dot (towards p q) d := by
      simp [lengthSqr, dot]; ring
    rw [this, hu, hd]; ring
  have nn := lengthSqr_nonneg (towards p q - d)
  rw [key] at nn
  refine ⟨by rw [e]; nlinarith, fun hle => ?_⟩
  rw [e] at hle
  have h1 : 1 ≤ dot (towards p q) d := by
    by_contra hc
    push Not at hc
    nlinarith
  have hz : lengthSqr (towards p q - d) = 0 := by rw [key]; linarith
  have z := hz
  simp only [lengthSqr, dot] at z
  simp only [sub_x, sub_y, sub_z] at z
  ext <;> nlinarith [sq_nonneg ((towards p q).x - d.x), sq_nonneg ((towards p q).y - d.y),
    sq_nonneg ((towards p q).z - d.z)]

section
variable {T : Facet} {p : V3 ℝ} {w : Fin 3 → ℝ}

theorem Facet.Nearest.has (h : T.Nearest p w) : T.tri.Has (T.at w) := T.has_at h.nonneg h.sum

/-- No point of the triangle is further along the direction than the closest point. -/
theorem Facet.Nearest.extreme (h : T.Nearest p w) (hp : 0 < lengthSqr (p - T.at w)) :
    Extreme T.tri.Has (towards p (T.at w)) (T.at w) :=
  closest_extreme T.convex h.has h.least (Real.sqrt_pos.2 hp)

theorem Facet.Nearest.proj (h : T.Nearest p w) (hp : 0 < lengthSqr (p - T.at w)) :
    triProj T.v (towards p (T.at w)) = dot (T.at w) (towards p (T.at w)) :=
  le_antisymm (triProj_le.2 fun i => (h.extreme hp).2 _ (T.has_vertex i)) (T.le_proj _ h.has)

/-- A vertex with a positive weight is as far along the direction as the closest point. -/
theorem Facet.Nearest.level (h : T.Nearest p w) (hp : 0 < lengthSqr (p - T.at w)) {i : Fin 3} (hi : 0 < w i) :
    dot (T.v i) (towards p (T.at w)) = dot (T.at w) (towards p (T.at w)) := by
  set d := towards p (T.at w) with hd
  have le : ∀ j, dot (T.v j) d ≤ dot (T.at w) d := fun j => (h.extreme hp).2 _ (T.has_vertex j)
  have e : dot (T.at w) d = w 0 * dot (T.v 0) d + w 1 * dot (T.v 1) d + w 2 * dot (T.v 2) d := by
    unfold Facet.at
    rw [dot_add_left, dot_add_left, dot_smul_left, dot_smul_left, dot_smul_left]
  have hs := h.sum
  generalize dot (T.at w) d = x at le e ⊢
  have z : w 0 * (x - dot (T.v 0) d) + w 1 * (x - dot (T.v 1) d) + w 2 * (x - dot (T.v 2) d) = 0 := by
    linear_combination x * hs + e
  have n0 := mul_nonneg (h.nonneg 0) (sub_nonneg.2 (le 0))
  have n1 := mul_nonneg (h.nonneg 1) (sub_nonneg.2 (le 1))
  have n2 := mul_nonneg (h.nonneg 2) (sub_nonneg.2 (le 2))
  have zi : w i * (x - dot (T.v i) d) = 0 := by
    fin_cases i
    · show w 0 * (x - dot (T.v 0) d) = 0; linarith
    · show w 1 * (x - dot (T.v 1) d) = 0; linarith
    · show w 2 * (x - dot (T.v 2) d) = 0; linarith
  rcases mul_eq_zero.1 zi with h0 | h0
  · linarith
  · linarith

/-- The closest point is unique. -/
theorem Facet.Nearest.unique (h : T.Nearest p w) {x : V3 ℝ} (hx : T.tri.Has x)
    (hle : lengthSqr (x - p) ≤ lengthSqr (T.at w - p)) : x = T.at w := by
  have mid := h.least _ (T.convex _ _ h.has hx (1 / 2) (by norm_num) (by norm_num))
  have e : lengthSqr (T.at w + smul (1 / 2) (x - T.at w) - p) =
      (lengthSqr (x - p) + lengthSqr (T.at w - p)) / 2 - lengthSqr (x - T.at w) / 4 := by
    simp [lengthSqr, dot]; ring
  rw [e] at mid
  have z : lengthSqr (x - T.at w) = 0 := le_antisymm (by linarith) (lengthSqr_nonneg _)
  simp only [lengthSqr, dot] at z
  simp only [sub_x, sub_y, sub_z] at z
  ext <;> nlinarith [sq_nonneg (x.x - (T.at w).x), sq_nonneg (x.y - (T.at w).y), sq_nonneg (x.z - (T.at w).z)]

/-- A unit vector which is level on all three vertices is the normal or its opposite. -/
theorem Facet.level_normal (hn : T.tri.Normal T.n) {d : V3 ℝ} (hd : lengthSqr d = 1)
    (h1 : dot (T.v 1) d = dot (T.v 0) d) (h2 : dot (T.v 2) d = dot (T.v 0) d) : d = smul (dot d T.n) T.n := by
  obtain ⟨hu, k, hk, hN⟩ := hn
  have hN' : cross (T.v 1 - T.v 0) (T.v 2 - T.v 0) = smul k T.n := hN
  set a := T.v 1 - T.v 0 with ha
  set b := T.v 2 - T.v 0 with hb
  have a0 : dot a d = 0 := by rw [ha, dot_sub_left]; linarith
  have b0 : dot b d = 0 := by rw [hb, dot_sub_left]; linarith
  -- d × (a × b) = a (d·b) − b (d·a) = 0
  have z : cross d (cross a b) = 0 := by
    have : cross d (cross a b) = smul (dot b d) a - smul (dot a d) b := by
      ext <;> simp [cross, dot] <;> ring
    rw [this, a0, b0]; ext <;> simp
  rw [hN'] at z
  have z' : cross d T.n = 0 := by
    have zx := congrArg V3.x z
    have zy := congrArg V3.y z
    have zz := congrArg V3.z z
    simp [cross] at zx zy zz
    ext <;> simp [cross]
    · have : k * (d.y * T.n.z - d.z * T.n.y) = 0 := by linear_combination zx
      rcases mul_eq_zero.1 this with h | h
      · exact absurd h hk.ne'
      · exact h
    · have : k * (d.z * T.n.x - d.x * T.n.z) = 0 := by linear_combination zy
      rcases mul_eq_zero.1 this with h | h
      · exact absurd h hk.ne'
      · exact h
    · have : k * (d.x * T.n.y - d.y * T.n.x) = 0 := by linear_combination zz
      rcases mul_eq_zero.1 this with h | h
      · exact absurd h hk.ne'
      · exact h
  have zx := congrArg V3.x z'
  have zy := congrArg V3.y z'
  have zz := congrArg V3.z z'
  simp [cross] at zx zy zz
  have hu' : T.n.x * T.n.x + T.n.y * T.n.y + T.n.z * T.n.z = 1 := hu
  ext <;> simp only [smul_x, smul_y, smul_z, dot]
  · linear_combination -(d.x) * hu' + T.n.y * zz - T.n.z * zy
  · linear_combination -(d.y) * hu' + T.n.z * zx - T.n.x * zz
  · linear_combination -(d.z) * hu' + T.n.x * zy - T.n.y * zx

/-! ## The search finds it -/

theorem edgeCand_spec {eps tiny r : ℝ} (he : 0 ≤ eps) (ht : 0 ≤ tiny) (hT : T.Ok eps) (i : Fin 3) :
    ∃ l, edgeCand eps tiny r T.v p i = some l ∧
      (∀ c ∈ l, lengthSqr c.2 = 1 ∧ c.1 = dot p c.2 - r - triProj T.v c.2) ∧
      ∀ u, 0 ≤ u → u ≤ 1 → (∀ x, T.tri.Has x → lengthSqr (T.v i + smul u (T.v (i + 1) - T.v i) - p) ≤ lengthSqr (x - p)) →
        tiny < lengthSqr (p - (T.v i + smul u (T.v (i + 1) - T.v i))) →
        (dot p (towards p (T.v i + smul u (T.v (i + 1) - T.v i))) - r -
          triProj T.v (towards p (T.v i + smul u (T.v (i + 1) - T.v i))),
          towards p (T.v i + smul u (T.v (i + 1) - T.v i))) ∈ l := by
  obtain ⟨c, hc, ⟨t0, t1⟩, hq, -, hmin⟩ := closest_segment_spec eps he (T.v i) (T.v (i + 1)) p (hT.edges i)
  refine ⟨_, by rw [edgeCand, hc]; rfl, ?_, ?_⟩
  · intro x hx
    simp only [tryNormalize] at hx
    by_cases h : tiny < lengthSqr (p - c.q)
    · rw [if_pos h] at hx
      simp only [List.mem_singleton] at hx
      subst hx
      refine ⟨towards_unit (lt_of_le_of_lt ht h), ?_⟩
      simp only [dot_neg_right]; ring
    · rw [if_neg h] at hx
      simp at hx
  · intro u u0 u1 hu hd
    have flip : ∀ x y : V3 ℝ, lengthSqr (x - y) = lengthSqr (y - x) := by
      intro x y; simp [lengthSqr, dot]; ring
    have inT : ∀ t, 0 ≤ t → t ≤ 1 → T.tri.Has (T.v i + smul t (T.v (i + 1) - T.v i)) := fun t t0 t1 =>
      .between t (T.has_vertex i) (T.has_vertex (i + 1)) t0 t1
    have same : T.v i + smul u (T.v (i + 1) - T.v i) = c.q := by
      have h1 := hmin u u0 u1
      have h2 := hmin ((u + c.t) / 2) (by linarith) (by linarith)
      have h3 := hu _ (inT c.t t0 t1)
      rw [← hq] at h3
      set q' := T.v i + smul u (T.v (i + 1) - T.v i) with hq'
      have e : lengthSqr (p - (T.v i + smul ((u + c.t) / 2) (T.v (i + 1) - T.v i))) =
          (lengthSqr (p - q') + lengthSqr (p - c.q)) / 2 - lengthSqr (q' - c.q) / 4 := by
        rw [hq, hq']; simp [lengthSqr, dot]; ring
      rw [e] at h2
      rw [flip, flip c.q] at h3
      have z : lengthSqr (q' - c.q) = 0 := le_antisymm (by linarith) (lengthSqr_nonneg _)
      simp only [lengthSqr, dot] at z
      simp only [sub_x, sub_y, sub_z] at z
      ext <;> nlinarith [sq_nonneg (q'.x - c.q.x), sq_nonneg (q'.y - c.q.y), sq_nonneg (q'.z - c.q.z)]
    rw [same] at hd ⊢
    simp only [tryNormalize]
    rw [if_pos hd]
    simp only [List.mem_singleton, dot_neg_right]
    refine Prod.ext ?_ rfl
    simp only [towards, dot_neg_right]
    ring

/-- The axis is one of the candidates, and no candidate is better. -/
theorem sphereAxis_spec {eps tiny r : ℝ} (he : 0 ≤ eps) (ht : 0 ≤ tiny) (hT : T.Ok eps) :
    ∃ x d, sphereAxis eps tiny r T p = some (x, d) ∧ lengthSqr d = 1 ∧
      x ≤ dot p d - r - triProj T.v d ∧ dot p d - r - triProj T.v d ≤ x ∧ dot (p - T.v 0) T.n - r ≤ x ∧
      ∀ (i : Fin 3) u, 0 ≤ u → u ≤ 1 →
        (∀ x, T.tri.Has x → lengthSqr (T.v i + smul u (T.v (i + 1) - T.v i) - p) ≤ lengthSqr (x - p)) →
        tiny < lengthSqr (p - (T.v i + smul u (T.v (i + 1) - T.v i))) →
        dot p (towards p (T.v i + smul u (T.v (i + 1) - T.v i))) - r -
          triProj T.v (towards p (T.v i + smul u (T.v (i + 1) - T.v i))) ≤ x := by
  obtain ⟨a, ea, ca, fa⟩ := edgeCand_spec (p := p) (r := r) he ht hT 0
  obtain ⟨b, eb, cb, fb⟩ := edgeCand_spec (p := p) (r := r) he ht hT 1
  obtain ⟨c, ec, cc, fc⟩ := edgeCand_spec (p := p) (r := r) he ht hT 2
  obtain ⟨⟨x, d⟩, h1, h2, h3, h4⟩ := better_fold (a ++ b ++ c) (dot (p - T.v 0) T.n - r, T.n)
  have nproj : dot (p - T.v 0) T.n - r = dot p T.n - r - triProj T.v T.n := by
    have hp : triProj T.v T.n = dot (T.v 0) T.n := by
      have pl : ∀ i, dot (T.v i) T.n = dot (T.v 0) T.n := fun i => tri_plane hT.normal _ (T.has_vertex i)
      exact le_antisymm (triProj_le.2 fun i => (pl i).le) (le_triProj _ _ 0)
    rw [hp, dot_sub_left]; ring
  have hx : lengthSqr d = 1 ∧ x = dot p d - r - triProj T.v d := by
    rcases h2 with h2 | h2
    · obtain ⟨rfl, rfl⟩ := Prod.mk.inj h2
      exact ⟨hT.normal.1, nproj⟩
    · simp only [List.mem_append] at h2
      rcases h2 with (h2 | h2) | h2
      · exact ca _ h2
      · exact cb _ h2
      · exact cc _ h2
  refine ⟨x, d, by rw [sphereAxis, ea, eb, ec]; exact h1, hx.1, hx.2.le, hx.2.ge, h3, ?_⟩
  intro i u u0 u1 hu hd
  have mem : ∀ y, y ∈ a ∨ y ∈ b ∨ y ∈ c → y.1 ≤ x := fun y hy => h4 y (by
    simp only [List.mem_append]; tauto)
  revert hu hd
  fin_cases i
  · exact fun hu hd => mem _ (.inl (fa u u0 u1 hu hd))
  · exact fun hu hd => mem _ (.inr (.inl (fb u u0 u1 hu hd)))
  · exact fun hu hd => mem _ (.inr (.inr (fc u u0 u1 hu hd)))

/-- **The axis from the closest point.** If the closest point of the triangle is on an edge, or the centre is not
below the triangle, the axis found is the direction from the closest point to the centre and the distance is
that of the centre less the radius. -/
theorem sphere_axis_nearest {eps tiny r : ℝ} (he : 0 ≤ eps) (ht : 0 ≤ tiny) (hT : T.Ok eps) (h : T.Nearest p w)
    (hp : tiny < lengthSqr (p - T.at w)) (hside : (∃ i, w i = 0) ∨ 0 ≤ dot (p - T.v 0) T.n) :
    sphereAxis eps tiny r T p = some (Real.sqrt (lengthSqr (p - T.at w)) - r, towards p (T.at w)) := by
  have hp0 := lt_of_le_of_lt ht hp
  obtain ⟨x, d, e, hd, hle, hge, hn, hedge⟩ := sphereAxis_spec (p := p) (r := r) he ht hT
  set L := Real.sqrt (lengthSqr (p - T.at w)) with hL
  have hval : dot p (towards p (T.at w)) - r - triProj T.v (towards p (T.at w)) = L - r := by
    rw [h.proj hp0]
    have := towards_dot hp0
    rw [dot_sub_left, ← hL] at this
    linarith
  have upper : x ≤ L - r := by
    have h1 := T.le_proj d h.has
    have h2 := (along_le hp0 hd).1
    rw [dot_sub_left] at h2
    linarith
  have lower : L - r ≤ x := by
    by_cases hw : ∃ i, w i = 0
    · obtain ⟨k, hk⟩ := hw
      -- the closest point is on the edge opposite to the vertex `k`
      have on : T.at w = T.v (k + 1) + smul (w (k + 1 + 1)) (T.v (k + 1 + 1) - T.v (k + 1)) := by
        have hs := h.sum
        unfold Facet.at
        fin_cases k
        · have hk' : w 0 = 0 := hk
          have : w 1 = 1 - w 2 := by linarith
          show _ = T.v 1 + smul (w 2) (T.v 2 - T.v 1)
          rw [hk', this]; ext <;> simp <;> ring
        · have hk' : w 1 = 0 := hk
          have : w 2 = 1 - w 0 := by linarith
          show _ = T.v 2 + smul (w 0) (T.v 0 - T.v 2)
          rw [hk', this]; ext <;> simp <;> ring
        · have hk' : w 2 = 0 := hk
          have : w 0 = 1 - w 1 := by linarith
          show _ = T.v 0 + smul (w 1) (T.v 1 - T.v 0)
          rw [hk', this]; ext <;> simp <;> ring
      have w1 : w (k + 1 + 1) ≤ 1 := by
        have hs := h.sum
        have n0 := h.nonneg 0
        have n1 := h.nonneg 1
        have n2 := h.nonneg 2
        fin_cases k
        · show w 2 ≤ 1; linarith
        · show w 0 ≤ 1; linarith
        · show w 1 ≤ 1; linarith
      have key := hedge (k + 1) (w (k + 1 + 1)) (h.nonneg _) w1 (by rw [← on]; exact h.least) (by rw [← on]; exact hp)
      rw [← on, hval] at key
      exact key
    · have hall : ∀ i, 0 < w i := fun i => lt_of_le_of_ne (h.nonneg i) fun hc => hw ⟨i, hc.symm⟩
      have hn0 : 0 ≤ dot (p - T.v 0) T.n := hside.resolve_left hw
      have l0 := h.level hp0 (hall 0)
      have l1 := h.level hp0 (hall 1)
      have l2 := h.level hp0 (hall 2)
      have dir := T.level_normal hT.normal (towards_unit hp0) (l1.trans l0.symm) (l2.trans l0.symm)
      set m := dot (towards p (T.at w)) T.n with hm
      have hmm : m * m = 1 := by
        have h1 := towards_unit hp0
        rw [dir] at h1
        have : lengthSqr (smul m T.n) = m * m * lengthSqr T.n := by simp [lengthSqr, dot]; ring
        rw [this, hT.normal.1, mul_one] at h1
        exact h1
      have hplane : dot (p - T.v 0) T.n = L * m := by
        have pl := tri_plane hT.normal _ h.has
        have e1 : dot (p - T.v 0) T.n = dot (p - T.at w) T.n := by
          rw [dot_sub_left, dot_sub_left, pl]; rfl
        rw [e1, towards_smul hp0, dot_smul_left, ← hL]
      have hLp : 0 < L := Real.sqrt_pos.2 hp0
      rw [hplane] at hn0 hn
      have hm0 : 0 ≤ m := by
        by_contra hc
        push Not at hc
        nlinarith
      have hm1 : m = 1 := by nlinarith
      rw [hm1, mul_one] at hn
      exact hn
  have hx : x = L - r := le_antisymm upper lower
  have hdir : d = towards p (T.at w) := by
    refine (along_le hp0 hd).2 ?_
    have h1 := T.le_proj d h.has
    rw [dot_sub_left]
    linarith
  rw [e, hx, hdir]

end

end Edyn.Collide
