import Verif.Collide.Planes
import Verif.Geom.Hull2
import Verif.Geom.Polyhedron

/-!
# Contact points of polyhedra with planes and spheres (C71)

Scalars are exact reals.
-/

namespace Edyn.Collide

open Edyn.Math hiding lengthSqr_nonneg
open V3 Edyn.Geom Edyn.Geom.Poly Edyn.Contact

/-! ## Support polygons -/

/-- The coordinates of a point in the plane through `origin` with the normal `dir`: `make_tangent_basis`,
`src/edyn/math/geom.cpp` 756-760, `to_object_space`, `include/edyn/math/transform.hpp` 17-23, and `to_vector2_xz`,
`include/edyn/math/vector2_3_util.hpp` 16-18. -/
noncomputable def planar (dir origin v : V3 ℝ) : V2 :=
  ⟨dot (v - origin) (planeSpace dir).1, dot (v - origin) (planeSpace dir).2⟩

/-- `support_polygon`, `include/edyn/util/shape_util.hpp` 201-215, without the basis, which depends on the direction
only. -/
structure Polygon where
  verts : List (V3 ℝ)
  plane : List V2
  hull : List ℕ
  origin : V3 ℝ

open Classical in
/-- `point_cloud_support_polygon`, `shape_util.hpp` 232-273.  `none`: the assertion on 267 fails or the hull is
undefined; the first argument bounds the depth of the recursion of the hull.  Adding a zero offset is not left out. -/
noncomputable def supportPolygon (kh : ℕ) (pts : List (V3 ℝ)) (offset dir : V3 ℝ) (proj : ℝ) (positive : Bool) (tol : ℝ) :
    Option Polygon :=
  let origin := smul proj dir
  let vs := (pts.map (· + offset)).filter fun v =>
    if positive then decide (dot v dir < proj + tol) else decide (proj - tol < dot v dir)
  if vs = [] then none
  else (convexHull2 kh (vs.map (planar dir origin)) (1 / 1000)).map fun hull =>
    ⟨vs, vs.map (planar dir origin), hull, origin⟩

/-- The hull of any points is defined, it is not empty and its indices are in range. -/
theorem hull_any (pts : List V2) (tol : ℝ) (ht : 0 < tol) (hne : pts ≠ []) :
    ∃ hull, (∀ k, pts.length < k → convexHull2 k pts tol = some hull) ∧ hull ≠ [] ∧ ∀ i ∈ hull, i < pts.length := by
  classical
  rcases pts with _ | ⟨a, _ | ⟨b, _ | ⟨c, _ | ⟨d, rest⟩⟩⟩⟩
  · simp at hne
  · exact ⟨[0], fun k _ => rfl, by simp, by simp⟩
  · exact ⟨[0, 1], fun k _ => rfl, by simp, by simp⟩
  · refine ⟨if triangleCcw a b c then [0, 1, 2] else [2, 1, 0], fun k _ => ?_, ?_, ?_⟩
    · show (if triangleCcw a b c then some [0, 1, 2] else some [2, 1, 0]) = _
      split_ifs <;> rfl
    · split_ifs <;> simp
    · split_ifs <;> simp
  · have h4 : 4 ≤ (a :: b :: c :: d :: rest).length := by simp
    generalize a :: b :: c :: d :: rest = pts at *
    by_cases hw : ∃ p ∈ pts, ∃ q ∈ pts, tol ≤ p.x - q.x
    · obtain ⟨hull, h1, h2, _, h3, _⟩ := convex_hull_partial pts tol ht h4 hw
      refine ⟨hull, h1, by rintro rfl; simp at h2, fun i hi => ?_⟩
      obtain ⟨p, hp, _⟩ := h3 i hi
      exact (List.getElem?_eq_some_iff.mp hp).1
    · push Not at hw
      have hs : ∀ k, ∃ i j hi lo, convexHull2 k pts tol = some [i, j] ∧ pts[i]? = some hi ∧ pts[j]? = some lo := by
        intro k
        obtain ⟨i, j, hi, lo, h1, h2, h3, _⟩ := (convex_hull_small k tol).2 pts h4 hw
        exact ⟨i, j, hi, lo, h1, h2, h3⟩
      have same : ∀ k, convexHull2 k pts tol = convexHull2 0 pts tol := by
        intro k
        obtain ⟨pmn, emn, hmn⟩ := furthest2_spec (fun p => -p.x) hne
        obtain ⟨pmx, emx, hmx⟩ := furthest2_spec (fun p => p.x) hne
        have hd := hw pmx (List.mem_of_getElem? emx) pmn (List.mem_of_getElem? emn)
        rcases pts with _ | ⟨a, _ | ⟨b, _ | ⟨c, _ | ⟨d, rest⟩⟩⟩⟩
        · simp at h4
        · simp at h4
        · simp at h4
        · simp at h4
        · simp only [convexHull2, emn, emx, Option.bind_some]
          rw [if_pos hd, if_pos hd]
      obtain ⟨i, j, hi, lo, h1, h2, h3⟩ := hs 0
      refine ⟨[i, j], fun k _ => by rw [same, h1], by simp, ?_⟩
      intro x hx
      simp only [List.mem_cons, List.not_mem_nil, or_false] at hx
      rcases hx with rfl | rfl
      · exact (List.getElem?_eq_some_iff.mp h2).1
      · exact (List.getElem?_eq_some_iff.mp h3).1

/-- **C71, the polygon of the points furthest in a direction.** If the projection given is that of one of the points,
the polygon is defined.  It is made of exactly the points within the tolerance, its hull refers to some of them. -/
theorem support_polygon_spec (pts : List (V3 ℝ)) (offset dir : V3 ℝ) (proj : ℝ) (positive : Bool) (tol : ℝ) (ht : 0 < tol)
    (hp : ∃ v ∈ pts, dot (v + offset) dir = proj) :
    ∃ g, (∀ k, pts.length < k → supportPolygon k pts offset dir proj positive tol = some g) ∧ g.hull ≠ [] ∧
      g.origin = smul proj dir ∧ g.plane = g.verts.map (planar dir g.origin) ∧
      (∀ w, w ∈ g.verts ↔ (∃ v ∈ pts, w = v + offset) ∧
        if positive then dot w dir < proj + tol else proj - tol < dot w dir) ∧
      ∀ i ∈ g.hull, i < g.verts.length := by
  classical
  obtain ⟨v, hv, hvp⟩ := hp
  set vs := (pts.map (· + offset)).filter fun v =>
    if positive then decide (dot v dir < proj + tol) else decide (proj - tol < dot v dir) with hvs
  have hmem : ∀ w, w ∈ vs ↔ (∃ v ∈ pts, w = v + offset) ∧
      if positive then dot w dir < proj + tol else proj - tol < dot w dir := by
    intro w
    rw [hvs, List.mem_filter, List.mem_map]
    cases positive <;> simp [eq_comm]
  have hne : vs ≠ [] := by
    apply List.ne_nil_of_mem (a := v + offset)
    rw [hmem]
    refine ⟨⟨v, hv, rfl⟩, ?_⟩
    rw [hvp]
    cases positive <;> simp [ht]
  have hle : vs.length ≤ pts.length := by
    rw [hvs]; exact (List.length_filter_le _ _).trans (by rw [List.length_map])
  obtain ⟨hull, h1, h2, h3⟩ := hull_any (vs.map (planar dir (smul proj dir))) (1 / 1000) (by norm_num) (by simpa using hne)
  refine ⟨⟨vs, vs.map (planar dir (smul proj dir)), hull, smul proj dir⟩, fun k hk => ?_, h2, rfl, rfl, hmem, ?_⟩
  · unfold supportPolygon
    simp only [← hvs]
    rw [if_neg hne, h1 k (by rw [List.length_map]; omega)]
    rfl
  · intro i hi
    have := h3 i hi
    rwa [List.length_map] at this

/-! ## A polyhedron and a plane -/

/-- The vertices of the hull of a polygon; `none`: an index is out of range. -/
def Polygon.outline (g : Polygon) : Option (List (V3 ℝ)) := g.hull.mapM fun i => g.verts[i]?

theorem mapM_getElem (vs : List (V3 ℝ)) (is : List ℕ) (h : ∀ i ∈ is, i < vs.length) :
    ∃ l, is.mapM (fun i => vs[i]?) = some l ∧ (∀ v ∈ l, v ∈ vs) ∧ (l = [] ↔ is = []) := by
  induction is with
  | nil => exact ⟨[], rfl, by simp, by simp⟩
  | cons i is ih =>
    obtain ⟨l, h1, h2, _⟩ := ih fun j hj => h j (List.mem_cons_of_mem _ hj)
    have hi := h i List.mem_cons_self
    refine ⟨vs[i] :: l, ?_, ?_, by simp⟩
    · rw [List.mapM_cons, List.getElem?_eq_getElem hi, h1]; rfl
    · intro v hv
      rcases List.mem_cons.mp hv with rfl | hv
      · exact List.getElem_mem hi
      · exact h2 v hv

/-- `collide` of a polyhedron and a plane, `collide_polyhedron_plane.cpp` 10-37.  `vs` are the vertices of the mesh,
`start` and `idx` its adjacency; the vertices of `rotated` are those of the mesh rotated by the orientation of the
body.  `kp` bounds the passes of `polyhedron_support_projection`, `kh` the depth of the recursion of the hull. -/
noncomputable def polyPlane (kc : Consts ℝ) (kp kh : ℕ) (tol : ℝ) (vs : List (V3 ℝ)) (start idx : List ℕ) (n : V3 ℝ) (k : ℝ)
    (c : Ctx) : Res :=
  let center := smul k n - c.posA
  let rot := vs.map (Quat.rotate c.ornA)
  (polyProjection kp rot start idx (-n)).bind fun m =>
  let projPoly := -m
  let distance := projPoly - dot center n
  if c.thr < distance then some [] else
  (supportPolygon kh rot 0 n projPoly true tol).bind fun g =>
  g.outline.map fun ps => maybeAddAll kc (ps.map fun p =>
    let d := dot (p - center) n
    ⟨Quat.rotate c.ornA.conjugate p, p - smul d n + c.posA, n, d, .onB, none, none⟩)

/-- **C71, a polyhedron and a plane, partial.** For every convex polyhedron, points are reported exactly when it is
within the threshold of the plane.  There are at most four; each is at a vertex of the polyhedron and good up to the
tolerance.  Missing: the body of the plane has to be at the origin, as its pivots are left in the world. -/
theorem polyhedron_plane_partial (kc : Consts ℝ) (kp kh : ℕ) (tol : ℝ) (ht : 0 < tol) (vs : List (V3 ℝ))
    (edges : List (ℕ × ℕ)) (hne : vs ≠ []) (hedge : ∀ e ∈ edges, e.1 < vs.length ∧ e.2 < vs.length)
    (hcone : EdgeCone vs edges) (hkp : vs.length ≤ kp) (hkh : vs.length < kh) (n : V3 ℝ) (k : ℝ) (c : Ctx)
    (hn : lengthSqr n = 1) (hc : c.Fixed) :
    ∃ l, polyPlane kc kp kh tol vs (calcNeighbors vs.length edges).1 (calcNeighbors vs.length edges).2 n k c = some l ∧
      (l ≠ [] ↔ Near (Placed (Hull vs) c.posA c.ornA) (halfSpace n k) c.thr) ∧ l.length ≤ 4 ∧
      ∀ p ∈ l, GoodWithin tol (Placed (Hull vs) c.posA c.ornA) (halfSpace n k) c p ∧ p.n = n ∧ p.att = .onB ∧ p.pA ∈ vs := by
  obtain ⟨⟨oA, oB, ht0⟩, hpB, hqB⟩ := hc
  have hnn : dot n n = 1 := hn
  obtain ⟨m, hm, ⟨q, ⟨q0, hq0, rfl⟩, hqd⟩, hmax⟩ := rotated_projection_spec vs edges hne hedge hcone c.ornA oA (-n) kp hkp
  -- the projection is that of a vertex
  obtain ⟨u, qv, h1, h2, _⟩ := climb_terminates (vs.map (Quat.rotate c.ornA)) edges (by simpa using hne)
    (by simpa using hedge) (-n) kp (by simpa using hkp)
  rw [List.length_map, hm, Option.some.injEq] at h1
  have hqv : qv ∈ vs.map (Quat.rotate c.ornA) := List.mem_of_getElem? h2
  have z0 : ∀ v : V3 ℝ, v + 0 = v := by intro v; ext <;> simp
  have z1 : ∀ v : V3 ℝ, (0 : V3 ℝ) + v = v := by intro v; ext <;> simp
  have ext : Extreme (Placed (Hull vs) c.posA c.ornA) (-n) (c.posA + Quat.rotate c.ornA q0) := by
    refine ⟨⟨q0, hq0, rfl⟩, ?_⟩
    rintro _ ⟨w, hw, rfl⟩
    have := hmax _ ⟨w, hw, rfl⟩
    rw [z1] at this hqd
    rw [dot_add_left, dot_add_left, hqd]; linarith
  have hdist : dot n (c.posA + Quat.rotate c.ornA q0) - k = -m - dot (smul k n - c.posA) n := by
    rw [z1, dot_neg_right] at hqd
    rw [dot_add_right, dot_sub_left, dot_smul_left, hnn, dot_comm n c.posA, dot_comm n]
    linarith
  rw [plane_near_set hn ht0 ext, hdist]
  unfold polyPlane
  simp only [hm, Option.bind_some]
  by_cases hd : c.thr < -m - dot (smul k n - c.posA) n
  · rw [if_pos hd]
    exact ⟨[], rfl, by simp; linarith, by simp, by simp⟩
  rw [if_neg hd]
  obtain ⟨g, g1, g2, _, _, g5, g6⟩ := support_polygon_spec (vs.map (Quat.rotate c.ornA)) 0 n (-m) true tol ht
    ⟨qv, hqv, by rw [z0, h1, dot_neg_right]; ring⟩
  rw [g1 kh (by simpa using hkh), Option.bind_some]
  obtain ⟨ps, p1, p2, p3⟩ := mapM_getElem g.verts g.hull g6
  rw [show g.outline = some ps from p1, Option.map_some]
  refine ⟨_, rfl, ?_, (maybe_add_all kc _).1, ?_⟩
  · rw [(maybe_add_all kc _).2.2]
    simp only [ne_eq, List.map_eq_nil_iff, p3, g2, not_false_eq_true, true_iff]
    exact not_lt.mp hd
  · intro p hp
    obtain ⟨w, hw, rfl⟩ := List.mem_map.mp ((maybe_add_all kc _).2.1 p hp)
    obtain ⟨⟨v', hv', e⟩, hlow⟩ := (g5 w).mp (p2 w hw)
    rw [z0] at e
    subst e
    simp only [if_true] at hlow
    obtain ⟨v, hv, rfl⟩ := List.mem_map.mp hv'
    have eA : Quat.rotate c.ornA.conjugate (Quat.rotate c.ornA v) = v := (rotate_conjugate c.ornA oA v).1
    refine ⟨⟨hn, ?_, ?_, ?_, ?_⟩, rfl, rfl, by simpa only [eA] using hv⟩
    · simp only [Ctx.wA, eA]; exact ⟨v, .vertex hv, rfl⟩
    · rintro _ ⟨x, hx, rfl⟩
      have := hmax _ ⟨x, hx, rfl⟩
      rw [z1, dot_neg_right] at this
      simp only [Ctx.wA, eA, toWorldSpace]
      rw [dot_neg_right, dot_neg_right, dot_add_left, dot_add_left]
      linarith
    · simp only [Ctx.wB, toWorldSpace, hpB, hqB, rotate_one]
      rw [z1]
      apply plane_extreme
      rw [dot_add_right, dot_sub_right, dot_smul_right, hnn, dot_sub_left, dot_sub_left, dot_smul_left, hnn,
        dot_comm n c.posA, dot_comm n]
      ring
    · simp only [Ctx.wA, Ctx.wB, toWorldSpace, hpB, hqB, rotate_one, eA]
      generalize dot (Quat.rotate c.ornA v - (smul k n - c.posA)) n = d
      ext <;> simp <;> ring

/-- Not vacuous: a pyramid on the ground. -/
example : ∃ l, polyPlane ⟨1 / 100, 1 / 10000, 1 / 10000, Real.sqrt⟩ 5 6 (1 / 200) pyramid (calcNeighbors 5 pyramidEdges).1 (calcNeighbors 5 pyramidEdges).2
    ey 0 ⟨⟨3, 0, 0⟩, 1, 0, 1, 1 / 50⟩ = some l ∧ l ≠ [] := by
  obtain ⟨l, h1, h2, _⟩ := polyhedron_plane_partial ⟨1 / 100, 1 / 10000, 1 / 10000, Real.sqrt⟩ 5 6 (1 / 200) (by norm_num) pyramid pyramidEdges
    (by simp [pyramid]) (by simp [pyramid, pyramidEdges]) pyramid_cone (by simp [pyramid]) (by simp [pyramid]) ey 0
    ⟨⟨3, 0, 0⟩, 1, 0, 1, 1 / 50⟩ ey_unit ⟨⟨one_unit, one_unit, by norm_num⟩, rfl, rfl⟩
  refine ⟨l, h1, h2.mpr ⟨⟨4, 0, 0⟩, ⟨4, 0, 0⟩, ⟨⟨1, 0, 0⟩, .vertex (by simp [pyramid]), ?_⟩, ?_, ?_⟩⟩
  · rw [rotate_one]; ext <;> norm_num
  · norm_num [halfSpace, dot, ey]
  · norm_num [lengthSqr, dot]

/-! ## A polyhedron and a sphere -/

/-- The loop over the faces, `collide_polyhedron_sphere.cpp` 25-38: distance, projection and direction.  A face is given
by its normal and its first vertex.  `none` stands for the initial values; they are only used further if there is no
face. -/
noncomputable def bestFace (r : ℝ) (pos : V3 ℝ) : List (V3 ℝ × V3 ℝ) → Option (ℝ × ℝ × V3 ℝ) → Option (ℝ × ℝ × V3 ℝ)
  | [], b => b
  | f :: fs, b =>
    let normal := -f.1
    let projA := dot f.2 normal
    let dist := projA - (dot pos normal + r)
    bestFace r pos fs <| match b with
      | none => some (dist, projA, normal)
      | some x => if x.1 < dist then some (dist, projA, normal) else some x

/-- `to_world_space` of a point of the plane, `transform.hpp` 32-35. -/
noncomputable def spatial (dir origin : V3 ℝ) (q : V2) : V3 ℝ :=
  origin + (smul q.x (planeSpace dir).1 + smul q.y (planeSpace dir).2)

/-- `collide` of a polyhedron and a sphere, `collide_polyhedron_sphere.cpp` 9-88.  `none`: an assertion fails.  The mesh
is given by its vertices and its relevant faces. -/
noncomputable def polySphere (kh : ℕ) (tol eps : ℝ) (vs : List (V3 ℝ)) (faces : List (V3 ℝ × V3 ℝ)) (r : ℝ) (c : Ctx) : Res :=
  let posB := toObjectSpace c.posB c.posA c.ornA
  let ornB := c.ornA.conjugate * c.ornB
  let point (pA s : V3 ℝ) (d : ℝ) (att : Att) : Point :=
    plain pA (smul r (Quat.rotate ornB.conjugate s)) (Quat.rotate c.ornA s) d att
  (bestFace r posB faces none).bind fun b =>
  let distance := b.1
  let sep := b.2.2
  if c.thr < distance then some [] else
  (supportPolygon kh vs 0 sep b.2.1 true tol).bind fun g =>
  if ¬ 2 < g.hull.length then none else
  (g.hull.mapM fun i => g.plane[i]?).bind fun corners =>
  match closestPolygon corners (planar sep g.origin posB) with
  | none => some [point (projectPlane posB g.origin sep) sep distance .onA]
  | some q =>
    let pA := spatial sep g.origin q
    let ax := pA - posB
    if eps < lengthSqr ax then
      let len := Real.sqrt (lengthSqr ax)
      let d := len - r
      if c.thr < d then some [] else some [point pA (smul (1 / len) ax) d .none]
    else some [point (projectPlane posB g.origin sep) sep distance .none]

/-- The faces of a convex polyhedron: unit normals, the vertices are behind every face, and what is behind all of
them belongs to the polyhedron. -/
structure FacesOf (vs : List (V3 ℝ)) (faces : List (V3 ℝ × V3 ℝ)) : Prop where
  some_face : faces ≠ []
  unit : ∀ f ∈ faces, lengthSqr f.1 = 1
  on : ∀ f ∈ faces, f.2 ∈ vs
  behind : ∀ f ∈ faces, ∀ v ∈ vs, dot (v - f.2) f.1 ≤ 0
  closed : ∀ w, (∀ f ∈ faces, dot (w - f.2) f.1 ≤ 0) → Hull vs w

theorem bestFace_spec (r : ℝ) (pos : V3 ℝ) (fs : List (V3 ℝ × V3 ℝ)) : ∀ b, (fs ≠ [] ∨ b ≠ none) →
    ∃ x, bestFace r pos fs b = some x ∧
      (b = some x ∨ ∃ f ∈ fs, x = (dot (pos - f.2) f.1 - r, -dot f.2 f.1, -f.1)) ∧
      (∀ y, b = some y → y.1 ≤ x.1) ∧ ∀ f ∈ fs, dot (pos - f.2) f.1 - r ≤ x.1 := by
  induction fs with
  | nil =>
    intro b hb
    cases b with
    | none => simp at hb
    | some x => exact ⟨x, rfl, .inl rfl, by rintro _ ⟨⟩; exact le_rfl, by simp⟩
  | cons f fs ih =>
    intro b _
    have e1 : dot f.2 (-f.1) - (dot pos (-f.1) + r) = dot (pos - f.2) f.1 - r := by
      rw [dot_neg_right, dot_neg_right, dot_sub_left]; ring
    have new : ∃ x, bestFace r pos fs (some (dot (pos - f.2) f.1 - r, -dot f.2 f.1, -f.1)) = some x ∧
        (∃ f' ∈ f :: fs, x = (dot (pos - f'.2) f'.1 - r, -dot f'.2 f'.1, -f'.1)) ∧
        dot (pos - f.2) f.1 - r ≤ x.1 ∧ ∀ f' ∈ f :: fs, dot (pos - f'.2) f'.1 - r ≤ x.1 := by
      obtain ⟨x, h1, h2, h3, h4⟩ := ih (some (dot (pos - f.2) f.1 - r, -dot f.2 f.1, -f.1)) (.inr (by simp))
      have h5 := h3 _ rfl
      refine ⟨x, h1, ?_, h5, ?_⟩
      · rcases h2 with h2 | ⟨f', hf', h2⟩
        · cases h2; exact ⟨f, List.mem_cons_self, rfl⟩
        · exact ⟨f', List.mem_cons_of_mem _ hf', h2⟩
      · intro f' hf'
        rcases List.mem_cons.mp hf' with rfl | hf'
        · exact h5
        · exact h4 f' hf'
    rw [bestFace.eq_def]
    simp only [e1]
    simp only [dot_neg_right f.2]
    cases b with
    | none =>
      obtain ⟨x, h1, h2, _, h4⟩ := new
      exact ⟨x, h1, .inr h2, by simp, h4⟩
    | some y =>
      simp only
      by_cases hy : y.1 < dot (pos - f.2) f.1 - r
      · rw [if_pos hy]
        obtain ⟨x, h1, h2, h3, h4⟩ := new
        exact ⟨x, h1, .inr h2, by rintro _ ⟨⟩; linarith, h4⟩
      · rw [if_neg hy]
        obtain ⟨x, h1, h2, h3, h4⟩ := ih (some y) (.inr (by simp))
        have h5 := h3 _ rfl
        refine ⟨x, h1, ?_, by rintro _ ⟨⟩; exact h5, ?_⟩
        · rcases h2 with h2 | ⟨f', hf', h2⟩
          · exact .inl h2
          · exact .inr ⟨f', List.mem_cons_of_mem _ hf', h2⟩
        · intro f' hf'
          rcases List.mem_cons.mp hf' with rfl | hf'
          · linarith [not_lt.mp hy]
          · exact h4 f' hf'

theorem hull_le {vs : List (V3 ℝ)} {n a : V3 ℝ} (h : ∀ v ∈ vs, dot (v - a) n ≤ 0) {w : V3 ℝ} (hw : Hull vs w) :
    dot (w - a) n ≤ 0 := by
  induction hw with
  | vertex hp => exact h _ hp
  | @between p q t _ _ t0 t1 ih1 ih2 =>
    have : dot (p + smul t (q - p) - a) n = (1 - t) * dot (p - a) n + t * dot (q - a) n := by
      simp only [dot, sub_x, sub_y, sub_z, add_x, add_y, add_z, smul_x, smul_y, smul_z]; ring
    rw [this]
    nlinarith

theorem hull_convex (vs : List (V3 ℝ)) : Convex (Hull vs) := fun _ _ ha hb t t0 t1 => .between t ha hb t0 t1

theorem placed_extreme {S : V3 ℝ → Prop} {n w pos : V3 ℝ} {orn : Quat ℝ} (ho : orn.lengthSqr = 1) (h : Extreme S n w) :
    Extreme (Placed S pos orn) (Quat.rotate orn n) (pos + Quat.rotate orn w) := by
  refine ⟨⟨w, h.1, rfl⟩, ?_⟩
  rintro _ ⟨v, hv, rfl⟩
  rw [dot_add_left, dot_add_left, rotate_dot _ ho, rotate_dot _ ho]
  linarith [h.2 v hv]

/-- The centre of the sphere seen from the polyhedron. -/
noncomputable def Ctx.seen (c : Ctx) : V3 ℝ := toObjectSpace c.posB c.posA c.ornA

/-- What is expected: the result is right for a polyhedron with the given faces. -/
def PolySphereFull (tol eps : ℝ) : Prop :=
  ∀ (vs : List (V3 ℝ)) (faces : List (V3 ℝ × V3 ℝ)) (r : ℝ) (c : Ctx), FacesOf vs faces → 0 < r → c.Ok →
    Right (Placed (Hull vs) c.posA c.ornA) (Placed (ballSet r) c.posB c.ornB) c (polySphere (vs.length + 1) tol eps vs faces r c)

/-- **C71, a polyhedron and a sphere, partial.** If nothing is reported before a face is chosen, the shapes are further
apart than the threshold.  In any case, if no assertion fails, every point reported has a unit normal, its pivot on the
sphere is the furthest along the normal and the step between the pivots is the distance along the normal.  A point with
the normal of a face is good if the projection of the centre on the face belongs to the polyhedron.  A point at an
edge or a vertex is good if its pivot is the point of the polyhedron closest to the centre.  Missing: the assertion can
fail, see `polyhedron_sphere_refuted`, and the chosen face need not contain the closest point. -/
theorem polyhedron_sphere_partial (kh : ℕ) (tol eps : ℝ) (ht : 0 < tol) (he : 0 ≤ eps) (vs : List (V3 ℝ))
    (faces : List (V3 ℝ × V3 ℝ)) (hf : FacesOf vs faces) (hk : vs.length < kh) (r : ℝ) (hr : 0 < r) (c : Ctx) (hc : c.Ok) :
    ∃ f ∈ faces, (∀ f' ∈ faces, dot (c.seen - f'.2) f'.1 ≤ dot (c.seen - f.2) f.1) ∧
      (r + c.thr < dot (c.seen - f.2) f.1 → polySphere kh tol eps vs faces r c = some [] ∧
        ¬ Near (Placed (Hull vs) c.posA c.ornA) (Placed (ballSet r) c.posB c.ornB) c.thr) ∧
      ∀ l, polySphere kh tol eps vs faces r c = some l → l.length ≤ 1 ∧ ∀ p ∈ l,
        lengthSqr p.n = 1 ∧ Extreme (Placed (ballSet r) c.posB c.ornB) p.n (c.wB p) ∧
        c.wA p - c.wB p = smul p.dist p.n ∧ p.dist ≤ c.thr ∧
        (p.att = .onA → Hull vs (projectPlane c.seen f.2 f.1) →
          Good (Placed (Hull vs) c.posA c.ornA) (Placed (ballSet r) c.posB c.ornB) c p ∧
          Near (Placed (Hull vs) c.posA c.ornA) (Placed (ballSet r) c.posB c.ornB) c.thr) ∧
        (eps < lengthSqr (c.wA p - c.posB) → p.att = .none → Placed (Hull vs) c.posA c.ornA (c.wA p) →
          (∀ w, Placed (Hull vs) c.posA c.ornA w → lengthSqr (c.wA p - c.posB) ≤ lengthSqr (w - c.posB)) →
          Good (Placed (Hull vs) c.posA c.ornA) (Placed (ballSet r) c.posB c.ornB) c p) := by
  obtain ⟨oA, oB, ht0⟩ := hc
  obtain ⟨x, hx, hxf, _, hxm⟩ := bestFace_spec r c.seen faces none (.inl hf.some_face)
  obtain ⟨f, hfm, rfl⟩ : ∃ f ∈ faces, x = (dot (c.seen - f.2) f.1 - r, -dot f.2 f.1, -f.1) := by
    rcases hxf with h | h
    · simp at h
    · exact h
  have hn := hf.unit f hfm
  have hnn : dot f.1 f.1 = 1 := hn
  have hmax : ∀ f' ∈ faces, dot (c.seen - f'.2) f'.1 ≤ dot (c.seen - f.2) f.1 := by
    intro f' hf'; have := hxm f' hf'; simp only at this; linarith
  have hle : ∀ {w}, Hull vs w → dot (w - f.2) f.1 ≤ 0 := fun hw => hull_le (hf.behind f hfm) hw
  have hB : c.posB = c.posA + Quat.rotate c.ornA c.seen := (world_object c.posB c.posA oA).symm
  have ball := ball_inflate r c.posB oB
  -- the world form of a point
  have wAe : ∀ pA s d att, c.wA (plain pA (smul r (Quat.rotate (c.ornA.conjugate * c.ornB).conjugate s)) (Quat.rotate c.ornA s) d att) =
      c.posA + Quat.rotate c.ornA pA := fun _ _ _ _ => rfl
  have wBe : ∀ pA s d att, c.wB (plain pA (smul r (Quat.rotate (c.ornA.conjugate * c.ornB).conjugate s)) (Quat.rotate c.ornA s) d att) =
      c.posB + smul r (Quat.rotate c.ornA s) := by
    intro pA s d att
    simp only [Ctx.wB, plain, toWorldSpace]
    have : Quat.rotate c.ornB (Quat.rotate (c.ornA.conjugate * c.ornB).conjugate s) = Quat.rotate c.ornA s := by
      have e : (c.ornA.conjugate * c.ornB).conjugate = c.ornB.conjugate * c.ornA := by
        ext <;> simp [Quat.conjugate] <;> ring
      rw [e, rotate_mul _ _ (conjugate_unit oB) oA, (rotate_conjugate c.ornB oB _).2]
    rw [rotate_smul, this]
  have base : ∀ pA s d att, lengthSqr s = 1 → pA - c.seen - smul r s = smul d s →
      let p := plain pA (smul r (Quat.rotate (c.ornA.conjugate * c.ornB).conjugate s)) (Quat.rotate c.ornA s) d att
      lengthSqr p.n = 1 ∧ Extreme (Placed (ballSet r) c.posB c.ornB) p.n (c.wB p) ∧ c.wA p - c.wB p = smul p.dist p.n := by
    intro pA s d att hs hstep p
    have un : lengthSqr (Quat.rotate c.ornA s) = 1 := rotate_unit oA hs
    refine ⟨un, ?_, ?_⟩
    · rw [ball, wBe]; exact inflate_extreme hr.le un (point_extreme _ _)
    · rw [wAe, wBe, hB]
      show _ = smul d (Quat.rotate c.ornA s)
      rw [← rotate_smul c.ornA d, ← hstep, rotate_sub, rotate_sub, rotate_smul]
      ext <;> simp <;> ring
  have good : ∀ pA s d att, lengthSqr s = 1 → pA - c.seen - smul r s = smul d s → Extreme (Hull vs) (-s) pA →
      Good (Placed (Hull vs) c.posA c.ornA) (Placed (ballSet r) c.posB c.ornB) c
        (plain pA (smul r (Quat.rotate (c.ornA.conjugate * c.ornB).conjugate s)) (Quat.rotate c.ornA s) d att) := by
    intro pA s d att hs hstep hex
    obtain ⟨b1, b2, b3⟩ := base pA s d att hs hstep
    refine ⟨b1, ?_, b2, b3⟩
    rw [wAe]
    show Extreme _ (-Quat.rotate c.ornA s) _
    rw [← rotate_neg]
    exact placed_extreme oA hex
  have facePt : projectPlane c.seen (smul (-dot f.2 f.1) (-f.1)) (-f.1) = projectPlane c.seen f.2 f.1 := by
    unfold projectPlane
    have : dot (c.seen - smul (-dot f.2 f.1) (-f.1)) (-f.1) = -dot (c.seen - f.2) f.1 := by
      rw [dot_neg_right, dot_sub_left, dot_smul_left, dot_neg_left, hnn, dot_sub_left]; ring
    rw [this]
    ext <;> simp
  have faceStep : projectPlane c.seen f.2 f.1 - c.seen - smul r (-f.1) = smul (dot (c.seen - f.2) f.1 - r) (-f.1) := by
    unfold projectPlane
    ext <;> simp <;> ring
  have negu : lengthSqr (-f.1) = 1 := neg_unit hn
  have faceGood : ∀ att, Hull vs (projectPlane c.seen f.2 f.1) → dot (c.seen - f.2) f.1 - r ≤ c.thr →
      Good (Placed (Hull vs) c.posA c.ornA) (Placed (ballSet r) c.posB c.ornB) c
        (plain (projectPlane c.seen f.2 f.1) (smul r (Quat.rotate (c.ornA.conjugate * c.ornB).conjugate (-f.1)))
          (Quat.rotate c.ornA (-f.1)) (dot (c.seen - f.2) f.1 - r) att) ∧
      Near (Placed (Hull vs) c.posA c.ornA) (Placed (ballSet r) c.posB c.ornB) c.thr := by
    intro att hin hthr
    constructor
    · refine good _ _ _ _ negu faceStep ⟨hin, fun w hw => ?_⟩
      have h0 : dot (projectPlane c.seen f.2 f.1 - f.2) f.1 = 0 := by
        unfold projectPlane
        simp only [dot_sub_left, dot_smul_left, hnn]; ring
      have := hle hw
      rw [dot_sub_left] at this h0
      have e : - -f.1 = f.1 := by ext <;> simp
      rw [e]; linarith
    · rw [ball]
      by_cases h : dot (c.seen - f.2) f.1 ≤ 0
      · have : Hull vs c.seen := hf.closed _ fun f' hf' => (hmax f' hf').trans h
        refine ⟨c.posB, c.posB, ⟨c.seen, this, hB⟩, ⟨c.posB, rfl, ?_⟩, ?_⟩
        · simp [lengthSqr, dot]; positivity
        · simp [lengthSqr, dot]; positivity
      · push Not at h
        obtain ⟨α, β, ⟨a0, a1⟩, ⟨b0, b1⟩, g0, g1⟩ := split_gap (rA := 0) h.le le_rfl hr.le ht0 (by linarith)
        have a00 : α = 0 := le_antisymm a1 a0
        subst a00
        have un : lengthSqr (Quat.rotate c.ornA f.1) = 1 := rotate_unit oA hn
        refine ⟨c.posA + Quat.rotate c.ornA (projectPlane c.seen f.2 f.1), c.posB - smul β (Quat.rotate c.ornA f.1),
          ⟨_, hin, rfl⟩, ⟨c.posB, rfl, ?_⟩, ?_⟩
        · have : lengthSqr (c.posB - smul β (Quat.rotate c.ornA f.1) - c.posB) = β * β * lengthSqr (Quat.rotate c.ornA f.1) := by
            simp [lengthSqr, dot]; ring
          rw [this, un]; nlinarith
        · have e : c.posA + Quat.rotate c.ornA (projectPlane c.seen f.2 f.1) - (c.posB - smul β (Quat.rotate c.ornA f.1)) =
              smul (-(dot (c.seen - f.2) f.1 - 0 - β)) (Quat.rotate c.ornA f.1) := by
            rw [hB]
            unfold projectPlane
            rw [rotate_sub, rotate_smul]
            ext <;> simp <;> ring
          have l2 : ∀ (t : ℝ) (v : V3 ℝ), lengthSqr (smul t v) = t * t * lengthSqr v := by
            intro t v; simp [lengthSqr, dot]; ring
          rw [e, l2, un]
          nlinarith
  refine ⟨f, hfm, hmax, ?_, ?_⟩
  · intro hfar
    constructor
    · unfold polySphere
      simp only [show toObjectSpace c.posB c.posA c.ornA = c.seen from rfl, hx, Option.bind_some]
      rw [if_pos (by linarith)]
    · rw [ball]
      rintro ⟨a, b, ⟨w, hw, rfl⟩, ⟨k, rfl, hb⟩, hab⟩
      have h1 := hle hw
      -- along the normal of the face the shapes are too far apart
      have e1 : dot (b - (c.posA + Quat.rotate c.ornA w)) (Quat.rotate c.ornA f.1) =
          dot (b - c.posB) (Quat.rotate c.ornA f.1) + dot (c.seen - f.2) f.1 - dot (w - f.2) f.1 := by
        rw [dot_sub_left, dot_add_left, rotate_dot _ oA, dot_sub_left, dot_sub_left, dot_sub_left, hB, dot_add_left,
          rotate_dot _ oA]
        ring
      have un : lengthSqr (Quat.rotate c.ornA f.1) = 1 := rotate_unit oA hn
      have d1 : -r ≤ dot (b - c.posB) (Quat.rotate c.ornA f.1) := by
        have h := dot_sq_le (b - c.posB) (Quat.rotate c.ornA f.1)
        rw [un, mul_one] at h
        exact (abs_le.mp (abs_le_of_sq_le_sq (by nlinarith) hr.le)).1
      have d2 : dot (b - (c.posA + Quat.rotate c.ornA w)) (Quat.rotate c.ornA f.1) ≤ c.thr := by
        have h := dot_sq_le (b - (c.posA + Quat.rotate c.ornA w)) (Quat.rotate c.ornA f.1)
        have e : lengthSqr (b - (c.posA + Quat.rotate c.ornA w)) = lengthSqr (c.posA + Quat.rotate c.ornA w - b) := by
          simp [lengthSqr, dot]; ring
        rw [un, mul_one, e] at h
        exact (abs_le.mp (abs_le_of_sq_le_sq (by nlinarith) ht0)).2
      linarith
  · intro l hl
    unfold polySphere at hl
    simp only [show toObjectSpace c.posB c.posA c.ornA = c.seen from rfl, hx, Option.bind_some] at hl
    by_cases hd : c.thr < dot (c.seen - f.2) f.1 - r
    · rw [if_pos hd] at hl; cases hl; simp
    rw [if_neg hd] at hl
    rw [not_lt] at hd
    have z0 : ∀ v : V3 ℝ, v + 0 = v := by intro v; ext <;> simp
    obtain ⟨g, g1, g2, g3, _, _, _⟩ := support_polygon_spec vs 0 (-f.1) (-dot f.2 f.1) true tol ht
      ⟨f.2, hf.on f hfm, by rw [z0, dot_neg_right]⟩
    rw [g1 kh hk, Option.bind_some] at hl
    split_ifs at hl with hlen
    cases hm : g.hull.mapM fun i => g.plane[i]? with
    | none => rw [hm] at hl; simp at hl
    | some corners =>
      rw [hm, Option.bind_some] at hl
      cases hcl : closestPolygon corners (planar (-f.1) g.origin c.seen) with
      | none =>
        rw [hcl] at hl
        simp only [Option.some.injEq] at hl
        subst hl
        rw [g3, facePt]
        refine ⟨by simp, ?_⟩
        intro p hp
        rw [List.mem_singleton] at hp
        subst hp
        obtain ⟨b1, b2, b3⟩ := base _ _ _ .onA negu faceStep
        exact ⟨b1, b2, b3, hd, fun _ hin => faceGood .onA hin hd, fun _ h => by simp [plain] at h⟩
      | some q =>
        rw [hcl] at hl
        simp only at hl
        by_cases hax : eps < lengthSqr (spatial (-f.1) g.origin q - c.seen)
        · rw [if_pos hax] at hl
          generalize spatial (-f.1) g.origin q = pA at hl hax
          by_cases hd2 : c.thr < Real.sqrt (lengthSqr (pA - c.seen)) - r
          · rw [if_pos hd2] at hl; cases hl; simp
          rw [if_neg hd2] at hl
          rw [not_lt] at hd2
          simp only [Option.some.injEq] at hl
          subst hl
          have hpos : 0 < Real.sqrt (lengthSqr (pA - c.seen)) := Real.sqrt_pos.mpr (by linarith)
          have hsq : Real.sqrt (lengthSqr (pA - c.seen)) * Real.sqrt (lengthSqr (pA - c.seen)) = lengthSqr (pA - c.seen) :=
            Real.mul_self_sqrt (by linarith)
          have us : lengthSqr (smul (1 / Real.sqrt (lengthSqr (pA - c.seen))) (pA - c.seen)) = 1 := by
            have l2 : ∀ (t : ℝ) (v : V3 ℝ), lengthSqr (smul t v) = t * t * lengthSqr v := by
              intro t v; simp [lengthSqr, dot]; ring
            rw [l2]
            generalize Real.sqrt (lengthSqr (pA - c.seen)) = s at hpos hsq
            rw [← hsq]; field_simp
          have st : pA - c.seen - smul r (smul (1 / Real.sqrt (lengthSqr (pA - c.seen))) (pA - c.seen)) =
              smul (Real.sqrt (lengthSqr (pA - c.seen)) - r) (smul (1 / Real.sqrt (lengthSqr (pA - c.seen))) (pA - c.seen)) := by
            generalize Real.sqrt (lengthSqr (pA - c.seen)) = s at hpos
            ext <;> simp <;> field_simp
          refine ⟨by simp, ?_⟩
          intro p hp
          rw [List.mem_singleton] at hp
          subst hp
          obtain ⟨b1, b2, b3⟩ := base _ _ _ .none us st
          refine ⟨b1, b2, b3, hd2, fun h => by simp [plain] at h, fun _ _ hin hmin => good _ _ _ _ us st ?_⟩
          rw [wAe] at hin hmin
          have inj : ∀ w, c.posA + Quat.rotate c.ornA w - c.posB = Quat.rotate c.ornA (w - c.seen) := by
            intro w; rw [hB, rotate_sub]; ext <;> simp
          have hin' : Hull vs pA := by
            obtain ⟨w, hw, e⟩ := hin
            have e2 : Quat.rotate c.ornA w = Quat.rotate c.ornA pA := by
              have := congrArg (· - c.posA) e
              have s1 : ∀ v : V3 ℝ, c.posA + v - c.posA = v := by intro v; ext <;> simp
              simp only [s1] at this
              exact this.symm
            have := congrArg (Quat.rotate c.ornA.conjugate) e2
            rw [(rotate_conjugate c.ornA oA _).1, (rotate_conjugate c.ornA oA _).1] at this
            rw [← this]; exact hw
          have ex := closest_extreme (hull_convex vs) (p := c.seen) hin' (fun v hv => by
            have := hmin _ ⟨v, hv, rfl⟩
            rw [inj, inj] at this
            have lr : ∀ v : V3 ℝ, lengthSqr (Quat.rotate c.ornA v) = lengthSqr v := fun v => rotate_dot _ oA v v
            rwa [lr, lr] at this) hpos
          have en : smul (1 / Real.sqrt (lengthSqr (pA - c.seen))) (c.seen - pA) =
              -smul (1 / Real.sqrt (lengthSqr (pA - c.seen))) (pA - c.seen) := by ext <;> simp <;> ring
          rw [en] at ex
          exact ex
        · rw [if_neg hax] at hl
          simp only [Option.some.injEq] at hl
          subst hl
          rw [g3, facePt]
          refine ⟨by simp, ?_⟩
          intro p hp
          rw [List.mem_singleton] at hp
          subst hp
          obtain ⟨b1, b2, b3⟩ := base _ _ _ .none negu faceStep
          refine ⟨b1, b2, b3, hd, fun h => by simp [plain] at h, ?_⟩
          intro hfar
          exfalso
          rw [wAe, hB] at hfar
          have e1 : c.posA + Quat.rotate c.ornA (projectPlane c.seen f.2 f.1) - (c.posA + Quat.rotate c.ornA c.seen) =
              Quat.rotate c.ornA (projectPlane c.seen f.2 f.1 - c.seen) := by
            rw [rotate_sub]; ext <;> simp
          have lr : ∀ v : V3 ℝ, lengthSqr (Quat.rotate c.ornA v) = lengthSqr v := fun v => rotate_dot _ oA v v
          have e2 : lengthSqr (projectPlane c.seen f.2 f.1 - c.seen) = dot (c.seen - f.2) f.1 * dot (c.seen - f.2) f.1 := by
            have : projectPlane c.seen f.2 f.1 - c.seen = smul (-dot (c.seen - f.2) f.1) f.1 := by
              unfold projectPlane
              ext <;> simp
            have l2 : ∀ (t : ℝ) (v : V3 ℝ), lengthSqr (smul t v) = t * t * lengthSqr v := by
              intro t v; simp [lengthSqr, dot]; ring
            rw [this, l2, hn]; ring
          rw [e1, lr, e2] at hfar
          obtain ⟨_, _, o1, o2, _⟩ := planeSpace_orthonormal (-f.1) negu
          rw [dot_neg_left, dot_comm] at o1 o2
          have e3 : dot (spatial (-f.1) g.origin q - c.seen) f.1 = -dot (c.seen - f.2) f.1 := by
            unfold spatial
            rw [g3, dot_sub_left, dot_add_left, dot_add_left, dot_smul_left, dot_smul_left, dot_smul_left, dot_neg_left, hnn,
              dot_sub_left]
            linear_combination -q.x * o1 - q.y * o2
          have h := dot_sq_le (spatial (-f.1) g.origin q - c.seen) f.1
          rw [e3, hn, mul_one] at h
          rw [not_lt] at hax
          nlinarith

/-! ### A cube -/

/-- The vertices of a cube. -/
def cubeVerts (a : ℝ) : List (V3 ℝ) :=
  [⟨-a, a, -a⟩, ⟨a, a, -a⟩, ⟨a, a, a⟩, ⟨-a, a, a⟩, ⟨-a, -a, -a⟩, ⟨a, -a, -a⟩, ⟨a, -a, a⟩, ⟨-a, -a, a⟩]

/-- Its faces, the upper one first. -/
def cubeFaces (a : ℝ) : List (V3 ℝ × V3 ℝ) :=
  [(⟨0, 1, 0⟩, ⟨-a, a, -a⟩), (⟨0, -1, 0⟩, ⟨-a, -a, -a⟩), (⟨1, 0, 0⟩, ⟨a, a, a⟩), (⟨-1, 0, 0⟩, ⟨-a, a, a⟩),
    (⟨0, 0, 1⟩, ⟨a, a, a⟩), (⟨0, 0, -1⟩, ⟨a, a, -a⟩)]

theorem cube_faces {a : ℝ} (ha : 0 < a) : FacesOf (cubeVerts a) (cubeFaces a) := by
  refine ⟨by simp [cubeFaces], ?_, ?_, ?_, ?_⟩
  · intro f hf
    simp only [cubeFaces, List.mem_cons, List.not_mem_nil, or_false] at hf
    rcases hf with rfl | rfl | rfl | rfl | rfl | rfl <;> norm_num [lengthSqr, dot]
  · intro f hf
    simp only [cubeFaces, List.mem_cons, List.not_mem_nil, or_false] at hf
    rcases hf with rfl | rfl | rfl | rfl | rfl | rfl <;> simp [cubeVerts]
  · intro f hf v hv
    simp only [cubeFaces, List.mem_cons, List.not_mem_nil, or_false] at hf
    simp only [cubeVerts, List.mem_cons, List.not_mem_nil, or_false] at hv
    rcases hf with rfl | rfl | rfl | rfl | rfl | rfl <;>
      rcases hv with rfl | rfl | rfl | rfl | rfl | rfl | rfl | rfl <;> simp [dot] <;> linarith
  · intro w hw
    have h1 := hw (⟨0, 1, 0⟩, ⟨-a, a, -a⟩) (by simp [cubeFaces])
    have h2 := hw (⟨0, -1, 0⟩, ⟨-a, -a, -a⟩) (by simp [cubeFaces])
    have h3 := hw (⟨1, 0, 0⟩, ⟨a, a, a⟩) (by simp [cubeFaces])
    have h4 := hw (⟨-1, 0, 0⟩, ⟨-a, a, a⟩) (by simp [cubeFaces])
    have h5 := hw (⟨0, 0, 1⟩, ⟨a, a, a⟩) (by simp [cubeFaces])
    have h6 := hw (⟨0, 0, -1⟩, ⟨a, a, -a⟩) (by simp [cubeFaces])
    simp [dot] at h1 h2 h3 h4 h5 h6
    have frac : ∀ x, -a ≤ x → x ≤ a → 0 ≤ (x + a) / (2 * a) ∧ (x + a) / (2 * a) ≤ 1 ∧ -a + (x + a) / (2 * a) * (a - -a) = x := by
      intro x l1 l2
      refine ⟨div_nonneg (by linarith) (by linarith), (div_le_one (by linarith)).mpr (by linarith), by field_simp; ring⟩
    obtain ⟨x0, x1, ex⟩ := frac w.x (by linarith) (by linarith)
    obtain ⟨y0, y1, ey⟩ := frac w.y (by linarith) (by linarith)
    obtain ⟨z0, z1, ez⟩ := frac w.z (by linarith) (by linarith)
    have row : ∀ y z, (y = a ∨ y = -a) → (z = a ∨ z = -a) → Hull (cubeVerts a) ⟨w.x, y, z⟩ := by
      intro y z hy hz
      have l : Hull (cubeVerts a) ⟨-a, y, z⟩ := .vertex (by rcases hy with rfl | rfl <;> rcases hz with rfl | rfl <;> simp [cubeVerts])
      have r : Hull (cubeVerts a) ⟨a, y, z⟩ := .vertex (by rcases hy with rfl | rfl <;> rcases hz with rfl | rfl <;> simp [cubeVerts])
      have := Hull.between _ l r x0 x1
      have e : (⟨-a, y, z⟩ : V3 ℝ) + smul ((w.x + a) / (2 * a)) (⟨a, y, z⟩ - ⟨-a, y, z⟩) = ⟨w.x, y, z⟩ := by
        ext <;> simp
        simpa using ex
      rwa [e] at this
    have sheet : ∀ z, (z = a ∨ z = -a) → Hull (cubeVerts a) ⟨w.x, w.y, z⟩ := by
      intro z hz
      have := Hull.between _ (row (-a) z (.inr rfl) hz) (row a z (.inl rfl) hz) y0 y1
      have e : (⟨w.x, -a, z⟩ : V3 ℝ) + smul ((w.y + a) / (2 * a)) (⟨w.x, a, z⟩ - ⟨w.x, -a, z⟩) = ⟨w.x, w.y, z⟩ := by
        ext <;> simp
        simpa using ey
      rwa [e] at this
    have := Hull.between _ (sheet (-a) (.inr rfl)) (sheet a (.inl rfl)) z0 z1
    have e : (⟨w.x, w.y, -a⟩ : V3 ℝ) + smul ((w.z + a) / (2 * a)) (⟨w.x, w.y, a⟩ - ⟨w.x, w.y, -a⟩) = w := by
      ext <;> simp
      simpa using ez
    rwa [e] at this

theorem small_square : convexHull2 9 [⟨-(1 / 200), -(1 / 200)⟩, ⟨1 / 200, -(1 / 200)⟩, ⟨1 / 200, 1 / 200⟩, ⟨-(1 / 200), 1 / 200⟩]
    (1 / 1000) = some [1, 0] := by
  set pts : List V2 := [⟨-(1 / 200), -(1 / 200)⟩, ⟨1 / 200, -(1 / 200)⟩, ⟨1 / 200, 1 / 200⟩, ⟨-(1 / 200), 1 / 200⟩] with hpts
  have p0 : pts[0]? = some ⟨-(1 / 200), -(1 / 200)⟩ := rfl
  have p1 : pts[1]? = some ⟨1 / 200, -(1 / 200)⟩ := rfl
  have p2 : pts[2]? = some ⟨1 / 200, 1 / 200⟩ := rfl
  have f1 : furthest2 (fun p => -p.x) pts = 0 := by norm_num [furthest2, scanMax, hpts]
  have f2 : furthest2 (fun p => p.x) pts = 1 := by norm_num [furthest2, scanMax, hpts]
  have o1 : outward ⟨1 / 200, -(1 / 200)⟩ ⟨-(1 / 200), -(1 / 200)⟩ = ⟨0, 1 / 100⟩ := by norm_num [outward]
  have o2 : outward ⟨-(1 / 200), -(1 / 200)⟩ ⟨1 / 200, -(1 / 200)⟩ = ⟨0, -(1 / 100)⟩ := by norm_num [outward]
  have f3 : furthest2 (fun p => dot2 p ⟨0, 1 / 100⟩) pts = 2 := by norm_num [furthest2, scanMax, dot2, hpts]
  have f4 : furthest2 (fun p => dot2 p ⟨0, -(1 / 100)⟩) pts = 0 := by norm_num [furthest2, scanMax, dot2, hpts]
  have s1 : splitEdge pts (1 / 1000) 9 [1, 0, 1] 0 1 = some ([1, 0, 1], 0) := by
    rw [splitEdge]
    simp only [List.getElem?_cons_zero, List.getElem?_cons_succ, Option.bind_some, p0, p1, o1, f3, p2]
    rw [if_neg (by norm_num [dot2, sub2])]
  have s2 : splitEdge pts (1 / 1000) 9 [1, 0, 1] 1 2 = some ([1, 0, 1], 0) := by
    rw [splitEdge]
    simp only [List.getElem?_cons_zero, List.getElem?_cons_succ, Option.bind_some, p0, p1, o2, f4]
    rw [if_neg (by norm_num [dot2, sub2])]
  have e : convexHull2 9 pts (1 / 1000) = (pts[furthest2 (fun p => -p.x) pts]?).bind fun pmn =>
      (pts[furthest2 (fun p => p.x) pts]?).bind fun pmx =>
      if pmx.x - pmn.x < 1 / 1000 then some [furthest2 (fun p => p.y) pts, furthest2 (fun p => -p.y) pts]
      else (splitEdge pts (1 / 1000) 9 [furthest2 (fun p => p.x) pts, furthest2 (fun p => -p.x) pts, furthest2 (fun p => p.x) pts] 0 1).bind
        fun r => (splitEdge pts (1 / 1000) 9 r.1 (1 + r.2) (1 + r.2 + 1)).map fun s => s.1.dropLast := rfl
  rw [e, f1, f2, p0, Option.bind_some, p1, Option.bind_some, if_neg (by norm_num), s1]
  simp only [Option.bind_some, Nat.add_zero, s2]
  rfl

/-- The polygon of the upper face of a cube with edges of one centimetre has two corners only: the assertion on
the polygon fails when a sphere touches the face. -/
theorem polyhedron_sphere_refuted : ¬ PolySphereFull (1 / 200) (1 / 10000000) := by
  intro h
  have hr := h (cubeVerts (1 / 200)) (cubeFaces (1 / 200)) (1 / 100) ⟨0, 1, ⟨0, 3 / 200, 0⟩, 1, 1 / 50⟩
    (cube_faces (by norm_num)) (by norm_num) ⟨one_unit, one_unit, by norm_num⟩
  obtain ⟨l, hl, _⟩ := hr
  have seen : toObjectSpace (⟨0, 3 / 200, 0⟩ : V3 ℝ) 0 1 = ⟨0, 3 / 200, 0⟩ := by
    unfold toObjectSpace
    rw [show (1 : Quat ℝ).conjugate = 1 by ext <;> simp [Quat.conjugate], rotate_one]
    ext <;> simp
  have best : bestFace (1 / 100) ⟨0, 3 / 200, 0⟩ (cubeFaces (1 / 200)) none = some (0, -(1 / 200), ⟨0, -1, 0⟩) := by
    norm_num [bestFace, cubeFaces, dot]
    ext <;> norm_num
  have basis : planeSpace (⟨0, -1, 0⟩ : V3 ℝ) = (⟨1, 0, 0⟩, ⟨0, 0, 1⟩) := by
    have : ¬ |(0 : ℝ)| > Real.sqrt 2 / 2 := by
      rw [abs_zero, gt_iff_lt, not_lt]; positivity
    unfold planeSpace
    simp only
    rw [if_neg this]
    norm_num
  have org : smul (-(1 / 200)) (⟨0, -1, 0⟩ : V3 ℝ) = ⟨0, 1 / 200, 0⟩ := by ext <;> norm_num
  have poly : ∃ g, supportPolygon 9 (cubeVerts (1 / 200)) 0 ⟨0, -1, 0⟩ (-(1 / 200)) true (1 / 200) = some g ∧ g.hull = [1, 0] := by
    have hvs : (((cubeVerts (1 / 200)).map (· + 0)).filter fun v =>
        decide (dot v (⟨0, -1, 0⟩ : V3 ℝ) < -(1 / 200) + 1 / 200)) =
        [⟨-(1 / 200), 1 / 200, -(1 / 200)⟩, ⟨1 / 200, 1 / 200, -(1 / 200)⟩, ⟨1 / 200, 1 / 200, 1 / 200⟩, ⟨-(1 / 200), 1 / 200, 1 / 200⟩] := by
      have z0 : ∀ v : V3 ℝ, v + 0 = v := by intro v; ext <;> simp
      simp only [z0, List.map_id']
      norm_num [cubeVerts, dot, List.filter]
    unfold supportPolygon
    simp only [if_true, hvs]
    rw [if_neg (by simp)]
    have pl : ∀ x z, planar ⟨0, -1, 0⟩ (smul (-(1 / 200)) ⟨0, -1, 0⟩) ⟨x, 1 / 200, z⟩ = ⟨x, z⟩ := by
      intro x z
      unfold planar
      rw [basis, org]
      norm_num [dot]
    simp only [List.map_cons, List.map_nil, pl]
    rw [small_square]
    exact ⟨_, rfl, rfl⟩
  obtain ⟨g, hg, hh⟩ := poly
  unfold polySphere at hl
  simp only [seen, best, Option.bind_some] at hl
  rw [if_neg (by norm_num), show (cubeVerts (1 / 200)).length + 1 = 9 from rfl, hg, Option.bind_some, hh] at hl
  simp at hl

/-- Not vacuous: a sphere which touches the upper face of a larger cube; its projection belongs to the cube. -/
example : FacesOf (cubeVerts 1) (cubeFaces 1) ∧ Hull (cubeVerts 1) (projectPlane (⟨0, 2, 0⟩ : V3 ℝ) ⟨-1, 1, -1⟩ ⟨0, 1, 0⟩) := by
  refine ⟨cube_faces one_pos, (cube_faces one_pos).closed _ ?_⟩
  intro f hf
  simp only [cubeFaces, List.mem_cons, List.not_mem_nil, or_false] at hf
  rcases hf with rfl | rfl | rfl | rfl | rfl | rfl <;> norm_num [projectPlane, dot]

end Edyn.Collide
