import Verif.Collide.PolyPlane
import Verif.Collide.BoxAxis
import Verif.Geom.ConvexNormals
import Verif.Geom.Intersect2

/-!
# Contacts between two polyhedra: the model (C94)

`collide` of two polyhedra, `src/edyn/collision/collide/collide_polyhedron_polyhedron.cpp` 11-242, and what it uses.
Scalars are exact reals.
-/

namespace Edyn.Collide

open Edyn.Math hiding lengthSqr_nonneg
open V3 Edyn.Geom Edyn.Geom.Poly Edyn.Contact

/-- An edge of a mesh with the normals of its two faces: `edge_vertices` and `edge_normals` of `convex_mesh` and of
`rotated_mesh`, `include/edyn/shapes/convex_mesh.hpp` 49-50 and 184-185. -/
structure PEdge where
  v0 : V3 ℝ
  v1 : V3 ℝ
  n0 : V3 ℝ
  n1 : V3 ℝ

/-- What the function reads of a `convex_mesh` and of its `rotated_mesh`, `convex_mesh.hpp` 18-58 and 180-200.  A
relevant face is given by its normal and its first vertex. -/
structure PMesh where
  verts : List (V3 ℝ)
  faces : List (V3 ℝ × V3 ℝ)
  edges : List PEdge
  start : List ℕ
  idx : List ℕ

/-- `update_rotated_mesh`, `src/edyn/sys/update_rotated_meshes.cpp` 12-50. -/
noncomputable def PMesh.turn (m : PMesh) (q : Quat ℝ) : PMesh where
  verts := m.verts.map (Quat.rotate q)
  faces := m.faces.map fun f => (Quat.rotate q f.1, Quat.rotate q f.2)
  edges := m.edges.map fun e => ⟨Quat.rotate q e.v0, Quat.rotate q e.v1, Quat.rotate q e.n0, Quat.rotate q e.n1⟩
  start := m.start
  idx := m.idx

/-- A direction with the projections of the two shapes: the variables `distance`, `projectionA`, `projectionB` and
`sep_axis`. -/
structure Axis4 where
  dist : ℝ
  projA : ℝ
  projB : ℝ
  dir : V3 ℝ

open Classical in
/-- `if (dist > max_distance)`, `collide_polyhedron_polyhedron.cpp` 38-43 and 136-143; `none` stands for the initial
value, below every distance. -/
noncomputable def keepBest (b : Option Axis4) (x : Axis4) : Option Axis4 :=
  match b with
  | none => some x
  | some y => if y.dist < x.dist then some x else some y

/-- One pass of the loop of `max_support_direction`, `collide_polyhedron_polyhedron.cpp` 26-36.  `k` bounds the passes of
`polyhedron_support_projection`. -/
noncomputable def faceCand (k : ℕ) (B : PMesh) (posA posB : V3 ℝ) (f : V3 ℝ × V3 ℝ) : Option Axis4 :=
  let normal := -f.1
  let projA := dot (f.2 + posA) normal
  (polyProjection k B.verts B.start B.idx normal).map fun m =>
    let projB := m + dot posB normal
    ⟨projA - projB, projA, projB, normal⟩

/-- `max_support_direction`, `collide_polyhedron_polyhedron.cpp` 13-50.  `none`: an index is out of range or there is no
face; in that case the code goes on with the initial values. -/
noncomputable def maxSupport (k : ℕ) (A B : PMesh) (posA posB : V3 ℝ) : Option Axis4 :=
  (A.faces.foldlM (fun b f => (faceCand k B posA posB f).map (keepBest b)) none).join

/-- The change of signs after the second call, `collide_polyhedron_polyhedron.cpp` 82-94: the shapes were swapped. -/
noncomputable def Axis4.flip (x : Axis4) : Axis4 := ⟨x.dist, -x.projB, -x.projA, -x.dir⟩

/-- `edges_generate_minkowski_face`, `src/edyn/math/geom.cpp` 1345-1352. -/
def minkowskiFace (a b cNeg dNeg bXa dXc : V3 ℝ) : Prop :=
  let cba := -dot cNeg bXa
  let dba := -dot dNeg bXa
  let adc := dot a dXc
  let bdc := dot b dXc
  cba * dba < 0 ∧ adc * bdc < 0 ∧ 0 < cba * bdc

open Classical in
/-- Two edges, `collide_polyhedron_polyhedron.cpp` 104-143; `none`: they give no direction.  `tiny` is the constant of
`try_normalize`, `include/edyn/math/vector3.hpp` 239-248. -/
noncomputable def polyEdgeCand (tiny : ℝ) (posA posB : V3 ℝ) (a b : PEdge) : Option Axis4 :=
  let a0 := a.v0 + posA
  let a1 := a.v1 + posA
  let b0 := b.v0 + posB
  let b1 := b.v1 + posB
  if minkowskiFace a.n0 a.n1 b.n0 b.n1 (a0 - a1) (b0 - b1) then
    let x := cross (a0 - a1) (b0 - b1)
    if tiny < lengthSqr x then
      let u := smul (1 / Real.sqrt (lengthSqr x)) x
      let dir := if dot (a0 - posA) u < 0 then -u else u
      some ⟨dot (b0 - a0) dir, dot a0 (-dir), dot b0 (-dir), -dir⟩
    else none
  else none

/-- All pairs of edges, `collide_polyhedron_polyhedron.cpp` 98-147.  `none`: no pair gives a direction, and the
variables are left uninitialised. -/
noncomputable def edgeBest (tiny : ℝ) (A B : PMesh) (posA posB : V3 ℝ) : Option Axis4 :=
  (A.edges.flatMap fun a => B.edges.filterMap fun b => polyEdgeCand tiny posA posB a b).foldl keepBest none

open Classical in
/-- The direction of separation, `collide_polyhedron_polyhedron.cpp` 69-156.  `none`: also if the uninitialised
variables of the edges are read on 149. -/
noncomputable def polyAxis (k : ℕ) (tiny : ℝ) (A B : PMesh) (posA posB : V3 ℝ) : Option Axis4 :=
  (maxSupport k A B posA posB).bind fun x =>
  (maxSupport k B A posB posA).bind fun y =>
  let z := if x.dist < y.dist then y.flip else x
  (edgeBest tiny A B posA posB).map fun e =>
  let d := e.projA - e.projB
  if z.dist < d then ⟨d, e.projA, e.projB, e.dir⟩ else z

/-- The vertices of the hull of a polygon with their positions in the plane; `none`: an index is out of range. -/
def Polygon.corners (g : Polygon) : Option (List (V3 ℝ × V2)) :=
  g.hull.mapM fun i => (g.verts[i]?).bind fun v => (g.plane[i]?).map fun q => (v, q)

/-- The sides of a polygon, `collide_polyhedron_polyhedron.cpp` 212-228: one for two vertices. -/
def ring {α : Type} (l : List α) : List (α × α) :=
  (List.range (if l.length = 2 then 1 else l.length)).filterMap fun i =>
    (l[i]?).bind fun a => (l[(i + 1) % l.length]?).map fun b => (a, b)

/-- `point_in_polygonal_prism` with the vertices of the hull of a polygon for those of the points of which it holds;
`none`: an assertion fails. -/
noncomputable def inPrism (eps : ℝ) (outline : List (V3 ℝ)) (n : V3 ℝ) : List (V3 ℝ) → Option (List (V3 ℝ))
  | [] => some []
  | p :: ps =>
    open Classical in
    (pointInPrism eps outline n p).bind fun P => (inPrism eps outline n ps).map fun l => if P then p :: l else l

/-- The pairs of points on the two shapes, `collide_polyhedron_polyhedron.cpp` 177-241, in the order in which they are
added.  `along` is `lerp`, `include/edyn/math/math.hpp` 68-71, multiplied out. -/
noncomputable def polyPairs (eps : ℝ) (x : Axis4) (gA gB : Polygon) : Option (List (V3 ℝ × V3 ℝ)) :=
  gA.corners.bind fun cA => gB.corners.bind fun cB =>
  (if 2 < gB.hull.length then inPrism eps (cB.map (·.1)) x.dir (cA.map (·.1)) else some []).bind fun inB =>
  (if 2 < gA.hull.length then inPrism eps (cA.map (·.1)) x.dir (cB.map (·.1)) else some []).map fun inA =>
  inB.map (fun p => (p, projectPlane p gB.origin x.dir)) ++
  inA.map (fun p => (projectPlane p gA.origin x.dir, p)) ++
  (if 1 < gA.hull.length ∧ 1 < gB.hull.length then
    (ring cA).flatMap fun a => (ring cB).flatMap fun b =>
      (segments2 eps a.1.2 a.2.2 b.1.2 b.2.2).map fun st => (along a.1.1 a.2.1 st.1, along b.1.1 b.2.1 st.2)
  else [])

/-- `collide` of two polyhedra, `collide_polyhedron_polyhedron.cpp` 52-242.  The rotated meshes are those of the
orientations of the bodies.  `k` bounds the passes of `polyhedron_support_projection`, `kh` the depth of the recursion
of the hull. -/
noncomputable def polyPoly (K : Consts ℝ) (k kh : ℕ) (eps tol : ℝ) (mA mB : PMesh) (c : Ctx) : Res :=
  let A := mA.turn c.ornA
  let B := mB.turn c.ornB
  let posB := c.posB - c.posA
  (polyAxis k K.tiny A B 0 posB).bind fun x =>
  if c.thr < x.dist then some [] else
  (supportPolygon kh A.verts 0 x.dir x.projA true tol).bind fun gA =>
  (supportPolygon kh B.verts posB x.dir x.projB false tol).bind fun gB =>
  let att : Att := if 2 < gB.hull.length then .onB else if 2 < gA.hull.length then .onA else .none
  (polyPairs eps x gA gB).map fun ps => maybeAddAll K (ps.map fun p =>
    plain (toObjectSpace p.1 0 c.ornA) (toObjectSpace p.2 posB c.ornB) x.dir x.dist att)

end Edyn.Collide
