import Verif.Collide.PolyMain
import Verif.Collide.Capsule
import Verif.Geom.Support

/-!
# Contacts between a polyhedron and a capsule: the model (C95)

`collide` of a polyhedron and a capsule, `src/edyn/collision/collide/collide_polyhedron_capsule.cpp`.  Scalars are exact
reals.
-/

namespace Edyn.Collide

open Edyn.Math hiding lengthSqr_nonneg
open V3 Edyn.Geom Edyn.Geom.Poly Edyn.Contact

/-- A face of the polyhedron, `collide_polyhedron_capsule.cpp` 27-32. -/
noncomputable def capFaceCand (v0 v1 : V3 ℝ) (r : ℝ) (f : V3 ℝ × V3 ℝ) : Axis4 :=
  let normalA := -f.1
  let projA := dot f.2 normalA
  let projB := capsuleProjection v0 v1 r normalA
  ⟨projA - projB, projA, projB, normalA⟩

open Classical in
/-- An edge of the polyhedron and the axis of the capsule, `collide_polyhedron_capsule.cpp` 43-62.  `none`:
`polyhedron_support_projection` is undefined; `some none`: the direction cannot be normalised.  `k` bounds the passes of
`polyhedron_support_projection`, `tiny` is the constant of `try_normalize`. -/
noncomputable def capEdgeCand (k : ℕ) (eps tiny : ℝ) (m : PMesh) (posB v0 v1 : V3 ℝ) (r : ℝ) (e : PEdge) : Option (Option Axis4) :=
  let s := closestSegSeg eps false e.v0 e.v1 v0 v1
  let d := s.c1 - s.c2
  if tiny < lengthSqr d then
    let u := smul (1 / Real.sqrt (lengthSqr d)) d
    let dir := if 0 < dot posB u then -u else u
    (polyProjection k m.verts m.start m.idx (-dir)).map fun p =>
      let projA := -p
      let projB := capsuleProjection v0 v1 r dir
      some ⟨projA - projB, projA, projB, dir⟩
  else some none

/-- The direction of separation, `collide_polyhedron_capsule.cpp` 21-69.  `none`: also if there is neither a face nor an
edge; in that case the code goes on with the initial values. -/
noncomputable def capAxis (k : ℕ) (eps tiny : ℝ) (m : PMesh) (posB v0 v1 : V3 ℝ) (r : ℝ) : Option Axis4 :=
  (m.edges.mapM (capEdgeCand k eps tiny m posB v0 v1 r)).bind fun es =>
  (m.faces.map (capFaceCand v0 v1 r) ++ es.filterMap id).foldl keepBest none

/-- The sides of the polygon and the axis of the capsule, `collide_polyhedron_capsule.cpp` 120-144. -/
noncomputable def capCrossings (eps r : ℝ) (n v0 v1 origin : V3 ℝ) (cs : List (V3 ℝ × V2)) : List (V3 ℝ × V3 ℝ) :=
  (ring cs).flatMap fun a =>
    (segments2 eps a.1.2 a.2.2 (planar n origin v0) (planar n origin v1)).map fun st =>
      (along a.1.1 a.2.1 st.1, along v0 v1 st.2 + smul r n)

open Classical in
/-- The points, `collide_polyhedron_capsule.cpp` 75-164, with an empty result.  `none`: an assertion fails or an index is
out of range, or `closest_point_line` fails, which leaves `pivotB_world` uninitialised. -/
noncomputable def capPoints (K : Consts ℝ) (eps tol r : ℝ) (posB : V3 ℝ) (ornB : Quat ℝ) (v0 v1 n : V3 ℝ) (x : Axis4) (g : Polygon) : Res :=
  let att : Att := if 2 < g.hull.length then .onA else .none
  let point (f : Feat) (pA pB : V3 ℝ) : Point := ⟨pA, pB, n, x.dist, att, none, some f⟩
  let side (q : V3 ℝ × V3 ℝ) : Point := point ⟨.capSide, some 0⟩ q.1 (toObjectSpace q.2 posB ornB)
  if |dot v0 x.dir - dot v1 x.dir| < tol then
    g.corners.bind fun cs =>
    (if 2 < g.hull.length then inPrism eps (cs.map (·.1)) x.dir [v0, v1] else some []).bind fun inA =>
    let base := inA.map fun p => side (projectPlane p g.origin x.dir, p + smul r x.dir)
    if base.length = 2 then some base
    else if 1 < g.hull.length then
      some (((capCrossings eps r x.dir v0 v1 g.origin cs).map side).foldl (maybeAdd K) base)
    else
      match cs with
      | [v] => (closestLine eps v0 (v1 - v0) v.1).map fun q =>
          base ++ [point ⟨.capSide, some 0⟩ v.1 (toObjectSpace q.q posB ornB + smul r (Quat.rotate ornB.conjugate x.dir))]
      | _ => none
  else
    let i := if dot v1 x.dir < dot v0 x.dir then 0 else 1
    let v := if dot v1 x.dir < dot v0 x.dir then v0 else v1
    let w := v + smul r x.dir
    some [point ⟨.capHemisphere, some i⟩ (w + smul x.dist x.dir) (toObjectSpace w posB ornB)]

open Classical in
/-- `collide` of a polyhedron and a capsule, `collide_polyhedron_capsule.cpp` 10-165, with an empty result.  `kh` bounds
the depth of the recursion of the hull. -/
noncomputable def polyCapsule (K : Consts ℝ) (k kh : ℕ) (eps tol : ℝ) (m : PMesh) (r hl : ℝ) (a : Axis) (c : Ctx) : Res :=
  let posB := toObjectSpace c.posB c.posA c.ornA
  let ornB := c.ornA.conjugate * c.ornB
  let v0 := capVertex0 hl a posB ornB
  let v1 := capVertex1 hl a posB ornB
  (capAxis k eps K.tiny m posB v0 v1 r).bind fun x =>
  if c.thr < x.dist then some [] else
  (supportPolygon kh m.verts 0 x.dir x.projA true tol).bind fun g =>
  capPoints K eps tol r posB ornB v0 v1 (Quat.rotate c.ornA x.dir) x g

/-- The same with the shapes in the other order, `collide_polyhedron_capsule.cpp` 167-170. -/
noncomputable def capsulePoly (K : Consts ℝ) (k kh : ℕ) (eps tol : ℝ) (r hl : ℝ) (a : Axis) (m : PMesh) : Ctx → Res :=
  swapCollide (polyCapsule K k kh eps tol m r hl a)

/-! ## Specification -/

/-- How the pivots of a point of a polyhedron and a capsule are opposite to each other.  `e0` and `e1` are the ends of the
axis of the capsule, `n` the normal.  An end of the axis is inside of the outline of a feature of the polyhedron; or a point
of a side of it and a point of the axis are on one line along the normal, unless they are almost parallel; or the
feature is a vertex and the point is on the line of the axis closest to it; or the pivots are on one line along the normal
at the end of the axis. -/
inductive CapOpposite (eps dist r : ℝ) (V : V3 ℝ → Prop) (n : V3 ℝ) (near : ℝ → Prop) (tol : ℝ) (e0 e1 wA wB : V3 ℝ) : Option Feat → Prop
  | ends (e : V3 ℝ) (s : ℝ) (l : List (V3 ℝ)) : e = e0 ∨ e = e1 → |dot (e0 - e1) n| < tol → wB = e + smul r n → wA - wB = smul s n →
      Outline V n near l → (∀ v w, Side l v w → beyond n v w e ≤ eps) →
      CapOpposite eps dist r V n near tol e0 e1 wA wB (some ⟨.capSide, some 0⟩)
  | sides (a0 a1 : V3 ℝ) (s t : ℝ) : V a0 → V a1 → near (dot a0 n) → near (dot a1 n) → 0 ≤ s → s ≤ 1 → 0 ≤ t → t ≤ 1 →
      |dot (e0 - e1) n| < tol → wA = a0 + smul s (a1 - a0) → wB = e0 + smul t (e1 - e0) + smul r n →
      ((∃ z, wA - wB = smul z n) ∨ |dot (cross (a1 - a0) (e1 - e0)) n| ≤ eps) →
      CapOpposite eps dist r V n near tol e0 e1 wA wB (some ⟨.capSide, some 0⟩)
  | line (t : ℝ) : V wA → |dot (e0 - e1) n| < tol → wB = e0 + smul t (e1 - e0) + smul r n →
      (∀ u, lengthSqr (wA - (e0 + smul t (e1 - e0))) ≤ lengthSqr (wA - (e0 + smul u (e1 - e0)))) →
      CapOpposite eps dist r V n near tol e0 e1 wA wB (some ⟨.capSide, some 0⟩)
  | hemisphere0 : tol ≤ dot (e0 - e1) n → wB = e0 + smul r n → wA - wB = smul dist n →
      CapOpposite eps dist r V n near tol e0 e1 wA wB (some ⟨.capHemisphere, some 0⟩)
  | hemisphere1 : tol ≤ dot (e1 - e0) n → wB = e1 + smul r n → wA - wB = smul dist n →
      CapOpposite eps dist r V n near tol e0 e1 wA wB (some ⟨.capHemisphere, some 1⟩)

/-- What is expected of a point between a polyhedron and a capsule. -/
structure PolyCapGood (eps tol : ℝ) (m : PMesh) (r hl : ℝ) (a : Axis) (c : Ctx) (n : V3 ℝ) (dist : ℝ) (p : Point) : Prop where
  normal : p.n = n
  distance : p.dist = dist
  within : dist ≤ c.thr
  lowA : ∃ w, Placed (Hull m.verts) c.posA c.ornA w ∧ dot w n ≤ dot (c.wA p) n
  nearA : ∀ w, Placed (Hull m.verts) c.posA c.ornA w → dot (c.wA p) n < dot w n + tol
  opposite : CapOpposite eps dist r (Corner m.verts c.posA c.ornA) n
    (fun h => ∀ w, Placed (Hull m.verts) c.posA c.ornA w → h < dot w n + tol) tol
    (capVertex0 hl a c.posB c.ornB) (capVertex1 hl a c.posB c.ornB) (c.wA p) (c.wB p) p.fB
  onA : p.att = .onA → ∃ l, Outline (Corner m.verts c.posA c.ornA) n (fun h => ∀ w, Placed (Hull m.verts) c.posA c.ornA w → h < dot w n + tol) l
  notB : p.att ≠ .onB
  noFeature : p.fA = none

end Edyn.Collide
