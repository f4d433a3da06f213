import Verif.Geom.Shapes
import Mathlib.Data.Real.Sqrt

/-!
# Bounding boxes of shapes (C67)

`src/edyn/util/aabb_util.cpp`.  Scalars are exact reals; `EDYN_EPSILON` and `vector3_max` are parameters.
-/

namespace Edyn.Geom

open Edyn.Math V3

/-! ## Model -/

/-- `min`, `vector3.hpp` 261-263. -/
noncomputable def vmin (v w : V3 ℝ) : V3 ℝ := ⟨min v.x w.x, min v.y w.y, min v.z w.z⟩
/-- `max`, `vector3.hpp` 266-268. -/
noncomputable def vmax (v w : V3 ℝ) : V3 ℝ := ⟨max v.x w.x, max v.y w.y, max v.z w.z⟩

/-- One pass of the inner loop of `box_aabb`, `aabb_util.cpp` 49-58, for the bounds of one axis. -/
noncomputable def boxStep (b h : ℝ) (m : ℝ × ℝ) : ℝ × ℝ :=
  let e := b * -h
  let f := -e
  if e < f then (m.1 + e, m.2 + f) else (m.1 + f, m.2 + e)

/-- The inner loop of `box_aabb`, `aabb_util.cpp` 48-59: one row of the basis. -/
noncomputable def boxRow (row h : V3 ℝ) (p : ℝ) : ℝ × ℝ :=
  boxStep row.z h.z (boxStep row.y h.y (boxStep row.x h.x (p, p)))

/-- `box_aabb`, `aabb_util.cpp` 42-63. -/
noncomputable def boxAabb (h pos : V3 ℝ) (orn : Quat ℝ) : AABB :=
  let basis := M3.ofQuat orn
  let x := boxRow basis.r0 h pos.x
  let y := boxRow basis.r1 h pos.y
  let z := boxRow basis.r2 h pos.z
  ⟨⟨x.1, y.1, z.1⟩, ⟨x.2, y.2, z.2⟩⟩

/-- `sphere_aabb`, `aabb_util.cpp` 65-70. -/
def sphereAabb (r : ℝ) (pos : V3 ℝ) : AABB :=
  ⟨⟨pos.x - r, pos.y - r, pos.z - r⟩, ⟨pos.x + r, pos.y + r, pos.z + r⟩⟩

/-- `capsule_aabb`, `aabb_util.cpp` 81-88. -/
noncomputable def capsuleAabb (r hl : ℝ) (a : Axis) (pos : V3 ℝ) (orn : Quat ℝ) : AABB :=
  let dir := Quat.rotate orn a.vec
  let v := smul hl dir
  let p0 := pos - v
  let p1 := pos + v
  let offset : V3 ℝ := ⟨r, r, r⟩
  ⟨vmin p0 p1 - offset, vmax p0 p1 + offset⟩

/-- `cylinder_support_point` in object space, `shape_util.cpp` 307-330. -/
noncomputable def cylinderSupport (eps r hl : ℝ) (a : Axis) (dir : V3 ℝ) : V3 ℝ :=
  let l2 := a.c1 dir * a.c1 dir + a.c2 dir * a.c2 dir
  let h := if a.c0 dir < 0 then -hl else hl
  if eps < l2 then
    let d := r / Real.sqrt l2
    a.mk h (a.c1 dir * d) (a.c2 dir * d)
  else a.mk h r 0

/-- `cylinder_support_point` with an orientation, `shape_util.cpp` 332-337. -/
noncomputable def cylinderSupportRot (eps r hl : ℝ) (a : Axis) (orn : Quat ℝ) (dir : V3 ℝ) : V3 ℝ :=
  Quat.rotate orn (cylinderSupport eps r hl a (Quat.rotate orn.conjugate dir))

/-- `cylinder_aabb`, `aabb_util.cpp` 72-79. -/
noncomputable def cylinderAabb (eps r hl : ℝ) (a : Axis) (pos : V3 ℝ) (orn : Quat ℝ) : AABB :=
  let v : V3 ℝ := ⟨(cylinderSupportRot eps r hl a orn ex).x, (cylinderSupportRot eps r hl a orn ey).y,
    (cylinderSupportRot eps r hl a orn ez).z⟩
  ⟨pos - v, pos + v⟩

/-- `support_point_box`, `shape_util.cpp` 40-46. -/
noncomputable def supportBox (h dir : V3 ℝ) : V3 ℝ :=
  ⟨if 0 < dir.x then h.x else -h.x, if 0 < dir.y then h.y else -h.y, if 0 < dir.z then h.z else -h.z⟩

/-- `aabb_to_world_space`, `aabb_util.cpp` 90-114. -/
noncomputable def aabbToWorld (b : AABB) (pos : V3 ℝ) (orn : Quat ℝ) : AABB :=
  let center := toWorldSpace (smul (1/2) (b.min + b.max)) pos orn
  let h := smul (1/2) (b.max - b.min)
  let ax := Quat.rotate orn.conjugate ex
  let ay := Quat.rotate orn.conjugate ey
  let az := Quat.rotate orn.conjugate ez
  let e : V3 ℝ := ⟨dot (supportBox h ax) ax, dot (supportBox h ay) ay, dot (supportBox h az) az⟩
  ⟨center - e, center + e⟩

/-- `aabb_to_object_space`, `aabb_util.cpp` 116-139. -/
noncomputable def aabbToObject (b : AABB) (pos : V3 ℝ) (orn : Quat ℝ) : AABB :=
  let center := toObjectSpace (smul (1/2) (b.min + b.max)) pos orn
  let h := smul (1/2) (b.max - b.min)
  let ax := Quat.rotate orn ex
  let ay := Quat.rotate orn ey
  let az := Quat.rotate orn ez
  let e : V3 ℝ := ⟨dot (supportBox h ax) ax, dot (supportBox h ay) ay, dot (supportBox h az) az⟩
  ⟨center - e, center + e⟩

/-- `point_cloud_aabb` with a placement, `aabb_util.cpp` 153-165; `big` is the entry of
`vector3_max`. -/
noncomputable def cloudAabb (big : ℝ) (pts : List (V3 ℝ)) (pos : V3 ℝ) (orn : Quat ℝ) : AABB :=
  pts.foldl (fun b p =>
    let w := toWorldSpace p pos orn
    ⟨vmin b.min w, vmax b.max w⟩) ⟨⟨big, big, big⟩, ⟨-big, -big, -big⟩⟩

/-- `point_cloud_aabb`, `aabb_util.cpp` 141-151. -/
noncomputable def cloudAabb0 (big : ℝ) (pts : List (V3 ℝ)) : AABB :=
  pts.foldl (fun b p => ⟨vmin b.min p, vmax b.max p⟩) ⟨⟨big, big, big⟩, ⟨-big, -big, -big⟩⟩

/-- `updated_aabb` of a polyhedron, `update_aabbs.cpp` 22-31: the box of the rotated vertices moved to
the position. -/
noncomputable def rotatedCloudAabb (big : ℝ) (rotated : List (V3 ℝ)) (pos : V3 ℝ) : AABB :=
  let b := cloudAabb0 big rotated
  ⟨b.min + pos, b.max + pos⟩

/-- `aabb_half_extent`, `aabb_util.cpp` 9. -/
def planeExtent : ℝ := 99999

open Classical in
/-- `plane_aabb`, `aabb_util.cpp` 11-40. -/
noncomputable def planeAabb (n : V3 ℝ) (c : ℝ) : AABB :=
  let u : V3 ℝ × V3 ℝ :=
    if n = ex then (⟨-1, -1, -1⟩, ⟨0, 1, 1⟩)
    else if n = -ex then (⟨0, -1, -1⟩, ⟨1, 1, 1⟩)
    else if n = ey then (⟨-1, -1, -1⟩, ⟨1, 0, 1⟩)
    else if n = -ey then (⟨-1, 0, -1⟩, ⟨1, 1, 1⟩)
    else if n = ez then (⟨-1, -1, -1⟩, ⟨1, 1, 0⟩)
    else if n = -ez then (⟨-1, -1, 0⟩, ⟨1, 1, 1⟩)
    else (⟨-1, -1, -1⟩, ⟨1, 1, 1⟩)
  let pos := smul c n
  ⟨smul planeExtent u.1 + pos, smul planeExtent u.2 + pos⟩

/-- `enclosing_aabb`, `aabb.hpp` 49-54. -/
noncomputable def enclosing (a b : AABB) : AABB := ⟨vmin a.min b.min, vmax a.max b.max⟩

/-- The shapes a compound can hold, `compound_shape.hpp` 22-28; a polyhedron is given by its vertices. -/
inductive Part
  | sphere (r : ℝ)
  | cylinder (r hl : ℝ) (a : Axis)
  | capsule (r hl : ℝ) (a : Axis)
  | box (h : V3 ℝ)
  | polyhedron (pts : List (V3 ℝ))

/-- `shape_aabb` of these shapes, `aabb_util.cpp` 172-182 and 191-197. -/
noncomputable def Part.aabb (eps big : ℝ) (pos : V3 ℝ) (orn : Quat ℝ) : Part → AABB
  | .sphere r => sphereAabb r pos
  | .cylinder r hl a => cylinderAabb eps r hl a pos orn
  | .capsule r hl a => capsuleAabb r hl a pos orn
  | .box h => boxAabb h pos orn
  | .polyhedron pts => cloudAabb big pts pos orn

/-- `compound_shape::shape_node`, `compound_shape.hpp` 30-35, without the box, which `finish`
(`compound_shape.cpp` 15-20) computes from the other fields. -/
structure Node where
  part : Part
  pos : V3 ℝ
  orn : Quat ℝ

/-- `shape_aabb` of a compound, `aabb_util.cpp` 206-216, with the node boxes of
`compound_shape::finish`.  `none`: there is no node (`nodes.front()` of an empty vector). -/
noncomputable def compoundAabb (eps big : ℝ) (nodes : List Node) (pos : V3 ℝ) (orn : Quat ℝ) :
    Option AABB :=
  match nodes with
  | [] => none
  | n :: rest =>
    some (rest.foldl (fun b m => enclosing b (aabbToWorld (m.part.aabb eps big m.pos m.orn) pos orn))
      (aabbToWorld (n.part.aabb eps big n.pos n.orn) pos orn))

/-- `shape_aabb` of a mesh, `aabb_util.cpp` 184-189 and 199-204. -/
noncomputable def meshAabb (box : AABB) (pos : V3 ℝ) : AABB := ⟨box.min + pos, box.max + pos⟩

end Edyn.Geom
