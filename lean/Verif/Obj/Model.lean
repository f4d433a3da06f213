import Verif.Math.Vec

/-!
# Reading `*.obj` files: the model (C92)

`src/edyn/util/shape_io.cpp`, character by character.  Scalars are elements of a field and the value of
a word read as a number is a parameter; words in which a number is followed by other characters are taken
to be no numbers.  What is undefined in C++ (use of a value that was never read), an exception and a
failed assertion are `none`.
-/

namespace Edyn.Obj

open Edyn.Math V3

/-- `std::isspace` in the classic locale, used by the input streams. -/
def isSpace (c : Char) : Bool :=
  c = ' ' || c = '\t' || c = '\n' || c = '\r' || c = Char.ofNat 11 || c = Char.ofNat 12

/-- `std::istringstream`: the characters left and the two flags. -/
structure Iss where
  rest : List Char
  eof : Bool := false
  fail : Bool := false

/-- The sentry of `operator>>`: skips white space, fails at the end and on a stream that is not good. -/
def Iss.sentry (i : Iss) : Iss × Bool :=
  if i.eof || i.fail then ({ i with fail := true }, false)
  else
    match i.rest.dropWhile isSpace with
    | [] => (⟨[], true, true⟩, false)
    | c :: r => (⟨c :: r, false, false⟩, true)

/-- `iss >> std::string`: `none` if the string is left as it was. -/
def Iss.word (i : Iss) : Iss × Option (List Char) :=
  let s := i.sentry
  if s.2 then
    let r := s.1.rest.dropWhile (!isSpace ·)
    (⟨r, r.isEmpty, false⟩, some (s.1.rest.takeWhile (!isSpace ·)))
  else (s.1, none)

variable {T : Type} [Field T]

/-- `iss >> scalar`: the value is left as it was, here `none`, if there is nothing to read, and is zero if
what is read is not a number. -/
def Iss.scalar (num : List Char → Option T) (i : Iss) : Iss × Option T :=
  let w := i.word
  match w.2 with
  | none => (w.1, none)
  | some s =>
    match num s with
    | some x => (w.1, some x)
    | none => ({ w.1 with fail := true }, some 0)

/-- `read_vector3` (src/edyn/util/shape_io.cpp 11-15); `none`: part of the vector was not read. -/
def readV3 (num : List Char → Option T) (i : Iss) : Iss × Option (V3 T) :=
  let x := i.scalar num
  let y := x.1.scalar num
  let z := y.1.scalar num
  (z.1, x.2.bind fun a => y.2.bind fun b => z.2.map fun c => ⟨a, b, c⟩)

/-- Decimal digits. -/
def digit (c : Char) : Bool := '0' ≤ c && c ≤ '9'
def digitVal (c : Char) : ℕ := c.toNat - '0'.toNat

/-- The digits at the start of a word, as `std::stoi` reads them; `none`: `std::invalid_argument`. -/
def digits (s : List Char) : Option ℕ :=
  let d := s.takeWhile digit
  if d = [] then none else some (d.foldl (fun n c => 10 * n + digitVal c) 0)

/-- `std::stoi` of a word without white space, for an `int` of 32 bits; `none`: an exception. -/
def stoi (s : List Char) : Option ℤ :=
  let v : Option ℤ := match s with
    | '-' :: s => (digits s).map fun n : ℕ => -(n : ℤ)
    | '+' :: s => (digits s).map fun n : ℕ => (n : ℤ)
    | s => (digits s).map fun n : ℕ => (n : ℤ)
  v.bind fun z => if -2147483648 ≤ z ∧ z ≤ 2147483647 then some z else none

/-- Conversion to `uint32_t`. -/
def u32 (z : ℤ) : ℕ := (z % 4294967296).toNat

/-- The loop of `read_face_indices` (src/edyn/util/shape_io.cpp 25-52).  The number of rounds is bounded
by `fuel`, which is more than the number of characters; `none`: out of rounds, an exception or line 37.
`first` and `prev` are not read before they are set. -/
def faceLoop (offset : ℕ) (tri : Bool) : ℕ → Iss → List ℕ → ℕ → ℕ → ℕ → Option (List ℕ)
  | 0, _, _, _, _, _ => none
  | fuel + 1, i, is, count, first, prev =>
    let w := i.word
    match w.2 with
    | none => some is
    | some s =>
      match stoi (s.takeWhile (· ≠ '/')) with
      | none => none
      | some z =>
        if u32 z < u32 (1 + offset) then none
        else
          let is := if tri && 3 ≤ count then is ++ [first, prev] else is
          let k := u32 ((u32 z : ℤ) - 1 - offset)
          faceLoop offset tri fuel w.1 (is ++ [k]) (count + 1) (if count = 0 then k else first) k

/-- `read_face_indices` (src/edyn/util/shape_io.cpp 17-53). -/
def readFaceIndices (s : List Char) (is : List ℕ) (offset : ℕ) (tri : Bool) : Option (List ℕ) :=
  faceLoop offset tri (s.length + 1) ⟨s, false, false⟩ is 0 0 0

/-- `obj_mesh` (include/edyn/util/shape_io.hpp 14-20). -/
@[ext] structure Mesh (T : Type) where
  name : List Char := []
  vertices : List (V3 T) := []
  colors : List (V3 T) := []
  indices : List ℕ := []
  faces : List ℕ := []
deriving DecidableEq

/-- `read_face` (src/edyn/util/shape_io.cpp 55-67). -/
def readFace (s : List Char) (m : Mesh T) (offset : ℕ) : Option (Mesh T) :=
  let start := u32 m.indices.length
  (readFaceIndices s m.indices offset false).map fun is =>
    { m with indices := is, faces := m.faces ++ [start, u32 ((is.length : ℤ) - start)] }

/-- How the vertices are placed (the arguments `pos`, `orn` and `scale`). -/
structure Place (T : Type) where
  pos : V3 T
  orn : Quat T
  scale : V3 T

variable [DecidableEq T]

/-- Lines 99-109 and 179-189 of src/edyn/util/shape_io.cpp. -/
def Place.apply (p : Place T) (v : V3 T) : V3 T :=
  let v := if p.scale ≠ ⟨1, 1, 1⟩ then (⟨v.x * p.scale.x, v.y * p.scale.y, v.z * p.scale.z⟩ : V3 T) else v
  let v := if p.orn ≠ 1 then Quat.rotate p.orn v else v
  if p.pos ≠ 0 then v + p.pos else v

/-- The lines that `std::getline` returns. -/
def lines : List Char → List (List Char)
  | [] => []
  | c :: s =>
    if c = '\n' then [] :: lines s
    else
      match lines s with
      | [] => [[c]]
      | l :: ls => (c :: l) :: ls

/-- Lines 80-86 and 167-173: the characters before the first space and those from it on; `none` if
there is no space. -/
def command (l : List Char) : Option (List Char × List Char) :=
  if ' ' ∈ l then some (l.takeWhile (· ≠ ' '), l.dropWhile (· ≠ ' ')) else none

/-- A vertex line: lines 96-120 and 176-200 of src/edyn/util/shape_io.cpp.  Returns the vertex and its
colour, if there is one; `none`: a coordinate that was not read is used. -/
def readVertex (num : List Char → Option T) (p : Place T) (s : List Char) : Option (V3 T × Option (V3 T)) :=
  let v := readV3 num ⟨s, false, false⟩
  v.2.map fun x =>
    (p.apply x,
      if v.1.eof then none
      else
        let c := readV3 num v.1
        if c.1.fail then none else c.2)

/-- The local variables of `load_meshes_from_obj_stream`. -/
structure Loader (T : Type) where
  meshes : List (Mesh T)
  mesh : Mesh T
  offset : ℕ

/-- The body of the loop of `load_meshes_from_obj_stream` (src/edyn/util/shape_io.cpp 79-125).  A mesh
that was moved from is empty. -/
def meshLine (num : List Char → Option T) (p : Place T) (a : Loader T) (l : List Char) : Option (Loader T) :=
  match command l with
  | none => some a
  | some (cmd, s) =>
    if cmd = ['o'] then
      if a.mesh.vertices ≠ [] then
        some ⟨a.meshes ++ [a.mesh], { name := s }, u32 (a.offset + a.mesh.vertices.length)⟩
      else some { a with mesh := { a.mesh with name := s } }
    else if cmd = ['v'] then
      (readVertex num p s).map fun v =>
        { a with mesh := { a.mesh with vertices := a.mesh.vertices ++ [v.1],
                                       colors := a.mesh.colors ++ v.2.toList } }
    else if cmd = ['f'] then
      (readFace s a.mesh a.offset).map fun m => { a with mesh := m }
    else some a

/-- `load_meshes_from_obj_stream` (src/edyn/util/shape_io.cpp 69-130) and `load_meshes_from_obj`
(132-154) with a file that can be opened. -/
def loadMeshes (num : List Char → Option T) (p : Place T) (meshes : List (Mesh T)) (file : List Char) :
    Option (List (Mesh T)) :=
  ((lines file).foldlM (meshLine num p) ⟨meshes, {}, 0⟩).map fun a =>
    if a.mesh.vertices ≠ [] then a.meshes ++ [a.mesh] else a.meshes

/-- The arguments of `load_tri_mesh_from_obj` that are filled; `colors` may be null. -/
structure TriMesh (T : Type) where
  vertices : List (V3 T) := []
  indices : List ℕ := []
  colors : Option (List (V3 T)) := none
deriving DecidableEq

/-- The body of the loop of `load_tri_mesh_from_obj_stream` (src/edyn/util/shape_io.cpp 166-205). -/
def triLine (num : List Char → Option T) (p : Place T) (a : TriMesh T) (l : List Char) : Option (TriMesh T) :=
  match command l with
  | none => some a
  | some (cmd, s) =>
    if cmd = ['v'] then
      (readVertex num p s).map fun v =>
        { a with vertices := a.vertices ++ [v.1], colors := a.colors.map (· ++ v.2.toList) }
    else if cmd = ['f'] then
      (readFaceIndices s a.indices 0 true).map fun is => { a with indices := is }
    else some a

/-- `load_tri_mesh_from_obj_stream` (src/edyn/util/shape_io.cpp 156-206) and `load_tri_mesh_from_obj`
(208-233) with a file that can be opened. -/
def loadTri (num : List Char → Option T) (p : Place T) (a : TriMesh T) (file : List Char) :
    Option (TriMesh T) :=
  (lines file).foldlM (triLine num p) a

/-- `polyhedron_with_center` (include/edyn/util/shape_io.hpp 72-75): the arrays of the mesh that come
from the file, and the centre. -/
structure Polyhedron (T : Type) where
  vertices : List (V3 T)
  indices : List ℕ
  faces : List ℕ
  center : V3 T
deriving DecidableEq

/-- `load_convex_polyhedrons_from_obj_stream` (src/edyn/util/shape_io.cpp 235-276), with the assertion
in line 246.  `centroid` is `mesh_centroid`, which is modelled in `Verif/Mass/Poly.lean`; the derived
properties of the meshes are modelled in `Verif/Geom`. -/
def loadConvex (num : List Char → Option T) (p : Place T) (centroid : Mesh T → V3 T) (file : List Char) :
    Option (List (Polyhedron T)) :=
  (loadMeshes num p [] file).bind fun ms =>
    if ms = [] then none
    else some (ms.map fun m => ⟨m.vertices.map (· - centroid m), m.indices, m.faces, centroid m⟩)

/-- `load_compound_shape_from_obj_stream` (src/edyn/util/shape_io.cpp 301-320): the children with their
positions and orientations. -/
def loadCompound (num : List Char → Option T) (p : Place T) (centroid : Mesh T → V3 T) (file : List Char) :
    Option (List (Polyhedron T × V3 T × Quat T)) :=
  (loadConvex num p centroid file).bind fun ps =>
    if ps = [] then none else some (ps.map fun q => (q, q.center, 1))

end Edyn.Obj
