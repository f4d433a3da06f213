/-
Model of the files written and read for paged triangle meshes:
  /repo/src/edyn/serialization/paged_triangle_mesh_s11n.cpp
  /repo/include/edyn/serialization/triangle_mesh_s11n.hpp, static_tree_s11n.hpp, math_s11n.hpp

`sz` is `sizeof(scalar)`, 4 or 8. A file is a list of bytes. An input stream is modelled by the
same `Ar` as a memory archive (a read past the end sets the fail bit and later reads do nothing);
simplification: a short read leaves its target unchanged.
-/
import Verif.Serial.Model

namespace Edyn.Serial

/-- math_s11n.hpp:11-14. -/
def vec3Ty (sz : Nat) : Ty := .struct 3 fun _ => .scalar sz

/-- static_tree_s11n.hpp:9-15. -/
def treeNodeTy (sz : Nat) : Ty := .struct 4 fun i =>
  if i.val < 2 then vec3Ty sz else .scalar 4

/-- static_tree_s11n.hpp:17-20. -/
def treeTy (sz : Nat) : Ty := .vec (treeNodeTy sz)

/-- The members of a triangle_mesh in the order of triangle_mesh_s11n.hpp:33-49. -/
def triMeshFields (sz : Nat) : List Ty :=
  [ .vec (vec3Ty sz),                         -- m_vertices
    .vec (.struct 3 fun _ => .scalar 4),      -- m_indices
    .vec (vec3Ty sz),                         -- m_normals
    .vec (.struct 2 fun _ => .scalar 4),      -- m_edge_vertex_indices
    .struct 2 (fun i => if i.val = 0 then .vec (.scalar 4) else .vec (.scalar 8)),
                                              -- m_vertex_edge_indices (lines 21-25)
    .vec (.struct 3 fun _ => vec3Ty sz),      -- m_adjacent_normals
    .vec (.struct 3 fun _ => .scalar 4),      -- m_face_edge_indices
    .vec (.struct 2 fun _ => .scalar 4),      -- m_edge_face_indices
    .vecBool,                                 -- m_is_boundary_edge
    .vecBool,                                 -- m_is_convex_edge
    treeTy sz,                                -- m_triangle_tree
    .vec (.scalar sz),                        -- m_friction
    .vec (.scalar sz),                        -- m_restitution
    .vec (.scalar 2),                         -- m_material_ids
    .scalar sz ]                              -- m_thickness

/-- triangle_mesh_s11n.hpp:32-49. -/
def triMeshTy (sz : Nat) : Ty :=
  .struct (triMeshFields sz).length fun i => (triMeshFields sz)[i]

/-- What is stored in a paged_triangle_mesh. `infos` are `num_vertices` and `num_indices` of each
cache entry, `meshes` the submeshes themselves (all loaded when writing). -/
structure Paged (sz : Nat) where
  thickness : List UInt8
  tree : Val (treeTy sz)
  infos : List (List UInt8 × List UInt8)
  meshes : List (Val (triMeshTy sz))

/-- paged_triangle_mesh_s11n.cpp:63-68: the offsets written before the submeshes. -/
def offsets {sz : Nat} : Nat → List (Val (triMeshTy sz)) → Option (List Nat)
  | _, [] => some []
  | o, m :: ms => do
    let k ← serSize (triMeshTy sz) m
    let os ← offsets (o + k) ms
    some (o :: os)

/-- Everything written before the submeshes in `embedded` mode,
paged_triangle_mesh_s11n.cpp:50-69. The mode is the byte 0. -/
def writeHead {sz : Nat} (p : Paged sz) : Option (List (List UInt8)) := do
  let t ← write (treeTy sz) p.tree
  let os ← offsets 0 p.meshes
  some ([p.thickness] ++ t ++ [enc 8 p.meshes.length] ++
    (p.infos.map fun i => [i.1, i.2]).flatten ++ [[0]] ++ os.map (enc 8))

/-- serialize(paged_triangle_mesh_file_output_archive &, ...) in `embedded` mode,
paged_triangle_mesh_s11n.cpp:45-74 with 30-34. -/
def writePaged {sz : Nat} (p : Paged sz) : Option (List (List UInt8)) := do
  let h ← writeHead p
  let ms ← catM (write (triMeshTy sz)) p.meshes
  some (h ++ ms)

/-- Result of reading a paged mesh file: the mesh without submeshes, and the private members of
the input archive needed to load them later. -/
structure PagedIn (sz : Nat) where
  thickness : List UInt8
  tree : Val (treeTy sz)
  infos : List (List UInt8 × List UInt8)
  baseOffset : Nat
  offsets : List (List UInt8)

/-- One cache entry, paged_triangle_mesh_s11n.cpp:86-88. -/
def readInfo (_ : List UInt8 × List UInt8) (a : Ar) :
    Option ((List UInt8 × List UInt8) × Ar) := do
  let x ← readBytes 8 (List.replicate 8 0) a
  let y ← readBytes 8 (List.replicate 8 0) x.2
  some ((x.1, y.1), y.2)

/-- serialize(paged_triangle_mesh_file_input_archive &, ...),
paged_triangle_mesh_s11n.cpp:76-101, for an embedded file (`none` for other modes). -/
def readPaged {sz : Nat} (junk : List UInt8) (a : Ar) : Option (PagedIn sz × Ar) := do
  let th ← readBytes sz (List.replicate sz 0) a
  let tr ← read junk (treeTy sz) (dflt _) th.2
  let n ← readBytes 8 junk tr.2
  let is ← readEach readInfo (List.replicate (dec n.1) ([], [])) n.2
  let md ← readBytes 1 [0] is.2
  if md.1 = [0] then do
    let os ← readEach (readBytes 8) (List.replicate (dec n.1) (List.replicate 8 0)) md.2
    some (⟨th.1, tr.1, is.1, os.2.pos, os.1⟩, os.2)
  else none

/-- load_mesh_context::load in embedded mode, paged_triangle_mesh_s11n.cpp:128-136: seek and read
into a fresh mesh. -/
def loadMesh {sz : Nat} (junk : List UInt8) (p : PagedIn sz) (a : Ar) (i : Nat) :
    Option (Val (triMeshTy sz) × Ar) := do
  let o ← p.offsets[i]?
  read junk (triMeshTy sz) (dflt _) { a with pos := p.baseOffset + dec o }

/-! ### File names of submeshes -/

/-- Position of the last `'.'`, `std::string::rfind`. -/
def rfindDot : List Char → Option Nat
  | [] => none
  | c :: cs =>
    match rfindDot cs with
    | some i => some (i + 1)
    | none => if c = '.' then some 0 else none

/-- get_submesh_path, paged_triangle_mesh_s11n.cpp:17-28. -/
def submeshPath (path : List Char) (index : Nat) : List Char :=
  match rfindDot path with
  | some d => path.take d ++ (Nat.toDigits 10 index) ++ path.drop d
  | none => path ++ Nat.toDigits 10 index

end Edyn.Serial
