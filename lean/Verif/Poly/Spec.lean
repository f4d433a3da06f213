import Verif.Poly.Model

/-!
# Rotated meshes of polyhedra: the specification (C91)

What it means for the rotated copies that a body uses to be those of its own shape in its own
orientation.
-/

namespace Edyn.Poly

open Edyn.Math

variable {T : Type} [Field T] {β : Type}

/-- The mesh in orientation `q`: everything in it is rotated by `q`. -/
def Mesh.turned (m : Mesh T) (q : Quat T) : Mesh T where
  vertices := m.vertices.map (Quat.rotate q)
  edgeVertices := m.edgeVertices.map (Quat.rotate q)
  normals := m.normals.map (Quat.rotate q)
  relevantNormals := m.relevantNormals.map (Quat.rotate q)
  edgeNormals := m.edgeNormals.map (Quat.rotate q)

/-- A polyhedron in a shape: its mesh, its orientation in the body and its pointer to a rotated copy. -/
structure Part (T : Type) where
  mesh : Mesh T
  orn : Quat T
  rotated : Option ℕ

/-- The polyhedra among the children of a compound. -/
def nodeParts : List (Node T) → List (Part T)
  | [] => []
  | .poly m p o :: ns => ⟨m, o, p⟩ :: nodeParts ns
  | .other _ :: ns => nodeParts ns

/-- The polyhedra in a shape. -/
def Shape.parts : Shape T → List (Part T)
  | .poly m p => [⟨m, 1, p⟩]
  | .compound ns => nodeParts ns
  | .other _ => []

/-- Body `e` collides in its orientation: for each polyhedron in its shape the pointer leads to
memory that holds the mesh rotated by the orientation of the body and of the polyhedron in the body. -/
def Current (w : World T β) (e : ℕ) : Prop :=
  ∀ s, w.shape e = some s → ∀ p ∈ s.parts,
    ∃ i, p.rotated = some i ∧ w.heap i = some (p.mesh.turned (w.orn e * p.orn))

/-- The shape of body `e` was set and the initializer has not run since. -/
def Fresh (w : World T β) (e : ℕ) : Prop := e ∈ w.newPoly ∨ e ∈ w.newComp

/-- The box of body `e` was made from its shape where it is now: either by `shape_aabb` or from the
vertices of its mesh, rotated by its orientation. -/
def Boxed (cfg : Cfg T β) (w : World T β) (e : ℕ) : Prop :=
  ∀ s b, w.shape e = some s → w.box e = some b →
    b = cfg.shapeBox s.bare (w.pos e) (w.orn e) ∨
    ∃ m p, s = .poly m p ∧ b = cfg.cloudBox (m.vertices.map (Quat.rotate (w.orn e))) (w.pos e)

end Edyn.Poly
