import Verif.Geom.Basic

/-!
# Specification: shapes as sets of points

What a box, sphere, capsule, cylinder, polyhedron, plane or compound is, independently of the code.  A
shape is the set of its points in its own space; placing it moves every point by the rotation and then by
the position.
-/

namespace Edyn.Geom

open Edyn.Math V3

/-- A set of points in object space. -/
abbrev Shape := V3 ℝ → Prop

/-- A box with the given half extents. -/
def boxSet (h : V3 ℝ) : Shape := fun p => |p.x| ≤ h.x ∧ |p.y| ≤ h.y ∧ |p.z| ≤ h.z

/-- A ball. -/
def ballSet (r : ℝ) : Shape := fun p => lengthSqr p ≤ r * r

/-- A capsule: all points within the radius of the middle segment. -/
def capsuleSet (r hl : ℝ) (a : Axis) : Shape :=
  fun p => ∃ s, |s| ≤ hl ∧ lengthSqr (p - smul s a.vec) ≤ r * r

/-- A cylinder: all points whose height along the axis is at most half the length and whose distance to
the axis is at most the radius. -/
def cylinderSet (r hl : ℝ) (a : Axis) : Shape :=
  fun p => |dot p a.vec| ≤ hl ∧ lengthSqr (p - smul (dot p a.vec) a.vec) ≤ r * r

/-- The convex hull of points: the least set which contains them and, with any two points, the segment
between them. -/
inductive Hull (pts : List (V3 ℝ)) : V3 ℝ → Prop
  | vertex {p} : p ∈ pts → Hull pts p
  | between {p q} (t : ℝ) : Hull pts p → Hull pts q → 0 ≤ t → t ≤ 1 → Hull pts (p + smul t (q - p))

/-- A disc: all points of the plane through the centre which are within the radius of the centre. -/
def discSet (centre n : V3 ℝ) (r : ℝ) : V3 ℝ → Prop :=
  fun q => dot (q - centre) n = 0 ∧ lengthSqr (q - centre) ≤ r * r

/-- The surface of a box: its points with a coordinate equal to the half extent or its opposite. -/
def boxSurface (h : V3 ℝ) : Shape := fun p => boxSet h p ∧ (|p.x| = h.x ∨ |p.y| = h.y ∨ |p.z| = h.z)

/-- The region below a plane. -/
def halfSpace (n : V3 ℝ) (c : ℝ) : Shape := fun p => dot n p ≤ c

/-- The shape placed in the world: `w` is a point of it. -/
def Placed (S : Shape) (pos : V3 ℝ) (orn : Quat ℝ) (w : V3 ℝ) : Prop :=
  ∃ p, S p ∧ w = pos + Quat.rotate orn p

/-- `AABB`, `aabb.hpp` 12-15. -/
structure AABB where
  min : V3 ℝ
  max : V3 ℝ

/-- The point lies in the box. -/
def AABB.Has (b : AABB) (w : V3 ℝ) : Prop :=
  (b.min.x ≤ w.x ∧ w.x ≤ b.max.x) ∧ (b.min.y ≤ w.y ∧ w.y ≤ b.max.y) ∧ (b.min.z ≤ w.z ∧ w.z ≤ b.max.z)

/-- The box contains every point of the set. -/
def AABB.Encloses (b : AABB) (S : V3 ℝ → Prop) : Prop := ∀ w, S w → b.Has w

/-- Each of the six faces of the box touches the set. -/
def AABB.Touches (b : AABB) (S : V3 ℝ → Prop) : Prop :=
  (∃ w, S w ∧ w.x = b.min.x) ∧ (∃ w, S w ∧ w.x = b.max.x) ∧
  (∃ w, S w ∧ w.y = b.min.y) ∧ (∃ w, S w ∧ w.y = b.max.y) ∧
  (∃ w, S w ∧ w.z = b.min.z) ∧ (∃ w, S w ∧ w.z = b.max.z)

/-- If a box encloses a set and touches it on all sides, it is contained in every box that encloses it. -/
theorem AABB.least {b : AABB} {S : V3 ℝ → Prop} (ht : b.Touches S) (b' : AABB) (he : b'.Encloses S) :
    b'.min.x ≤ b.min.x ∧ b.max.x ≤ b'.max.x ∧ b'.min.y ≤ b.min.y ∧ b.max.y ≤ b'.max.y ∧
      b'.min.z ≤ b.min.z ∧ b.max.z ≤ b'.max.z := by
  obtain ⟨⟨_, s1, e1⟩, ⟨_, s2, e2⟩, ⟨_, s3, e3⟩, ⟨_, s4, e4⟩, ⟨_, s5, e5⟩, ⟨_, s6, e6⟩⟩ := ht
  rw [← e1, ← e2, ← e3, ← e4, ← e5, ← e6]
  exact ⟨(he _ s1).1.1, (he _ s2).1.2, (he _ s3).2.1.1, (he _ s4).2.1.2, (he _ s5).2.2.1, (he _ s6).2.2.2⟩

end Edyn.Geom
