import Mathlib.Order.Defs.LinearOrder
import Mathlib.Order.Lattice
import Mathlib.Order.MinMax

/-!
# Axis-aligned boxes

`include/edyn/comp/aabb.hpp` lines 12-53, `include/edyn/math/vector3.hpp` lines 186-188 and
`src/edyn/math/geom.cpp` lines 762-770.  The scalar type is an arbitrary linear order: the trees
only compare scalars, apart from the insertion heuristic (see `Choice` in the tree model) and the
margin (see `Margin`).  NaN is excluded by the linear order.
-/

namespace Edyn

/-- `vector3` (components only). -/
structure Vec3 (S : Type) where
  x : S
  y : S
  z : S
  deriving Repr, DecidableEq

/-- `aabb.hpp:12-14`. -/
structure Box (S : Type) where
  min : Vec3 S
  max : Vec3 S
  deriving Repr, DecidableEq

variable {S : Type} [LinearOrder S]

/-- `vector3.hpp:186-188` `operator<=`. -/
def Vec3.le (v w : Vec3 S) : Bool := decide (v.x ≤ w.x) && decide (v.y ≤ w.y) && decide (v.z ≤ w.z)

namespace Box

/-- `aabb.hpp:35-38` `contains(point)`. -/
def containsPoint (b : Box S) (p : Vec3 S) : Bool := Vec3.le b.min p && Vec3.le p b.max

/-- `aabb.hpp:40-43` `contains(AABB)`. -/
def contains (b c : Box S) : Bool := b.containsPoint c.min && b.containsPoint c.max

/-- `geom.cpp:762-770` `intersect_aabb` (and `aabb.hpp:46-48` `intersect`). -/
def intersect (b0 b1 : Box S) : Bool :=
  decide (b0.min.x ≤ b1.max.x) && decide (b1.min.x ≤ b0.max.x) &&
  decide (b0.min.y ≤ b1.max.y) && decide (b1.min.y ≤ b0.max.y) &&
  decide (b0.min.z ≤ b1.max.z) && decide (b1.min.z ≤ b0.max.z)

/-- `aabb.hpp:50-55` `enclosing_aabb` (componentwise `std::min`/`std::max`). -/
def enclosing (b0 b1 : Box S) : Box S :=
  ⟨⟨Min.min b0.min.x b1.min.x, Min.min b0.min.y b1.min.y, Min.min b0.min.z b1.min.z⟩,
   ⟨Max.max b0.max.x b1.max.x, Max.max b0.max.y b1.max.y, Max.max b0.max.z b1.max.z⟩⟩

/-- Specification: every coordinate range of `c` lies in that of `b`. -/
def Encloses (b c : Box S) : Prop :=
  b.min.x ≤ c.min.x ∧ b.min.y ≤ c.min.y ∧ b.min.z ≤ c.min.z ∧
  c.max.x ≤ b.max.x ∧ c.max.y ≤ b.max.y ∧ c.max.z ≤ b.max.z

/-- Specification: the closed boxes have a common point (for boxes with `min ≤ max`). -/
def Overlaps (b c : Box S) : Prop :=
  (b.min.x ≤ c.max.x ∧ c.min.x ≤ b.max.x) ∧ (b.min.y ≤ c.max.y ∧ c.min.y ≤ b.max.y) ∧
  (b.min.z ≤ c.max.z ∧ c.min.z ≤ b.max.z)

theorem intersect_iff (b c : Box S) : b.intersect c = true ↔ b.Overlaps c := by
  simp [intersect, Overlaps, and_assoc]

theorem intersect_comm (b c : Box S) : b.intersect c = c.intersect b := by
  rw [Bool.eq_iff_iff, intersect_iff, intersect_iff]
  simp only [Overlaps]
  grind

/-- A box with `min ≤ max` in every coordinate. -/
def Valid (b : Box S) : Prop := b.min.x ≤ b.max.x ∧ b.min.y ≤ b.max.y ∧ b.min.z ≤ b.max.z

/-- A point lies in a closed box. -/
def HasPoint (b : Box S) (p : Vec3 S) : Prop :=
  (b.min.x ≤ p.x ∧ p.x ≤ b.max.x) ∧ (b.min.y ≤ p.y ∧ p.y ≤ b.max.y) ∧
  (b.min.z ≤ p.z ∧ p.z ≤ b.max.z)

/-- The overlap test is the geometric one: valid boxes overlap iff they share a point. -/
theorem overlaps_iff_common_point (b c : Box S) (hb : b.Valid) (hc : c.Valid) :
    b.Overlaps c ↔ ∃ p, b.HasPoint p ∧ c.HasPoint p := by
  constructor
  · rintro ⟨⟨h1, h2⟩, ⟨h3, h4⟩, h5, h6⟩
    obtain ⟨v1, v2, v3⟩ := hb
    obtain ⟨w1, w2, w3⟩ := hc
    refine ⟨⟨Max.max b.min.x c.min.x, Max.max b.min.y c.min.y, Max.max b.min.z c.min.z⟩, ?_, ?_⟩ <;>
      simp only [HasPoint, le_max_left, le_max_right, max_le_iff, true_and] <;> grind
  · rintro ⟨p, ⟨⟨h1, h2⟩, ⟨h3, h4⟩, h5, h6⟩, ⟨k1, k2⟩, ⟨k3, k4⟩, k5, k6⟩
    simp only [Overlaps]
    grind

theorem Encloses.refl (b : Box S) : b.Encloses b := by simp [Encloses]

theorem Encloses.trans {a b c : Box S} (h : a.Encloses b) (k : b.Encloses c) : a.Encloses c := by
  simp only [Encloses] at *
  grind

theorem enclosing_left (b c : Box S) : (enclosing b c).Encloses b := by
  simp [Encloses, enclosing]

theorem enclosing_right (b c : Box S) : (enclosing b c).Encloses c := by
  simp [Encloses, enclosing]

theorem enclosing_comm (b c : Box S) : enclosing b c = enclosing c b := by
  simp only [enclosing, min_comm, max_comm]

/-- If an enclosing box misses the query, so does the enclosed one. -/
theorem Encloses.intersect {b c q : Box S} (h : b.Encloses c) (k : c.intersect q = true) :
    b.intersect q = true := by
  rw [intersect_iff] at *
  simp only [Encloses, Overlaps] at *
  grind

theorem contains_encloses {b c : Box S} (h : b.contains c = true) : b.Encloses c := by
  simp [contains, containsPoint, Vec3.le] at h
  simp only [Encloses]
  grind

theorem contains_iff {b c : Box S} (hc : c.Valid) : b.contains c = true ↔ b.Encloses c := by
  constructor
  · exact contains_encloses
  · intro h
    simp only [Valid, Encloses] at *
    simp [contains, containsPoint, Vec3.le]
    grind

end Box
end Edyn
