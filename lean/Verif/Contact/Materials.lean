import Mathlib.Algebra.Order.Field.Basic
import Mathlib.Algebra.Order.Field.Rat
import Mathlib.Tactic.Linarith
import Mathlib.Tactic.FieldSimp
import Mathlib.Tactic.Positivity

/-!
# The material of a contact point (C56)

`assign_material_properties`, `src/edyn/util/collision_util.cpp` 282-317, and the material part of
`merge_point`, 226-230, with the per-vertex materials of meshes, 104-203.  Scalars are elements of an
ordered field; `root` stands for `std::sqrt` and `large` for `large_scalar`.
-/

namespace Edyn.Contact.Mat

variable {T : Type} [Field T] [LinearOrder T] [IsStrictOrderedRing T]

/-- `material_base`, `include/edyn/comp/material.hpp` 15-22, and `contact_point_material`,
`include/edyn/collision/contact_point.hpp` 37-44. -/
structure M (T : Type) where
  restitution : T
  friction : T
  spin : T
  roll : T
  stiffness : T
  damping : T
deriving DecidableEq

/-- `material_mix_friction` etc., `include/edyn/dynamics/material_mixing.hpp` 12-34. -/
def mixFriction (root : T → T) (a b : T) : T := root (a * b)
def mixRestitution (a b : T) : T := min a b
def mixSpin (a b : T) : T := max a b
def mixRoll (a b : T) : T := max a b
def mixStiffness (a b : T) : T := 1 / (1 / a + 1 / b)
def mixDamping (a b : T) : T := 1 / (1 / a + 1 / b)

/-- What a mesh shape has at a point of contact: the factors of `get_trimesh_friction` and
`get_trimesh_restitution` at a pivot, `collision_util.cpp` 48-78, when the mesh has per-vertex values.
`P` stands for pivot and feature. -/
structure Shape (T P : Type) where
  friction : Option (P → T) := none
  restitution : Option (P → T) := none
  /-- It is a (paged) triangle mesh. -/
  mesh : Bool := false

variable {P : Type}

/-- The two bodies of a manifold: materials, shapes, and the entry of the table of material pairs. -/
structure Pair (T P : Type) where
  matA : M T
  matB : M T
  shA : Shape T P
  shB : Shape T P
  table : Option (M T)

/-- `try_assign_per_vertex_friction`, `collision_util.cpp` 104-153: the value, if one is assigned.  A mesh as
second body is only looked at when the first body is not a mesh. -/
def vertexFriction (root : T → T) (b : Pair T P) (pA pB : P) : Option T :=
  if b.shA.mesh = true then b.shA.friction.map fun g => mixFriction root (g pA * b.matA.friction) b.matB.friction
  else if b.shB.mesh = true then b.shB.friction.map fun g => mixFriction root b.matA.friction (g pB * b.matB.friction)
  else none

/-- `try_assign_per_vertex_restitution`, lines 155-203. -/
def vertexRestitution (b : Pair T P) (pA pB : P) : Option T :=
  if b.shA.mesh = true then b.shA.restitution.map fun g => mixRestitution (g pA * b.matA.restitution) b.matB.restitution
  else if b.shB.mesh = true then b.shB.restitution.map fun g => mixRestitution b.matA.restitution (g pB * b.matB.restitution)
  else none

/-- `assign_material_properties`, lines 282-317. -/
def assign (root : T → T) (large : T) (b : Pair T P) (pA pB : P) : M T :=
  match b.table with
  | some m => m
  | none =>
    { friction := (vertexFriction root b pA pB).getD (mixFriction root b.matA.friction b.matB.friction)
      restitution := (vertexRestitution b pA pB).getD (mixRestitution b.matA.restitution b.matB.restitution)
      roll := mixRoll b.matA.roll b.matB.roll
      spin := mixSpin b.matA.spin b.matB.spin
      stiffness := if b.matA.stiffness < large ∨ b.matB.stiffness < large then
        mixStiffness b.matA.stiffness b.matB.stiffness else large
      damping := if b.matA.stiffness < large ∨ b.matB.stiffness < large then
        mixDamping b.matA.damping b.matB.damping else large }

/-- `merge_point`, lines 226-230. -/
def merge (root : T → T) (b : Pair T P) (pA pB : P) (m : M T) : M T :=
  { m with friction := (vertexFriction root b pA pB).getD m.friction
           restitution := (vertexRestitution b pA pB).getD m.restitution }

/-- The material of a contact point that was created at the first place and then updated at each of the
others. -/
def life (root : T → T) (large : T) (b : Pair T P) (p : P × P) (ps : List (P × P)) : M T :=
  ps.foldl (fun m q => merge root b q.1 q.2 m) (assign root large b p.1 p.2)

/-! ### Specification -/

/-- The user gives meshes no per-vertex values. -/
def Pair.plain (b : Pair T P) : Prop :=
  b.shA.friction = none ∧ b.shA.restitution = none ∧ b.shB.friction = none ∧ b.shB.restitution = none

theorem plain_vertex {root : T → T} {b : Pair T P} (h : b.plain) (pA pB : P) :
    vertexFriction root b pA pB = none ∧ vertexRestitution b pA pB = none := by
  obtain ⟨h1, h2, h3, h4⟩ := h
  unfold vertexFriction vertexRestitution
  rw [h1, h2, h3, h4]
  constructor <;> (split <;> [rfl; (split <;> rfl)])

/-- The full claim: a material set for the pair of materials is the material of the contact, as long as it
exists. -/
def TableEntryFull (T P : Type) [Field T] [LinearOrder T] [IsStrictOrderedRing T] : Prop :=
  ∀ (root : T → T) (large : T) (b : Pair T P) (m : M T) (p : P × P) (ps : List (P × P)), b.table = some m →
    life root large b p ps = m

/-- Proved for a contact that was just created, and for meshes without per-vertex materials. -/
theorem table_entry_partial (root : T → T) (large : T) (b : Pair T P) (m : M T) (p : P × P) (ps : List (P × P))
    (hb : b.table = some m) (h : ps = [] ∨ b.plain) : life root large b p ps = m := by
  have h0 : assign root large b p.1 p.2 = m := by simp only [assign, hb]
  rcases h with rfl | hp
  · exact h0
  · unfold life
    rw [h0]
    clear h0
    induction ps with
    | nil => rfl
    | cons q ps ih =>
      simp only [List.foldl_cons]
      have : merge root b q.1 q.2 m = m := by
        unfold merge
        rw [(plain_vertex (root := root) hp q.1 q.2).1, (plain_vertex (root := root) hp q.1 q.2).2]
        rfl
      rw [this]
      exact ih

/-- A ball on a mesh with per-vertex friction, with an entry in the table. -/
def ice : Pair ℚ Unit where
  matA := ⟨0, 4, 0, 0, 1000, 1000⟩
  matB := ⟨0, 1, 0, 0, 1000, 1000⟩
  shA := {}
  shB := { friction := some fun _ => 9, mesh := true }
  table := some ⟨0, 1 / 10, 0, 0, 1000, 1000⟩

/-- The contact is created with the friction of the table; after the first update it has the friction of the
mesh. -/
theorem table_entry_overridden :
    (life (fun _ => 6) 1000 ice ((), ()) []).friction = 1 / 10 ∧ (life (fun _ => 6) 1000 ice ((), ()) [((), ())]).friction = 6 := by
  decide +kernel

theorem table_entry_refuted : ¬ TableEntryFull ℚ Unit := by
  intro h
  have := h (fun _ => 6) 1000 ice ⟨0, 1 / 10, 0, 0, 1000, 1000⟩ ((), ()) [((), ())] rfl
  revert this
  decide +kernel

/-- Without an entry in the table the material of a contact depends only on the place where it was last
updated. -/
theorem material_of_last_place (root : T → T) (large : T) (b : Pair T P) (p : P × P) (ps : List (P × P))
    (hb : b.table = none) : life root large b p ps = assign root large b (ps.getLast?.getD p).1 (ps.getLast?.getD p).2 := by
  have hmerge : ∀ q q' : P × P, merge root b q.1 q.2 (assign root large b q'.1 q'.2) = assign root large b q.1 q.2 := by
    intro q q'
    have hf : ∀ q : P × P, (vertexFriction root b q.1 q.2 = none ↔ vertexFriction root b q'.1 q'.2 = none) := by
      intro q
      unfold vertexFriction
      split <;> [skip; split] <;> simp
    have hr : ∀ q : P × P, (vertexRestitution b q.1 q.2 = none ↔ vertexRestitution b q'.1 q'.2 = none) := by
      intro q
      unfold vertexRestitution
      split <;> [skip; split] <;> simp
    simp only [merge, assign, hb, M.mk.injEq, and_true, true_and]
    constructor
    · cases h : vertexRestitution b q.1 q.2 with
      | none => rw [(hr q).1 h]; rfl
      | some x => rfl
    · cases h : vertexFriction root b q.1 q.2 with
      | none => rw [(hf q).1 h]; rfl
      | some x => rfl
  unfold life
  induction ps generalizing p with
  | nil => rfl
  | cons q ps ih =>
    simp only [List.foldl_cons]
    rw [hmerge q p, ih q]
    cases ps with
    | nil => rfl
    | cons r ps => simp [List.getLast?_cons]

/-- Exchanging the bodies does not change the material, unless both are meshes. -/
theorem material_symmetric (root : T → T) (large : T) (b : Pair T P) (pA pB : P) (h : b.shA.mesh = false ∨ b.shB.mesh = false) :
    assign root large ⟨b.matB, b.matA, b.shB, b.shA, b.table⟩ pB pA = assign root large b pA pB := by
  have hf : vertexFriction root ⟨b.matB, b.matA, b.shB, b.shA, b.table⟩ pB pA = vertexFriction root b pA pB := by
    unfold vertexFriction mixFriction
    rcases h with h | h <;> simp only [h] <;> split <;> simp_all [mul_comm]
  have hr : vertexRestitution ⟨b.matB, b.matA, b.shB, b.shA, b.table⟩ pB pA = vertexRestitution b pA pB := by
    unfold vertexRestitution mixRestitution
    rcases h with h | h <;> simp only [h] <;> split <;> simp_all [min_comm]
  unfold assign
  rw [hf, hr]
  cases b.table with
  | some m => rfl
  | none =>
    simp only [mixFriction, mixRestitution, mixRoll, mixSpin, mixStiffness, mixDamping, M.mk.injEq]
    refine ⟨by rw [min_comm], by rw [mul_comm], by rw [max_comm], by rw [max_comm], ?_, ?_⟩
    · simp only [or_comm (a := b.matB.stiffness < large), add_comm (1 / b.matB.stiffness)]
    · simp only [or_comm (a := b.matB.stiffness < large), add_comm (1 / b.matB.damping)]

/-- The mixed values are between those of the two materials (friction: its square is). -/
theorem mixing_bounds {a b : T} (ha : 0 < a) (hb : 0 < b) (root : T → T) (hroot : ∀ x, 0 ≤ x → root x * root x = x) :
    (mixRestitution a b = a ∨ mixRestitution a b = b) ∧ mixRestitution a b ≤ a ∧ mixRestitution a b ≤ b ∧
    a ≤ mixRoll a b ∧ b ≤ mixRoll a b ∧ a ≤ mixSpin a b ∧ b ≤ mixSpin a b ∧
    min a b * min a b ≤ mixFriction root a b * mixFriction root a b ∧
    mixFriction root a b * mixFriction root a b ≤ max a b * max a b ∧
    mixStiffness a b ≤ a ∧ mixStiffness a b ≤ b ∧ 0 < mixStiffness a b := by
  have hab : 0 < a * b := mul_pos ha hb
  have hs : mixStiffness a b = a * b / (a + b) := by
    unfold mixStiffness
    have h1 : a + b ≠ 0 := by linarith
    have h2 := ha.ne'
    have h3 := hb.ne'
    field_simp
    rw [add_comm]
  have hsum : 0 < a + b := by linarith
  refine ⟨min_choice a b, min_le_left _ _, min_le_right _ _, le_max_left _ _, le_max_right _ _, le_max_left _ _,
    le_max_right _ _, ?_, ?_, ?_, ?_, ?_⟩
  · rw [show mixFriction root a b * mixFriction root a b = a * b from hroot _ hab.le]
    exact mul_le_mul (min_le_left _ _) (min_le_right _ _) (le_min ha.le hb.le) ha.le
  · rw [show mixFriction root a b * mixFriction root a b = a * b from hroot _ hab.le]
    exact mul_le_mul (le_max_left _ _) (le_max_right _ _) hb.le (le_trans ha.le (le_max_left _ _))
  · rw [hs, div_le_iff₀ hsum]; nlinarith [mul_pos ha ha]
  · rw [hs, div_le_iff₀ hsum]; nlinarith [mul_pos hb hb]
  · rw [hs]; positivity

/-- A mesh whose friction varies. -/
def gravel : Pair ℚ ℚ where
  matA := ⟨1 / 2, 1, 0, 0, 1000, 1000⟩
  matB := ⟨1 / 4, 1, 0, 1, 1000, 1000⟩
  shA := {}
  shB := { friction := some fun x => x, mesh := true }
  table := none

example : life (fun x => x) 1000 gravel (1, 2) [(1, 3), (2, 5)] = ⟨1 / 4, 5, 0, 1, 1000, 1000⟩ := by decide +kernel

end Edyn.Contact.Mat
