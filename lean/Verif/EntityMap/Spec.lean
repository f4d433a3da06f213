import Verif.EntityMap.Model

/-!
# Specification of `entity_map`

What a user sees: a set of (remote, local) pairs. This file does not refer to the two hash maps.
-/

namespace Edyn.EntityMap.Spec

/-- The pairs currently mapped. -/
abbrev Pairs := Entity → Entity → Prop

def empty : Pairs := fun _ _ => False

/-- Effect of each call on the set of pairs. -/
def step (s : Pairs) : Op → Pairs
  | .insert r l => fun a b => (a = r ∧ b = l) ∨ s a b
  | .erase r => fun a b => s a b ∧ a ≠ r
  | .eraseLocal l => fun a b => s a b ∧ b ≠ l
  | .eraseIf p => fun a b => s a b ∧ p a b = false
  | .swap => fun a b => s b a
  | .clear => empty

/-- When a call is allowed. -/
def allowed (s : Pairs) : Op → Prop
  | .insert r l => (∀ b, ¬ s r b) ∧ (∀ a, ¬ s a l)
  | .erase r => ∃ l, s r l
  | .eraseLocal l => ∃ r, s r l
  | .eraseIf _ => True
  | .swap => True
  | .clear => True

def run (s : Pairs) : List Op → Pairs
  | [] => s
  | o :: os => run (step s o) os

def allAllowed (s : Pairs) : List Op → Prop
  | [] => True
  | o :: os => allowed s o ∧ allAllowed (step s o) os

end Edyn.EntityMap.Spec
