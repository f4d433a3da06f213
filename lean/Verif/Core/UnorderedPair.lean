/-!
# Model of `edyn::unordered_pair`

`include/edyn/core/unordered_pair.hpp` lines 11-41, instantiated with an integer id type
(`material::id_type`, vertex indices).  Values are naturals; only `==` and `<` of the element type
are used.
-/

namespace Edyn.Core

/-- `unordered_pair.hpp:12-20`. -/
structure UPair where
  first : Nat
  second : Nat
  deriving Repr, DecidableEq

namespace UPair

/-- `unordered_pair.hpp:27-30` `operator==`. -/
def eq (a b : UPair) : Bool :=
  (a.first == b.first && a.second == b.second) || (a.first == b.second && a.second == b.first)

/-- `unordered_pair.hpp:32-40` `operator<`. -/
def lt (a b : UPair) : Bool :=
  if a.first == b.second && a.second == b.first then false
  else if a.first == b.first then decide (a.second < b.second)
  else decide (a.first < b.first)

/-- The same pair with the elements exchanged. -/
def flip (a : UPair) : UPair := ⟨a.second, a.first⟩

end UPair
end Edyn.Core
