/-!
# Model of `edyn::flat_nested_array`

`include/edyn/core/flat_nested_array.hpp` lines 14-96.  `reserve_data`/`reserve_nested` have no
observable effect and are not modelled; serialization of the array is covered with the archives.
-/

namespace Edyn.Core

/-- `flat_nested_array.hpp:93-95`. -/
structure FlatNested (α : Type) where
  data : List α
  rangeStarts : List Nat
  deriving Repr, DecidableEq

namespace FlatNested

variable {α : Type}

/-- Default construction. -/
def init : FlatNested α := ⟨[], []⟩

/-- `flat_nested_array.hpp:43-45` `push_array`. -/
def pushArray (a : FlatNested α) : FlatNested α :=
  { a with rangeStarts := a.rangeStarts ++ [a.data.length] }

/-- `flat_nested_array.hpp:50-52` `push_back`. -/
def pushBack (a : FlatNested α) (v : α) : FlatNested α := { a with data := a.data ++ [v] }

/-- `flat_nested_array.hpp:57-59` `size`. -/
def size (a : FlatNested α) : Nat := a.rangeStarts.length

/-- `flat_nested_array.hpp:17-38` `inner_array`: start and size. -/
structure Inner where
  rangeStart : Nat
  rangeSize : Nat
  deriving Repr, DecidableEq

/-- `flat_nested_array.hpp:78-85` `operator[]`. `none`: the assertion at line 79 fails.
`range_end - range_start` is a `size_t` difference; the model's truncated subtraction agrees
because the starts are non-decreasing (see `starts_sorted` in the properties). -/
def inner (a : FlatNested α) (idx : Nat) : Option Inner :=
  match a.rangeStarts[idx]? with
  | none => none
  | some rangeStart =>
    let rangeEnd := match a.rangeStarts[idx + 1]? with
      | some e => e
      | none => a.data.length
    some ⟨rangeStart, rangeEnd - rangeStart⟩

/-- `flat_nested_array.hpp:25-28` `inner_array::operator[]`. `none`: the assertion at line 26 fails
or the access is outside the vector. -/
def elem (a : FlatNested α) (i : Inner) (idx : Nat) : Option α :=
  if idx < i.rangeSize then a.data[i.rangeStart + idx]? else none

inductive Op (α : Type) where
  | pushArray
  | pushBack (v : α)

def step (a : FlatNested α) : Op α → FlatNested α
  | .pushArray => a.pushArray
  | .pushBack v => a.pushBack v

def run (os : List (Op α)) : FlatNested α := os.foldl step init

end FlatNested
end Edyn.Core
