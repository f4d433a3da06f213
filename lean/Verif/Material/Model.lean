import Verif.Core.UnorderedPair

/-!
# Model of `material_mix_table`, a `std::map` keyed by `unordered_pair`

`include/edyn/dynamics/material_mixing.hpp` lines 36-77 and
`src/edyn/util/insert_material_mixing.cpp` lines 9-12.

`std::map` is modelled the way the standard library implements it: a binary search tree searched
with the comparator (`lower_bound`, then one more comparison).  The rebalancing done by the library
is a parameter `bal` of which only preservation of the in-order sequence is assumed.
-/

namespace Edyn.Material

open Edyn.Core

/-- A binary search tree node of the standard library's map. `V` is `material_base`. -/
inductive Tree (V : Type) where
  | leaf
  | node (l : Tree V) (k : UPair) (v : V) (r : Tree V)
  deriving Repr

namespace Tree

variable {V : Type}

/-- The entries in iteration order. -/
def toList : Tree V → List (UPair × V)
  | leaf => []
  | node l k v r => l.toList ++ (k, v) :: r.toList

/-- `lower_bound`: the first entry in iteration order which is not less than the key, found by
descending; `acc` is the best candidate so far. -/
def lowerBound (k : UPair) : Tree V → Option (UPair × V) → Option (UPair × V)
  | leaf, acc => acc
  | node l k' v r, acc =>
    if UPair.lt k' k then lowerBound k r acc else lowerBound k l (some (k', v))

/-- `find`: `lower_bound` followed by the check that the key is not less than the found key. -/
def find (t : Tree V) (k : UPair) : Option (UPair × V) :=
  match lowerBound k t none with
  | none => none
  | some e => if UPair.lt k e.1 then none else some e

/-- Insertion of a new node at the bottom of the tree. -/
def insertLeaf (k : UPair) (v : V) : Tree V → Tree V
  | leaf => node leaf k v leaf
  | node l k' v' r =>
    if UPair.lt k k' then node (insertLeaf k v l) k' v' r else node l k' v' (insertLeaf k v r)

/-- Assignment through the reference returned by `operator[]`: the entry with the key `k'` found by
`find` is overwritten. -/
def assign (k : UPair) (v : V) : Tree V → Tree V
  | leaf => leaf
  | node l k' v' r => if k' = k then node l k' v r else node (assign k v l) k' v' (assign k v r)

/-- A tree with a given in-order sequence. -/
def ofList : List (UPair × V) → Tree V
  | [] => leaf
  | e :: es => node leaf e.1 e.2 (ofList es)

end Tree

/-- Rebalancing (and whatever shape deletion leaves): any function that keeps the sequence. -/
structure Balance (V : Type) where
  bal : Tree V → Tree V
  keeps : ∀ t, (bal t).toList = t.toList

/-- The trivial balancing, exact for trees of up to two nodes. -/
def Balance.id (V : Type) : Balance V := ⟨fun t => t, fun _ => rfl⟩

variable {V : Type}

/-- `material_mixing.hpp:44-50` `insert` = `m_table[pair] = material`. The assertions that ids are
not the maximal id value are not modelled (ids here have no maximum). -/
def insert (b : Balance V) (t : Tree V) (k : UPair) (v : V) : Tree V :=
  match t.find k with
  | some e => t.assign e.1 v
  | none => b.bal (t.insertLeaf k v)

/-- `material_mixing.hpp:60-65` `try_get`. -/
def tryGet (t : Tree V) (k : UPair) : Option V := (t.find k).map (·.2)

/-- `material_mixing.hpp:40-42` `contains`. -/
def contains (t : Tree V) (k : UPair) : Bool := (t.find k).isSome

/-- `material_mixing.hpp:71-73` `remove` = `m_table.erase(pair)`. The tree left by the library is
any tree with the remaining sequence. -/
def remove (b : Balance V) (t : Tree V) (k : UPair) : Tree V :=
  match t.find k with
  | none => t
  | some e => b.bal (Tree.ofList (t.toList.filter (fun e' => e'.1 ≠ e.1)))

inductive Op (V : Type) where
  | insert (k : UPair) (v : V)
  | remove (k : UPair)

def step (b : Balance V) (t : Tree V) : Op V → Tree V
  | .insert k v => insert b t k v
  | .remove k => remove b t k

def run (b : Balance V) (t : Tree V) (os : List (Op V)) : Tree V := os.foldl (step b) t

end Edyn.Material
