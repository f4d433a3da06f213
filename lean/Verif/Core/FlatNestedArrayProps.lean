import Verif.Core.FlatNestedArray

/-!
# Properties of `flat_nested_array` (C42)
-/

namespace Edyn.Core.FlatNested

variable {α : Type}

/-- Specification: a list of lists. `push_back` appends to the last nested list; a value pushed
before the first `push_array` belongs to no nested list. -/
def specStep (s : List (List α)) : Op α → List (List α)
  | .pushArray => s ++ [[]]
  | .pushBack v => match s.getLast? with
    | none => s
    | some last => s.dropLast ++ [last ++ [v]]

def specRun (os : List (Op α)) : List (List α) := os.foldl specStep []

/-- Starts of consecutive lists laid out from offset `off`. -/
def offsets (off : Nat) : List (List α) → List Nat
  | [] => []
  | l :: ls => off :: offsets (off + l.length) ls

theorem offsets_append (off : Nat) (a b : List (List α)) :
    offsets off (a ++ b) = offsets off a ++ offsets (off + a.flatten.length) b := by
  induction a generalizing off with
  | nil => simp [offsets]
  | cons l ls ih => simp [offsets, ih, Nat.add_assoc]

/-- Simulation relation. `orphans`: values pushed before the first array. -/
def Rel (a : FlatNested α) (s : List (List α)) : Prop :=
  ∃ orphans : List α, a.data = orphans ++ s.flatten ∧ a.rangeStarts = offsets orphans.length s

theorem rel_step {a : FlatNested α} {s} (h : Rel a s) (o : Op α) : Rel (step a o) (specStep s o) := by
  obtain ⟨orph, hd, hs⟩ := h
  cases o with
  | pushArray =>
    refine ⟨orph, ?_, ?_⟩
    · simp [step, pushArray, specStep, hd]
    · simp [step, pushArray, specStep, hs, offsets_append, hd, offsets]
  | pushBack v =>
    rcases List.eq_nil_or_concat s with rfl | ⟨init, last, rfl⟩
    · refine ⟨orph ++ [v], ?_, ?_⟩
      · simp [step, pushBack, specStep, hd]
      · simp [step, pushBack, specStep, hs, offsets]
    · refine ⟨orph, ?_, ?_⟩
      · simp [step, pushBack, specStep, hd]
      · simp [step, pushBack, specStep, hs, offsets_append, offsets]

theorem rel_run (os : List (Op α)) : Rel (run os) (specRun os) := by
  suffices h : ∀ (os : List (Op α)) (a : FlatNested α) (s : List (List α)), Rel a s →
      Rel (os.foldl step a) (os.foldl specStep s) from
    h os init [] ⟨[], rfl, rfl⟩
  intro os
  induction os with
  | nil => intro a s h; exact h
  | cons o os ih => intro a s h; exact ih _ _ (rel_step h o)

theorem offsets_get (off : Nat) (s : List (List α)) (i : Nat) :
    (offsets off s)[i]? = if i < s.length then some (off + (s.take i).flatten.length) else none := by
  induction s generalizing off i with
  | nil => simp [offsets]
  | cons l ls ih =>
    cases i with
    | zero => simp [offsets]
    | succ i => simp [offsets, ih, Nat.add_assoc]

theorem length_offsets (off : Nat) (s : List (List α)) : (offsets off s).length = s.length := by
  induction s generalizing off with
  | nil => rfl
  | cons l ls ih => simp [offsets, ih]

theorem take_succ_flatten_length (s : List (List α)) (i : Nat) (l : List α) (h : s[i]? = some l) :
    (s.take (i + 1)).flatten.length = (s.take i).flatten.length + l.length := by
  rw [List.take_add_one, h]
  simp

theorem flatten_get (s : List (List α)) (i j : Nat) (l : List α) (h : s[i]? = some l)
    (hj : j < l.length) : s.flatten[(s.take i).flatten.length + j]? = l[j]? := by
  induction s generalizing i with
  | nil => simp at h
  | cons a as ih =>
    cases i with
    | zero =>
      simp only [List.getElem?_cons_zero, Option.some.injEq] at h
      subst h
      simp only [List.take_zero, List.flatten_nil, List.length_nil, Nat.zero_add, List.flatten_cons]
      exact List.getElem?_append_left hj
    | succ i =>
      simp only [List.getElem?_cons_succ] at h
      simp only [List.flatten_cons, List.take_succ_cons, List.length_append, Nat.add_assoc]
      rw [List.getElem?_append_right (by omega)]
      rw [← ih i h]
      congr 1
      omega

/-- C42. After every sequence of calls the number of nested arrays is that of the specification;
accessing array `i` fails exactly when `i` is out of range, and otherwise reports the size of the
specification's `i`-th list. -/
theorem sizes_exact (os : List (Op α)) :
    (run os).size = (specRun os).length ∧
    ∀ i, ((run os).inner i).map (·.rangeSize) = (specRun os)[i]?.map List.length := by
  obtain ⟨orph, hd, hs⟩ := rel_run os
  refine ⟨by simp [size, hs, length_offsets], ?_⟩
  intro i
  simp only [inner, hs, offsets_get]
  cases hi : (specRun os)[i]? with
  | none =>
    have : ¬ i < (specRun os).length := by
      intro h; rw [List.getElem?_eq_getElem h] at hi; cases hi
    simp [this]
  | some l =>
    have hlt : i < (specRun os).length := (List.getElem?_eq_some_iff.1 hi).1
    simp only [hlt, if_true, Option.map_some, Option.some.injEq]
    by_cases h2 : i + 1 < (specRun os).length
    · simp only [h2, if_true]
      rw [take_succ_flatten_length _ _ _ hi, ← Nat.add_assoc, Nat.add_sub_cancel_left]
    · simp only [h2, if_false]
      have hall : (specRun os).take (i + 1) = specRun os := List.take_of_length_le (by omega)
      have := take_succ_flatten_length _ _ _ hi
      rw [hall] at this
      rw [hd, List.length_append, this]; omega

/-- C42. Element access equals that of the list of lists: for every array `i` and position `j`
within it, the element is the specification's, and a position past the end is rejected. -/
theorem elems_exact (os : List (Op α)) (i j : Nat) (l : List α) (h : (specRun os)[i]? = some l) :
    ∃ r, (run os).inner i = some r ∧ (run os).elem r j = l[j]? := by
  obtain ⟨orph, hd, hs⟩ := rel_run os
  have hsz := (sizes_exact os).2 i
  rw [h] at hsz
  cases hr : (run os).inner i with
  | none => simp [hr] at hsz
  | some r =>
    refine ⟨r, rfl, ?_⟩
    simp only [hr, Option.map_some, Option.some.injEq] at hsz
    have hlt : i < (specRun os).length := (List.getElem?_eq_some_iff.1 h).1
    have hstart : r.rangeStart = orph.length + ((specRun os).take i).flatten.length := by
      simp only [inner, hs, offsets_get, hlt, if_true, Option.some.injEq] at hr
      rw [← hr]
    simp only [elem]
    split
    · rename_i hj
      rw [hsz] at hj
      rw [hstart, hd, Nat.add_assoc, List.getElem?_append_right (by omega)]
      rw [show orph.length + (((specRun os).take i).flatten.length + j) - orph.length
        = ((specRun os).take i).flatten.length + j by omega]
      exact flatten_get _ _ _ _ h hj
    · rename_i hj
      rw [hsz] at hj
      exact (List.getElem?_eq_none (by omega)).symm

/-- C42. The start indices never decrease, so the `size_t` subtraction never wraps, and the last
start is within the data. -/
theorem starts_sorted (os : List (Op α)) :
    (run os).rangeStarts.Pairwise (· ≤ ·) ∧ ∀ x ∈ (run os).rangeStarts, x ≤ (run os).data.length := by
  obtain ⟨orph, hd, hs⟩ := rel_run os
  rw [hs, hd]
  have hb : ∀ (s : List (List α)) (off : Nat), ∀ x ∈ offsets off s,
      off ≤ x ∧ x ≤ off + s.flatten.length := by
    intro s
    induction s with
    | nil => intro off x hx; simp [offsets] at hx
    | cons l ls ih =>
      intro off x hx
      simp only [offsets, List.mem_cons] at hx
      simp only [List.flatten_cons, List.length_append]
      rcases hx with rfl | hx
      · omega
      · have := ih _ x hx; omega
  constructor
  · generalize orph.length = off
    induction specRun os generalizing off with
    | nil => simp [offsets]
    | cons l ls ih =>
      simp only [offsets, List.pairwise_cons]
      exact ⟨fun x hx => by have := (hb _ _ x hx).1; omega, ih _⟩
  · intro x hx
    have := (hb _ _ x hx).2
    simp only [List.length_append]; omega

/-- Non-vacuity: three arrays, the second empty; a value pushed before the first array is ignored. -/
example : specRun [.pushBack 9, .pushArray, .pushBack 1, .pushBack 2, .pushArray, .pushArray, .pushBack 3]
    = [[1, 2], [], [3]] := by decide

end Edyn.Core.FlatNested
