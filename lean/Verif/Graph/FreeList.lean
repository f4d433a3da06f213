import Verif.Common.Chain

/-!
# Model of `edyn::free_list` and property C06

`include/edyn/core/free_list.hpp`.

* The vector is its size and a function; entries at or above the size are meaningless and every
  access checks the bound (the assertions at lines 30, 40 and 64), failure being `none`.
* `null_index` is `none`; indices are unbounded, that is, fewer than 2^64 elements.
-/

namespace Edyn.Graph

/-- An element type with a `next` field. `blank` is `T{}`. -/
class Slot (α : Type) where
  blank : α
  next : α → Option Nat
  setNext : α → Option Nat → α
  next_setNext : ∀ a n, next (setNext a n) = n

open Slot

/-- `free_list.hpp:87-89`. -/
structure FL (α : Type) where
  size : Nat
  elem : Nat → α
  count : Nat
  free : Option Nat

namespace FL

variable {α : Type} [Slot α]

/-- A new list, `free_list.hpp:87-89`. -/
def empty : FL α := ⟨0, fun _ => blank, 0, none⟩

/-- `free_list.hpp:12` `allocation_size`. -/
def allocationSize : Nat := 16

/-- `free_list.hpp:16-27`: adds a chunk when there is no free element. -/
def grow (f : FL α) : FL α :=
  match f.free with
  | some _ => f
  | none =>
    { f with
      size := f.size + allocationSize
      free := some f.size
      elem := fun i =>
        if f.size ≤ i ∧ i < f.size + allocationSize then
          setNext blank (if i + 1 = f.size + allocationSize then none else some (i + 1))
        else f.elem i }

/-- `free_list.hpp:15-37` `insert`. -/
def insert (f0 : FL α) (v : α) : Option (Nat × FL α) :=
  let f := f0.grow
  f.free.bind fun i =>
    if i < f.size then
      some (i, { f with free := next (f.elem i), elem := fset f.elem i v, count := f.count + 1 })
    else none

/-- `free_list.hpp:39-45` `remove`. The counter is truncated at zero instead of wrapping; under the
invariant it is positive whenever a live element is removed. -/
def remove (f : FL α) (i : Nat) : Option (FL α) :=
  if i < f.size then
    some { f with elem := fset f.elem i (setNext blank f.free), free := some i,
                  count := f.count - 1 }
  else none

/-- `free_list.hpp:47-61` `clear`. -/
def clear (f : FL α) : FL α :=
  { f with
    elem := fun i =>
      if i < f.size then setNext (f.elem i) (if i + 1 = f.size then none else some (i + 1))
      else f.elem i
    free := if f.size = 0 then none else some 0
    count := 0 }

/-- `free_list.hpp:63-70` `operator[]` for reading. -/
def get (f : FL α) (i : Nat) : Option α := if i < f.size then some (f.elem i) else none

/-- `free_list.hpp:68-70` `operator[]` for writing the whole element. -/
def put (f : FL α) (i : Nat) (v : α) : Option (FL α) :=
  if i < f.size then some { f with elem := fset f.elem i v } else none

/-- The invariant: `live` are the indices in use, `fl` the free ones in list order. -/
structure Inv (f : FL α) (live fl : List Nat) : Prop where
  chain : Chain (fun i => next (f.elem i)) f.free fl
  nodup : (live ++ fl).Nodup
  cover : ∀ i, i < f.size ↔ i ∈ live ∨ i ∈ fl
  count : f.count = live.length

theorem Inv.lt {f : FL α} {live fl : List Nat} (h : Inv f live fl) {i : Nat} (hi : i ∈ live) :
    i < f.size := (h.cover i).2 (Or.inl hi)

theorem Inv.live_nodup {f : FL α} {live fl : List Nat} (h : Inv f live fl) : live.Nodup :=
  (List.nodup_append.1 h.nodup).1

theorem Inv.not_free {f : FL α} {live fl : List Nat} (h : Inv f live fl) {i : Nat} (hi : i ∈ live) :
    i ∉ fl := fun hf => (List.nodup_append.1 h.nodup).2.2 i hi i hf rfl

/-- `live` may be listed in any order. -/
theorem Inv.perm {f : FL α} {live live' fl : List Nat} (h : Inv f live fl) (p : live.Perm live') :
    Inv f live' fl :=
  ⟨h.chain, ((p.append_right fl).nodup_iff).1 h.nodup, fun i => by rw [h.cover i, p.mem_iff],
   by rw [h.count, p.length_eq]⟩

/-- Writing to live elements keeps the invariant. -/
theorem Inv.write {f f' : FL α} {live fl : List Nat} (h : Inv f live fl) (hs : f'.size = f.size)
    (hc : f'.count = f.count) (hf : f'.free = f.free) (he : ∀ i, i ∉ live → f'.elem i = f.elem i) :
    Inv f' live fl := by
  refine ⟨?_, h.nodup, fun i => by rw [hs, h.cover i], by rw [hc, h.count]⟩
  rw [hf]
  refine h.chain.congr ?_
  intro x hx
  have : x ∉ live := fun hl => h.not_free hl hx
  simp only [he x this]

theorem inv_empty : Inv (empty : FL α) [] [] := ⟨rfl, by simp, by simp [empty], rfl⟩

theorem chain_range' (nx : Nat → Option Nat) (b n : Nat)
    (h : ∀ i, b ≤ i → i < b + n → nx i = if i + 1 = b + n then none else some (i + 1)) :
    Chain nx (if n = 0 then none else some b) (List.range' b n) := by
  induction n generalizing b with
  | zero => simp [Chain]
  | succ n ih =>
    rw [List.range'_succ]
    refine ⟨by simp, ?_⟩
    have h0 := h b (by omega) (by omega)
    rw [h0]
    have := ih (b + 1) (fun i h1 h2 => by
      rw [h i (by omega) (by omega), show b + (n + 1) = b + 1 + n by omega])
    by_cases hn : n = 0
    · subst hn; simpa using this
    · rw [if_neg (by omega)]
      simpa [hn] using this

theorem grow_spec {f : FL α} {live fl : List Nat} (h : Inv f live fl) :
    ∃ i fl', Inv f.grow live (i :: fl') ∧ f.grow.free = some i ∧ f.size ≤ f.grow.size ∧
      f.grow.count = f.count ∧
      (∀ j, j < f.size → f.grow.elem j = f.elem j) ∧
      (∀ j, f.grow.elem j = f.elem j ∨ ∃ n, f.grow.elem j = setNext blank n) := by
  cases hfl : f.free with
  | some i =>
    have hg : f.grow = f := by simp [grow, hfl]
    cases fl with
    | nil => have := h.chain; rw [hfl] at this; simp [Chain] at this
    | cons x xs =>
      have h1 := h.chain.1
      rw [hfl] at h1
      simp only [Option.some.injEq] at h1
      subst h1
      rw [hg]
      exact ⟨i, xs, h, hfl, Nat.le_refl _, rfl, fun _ _ => rfl, fun j => Or.inl rfl⟩
  | none =>
    have hfl0 : fl = [] := by
      cases fl with
      | nil => rfl
      | cons x xs => have := h.chain.1; rw [hfl] at this; simp at this
    subst hfl0
    have hc := chain_range' (fun i => next (f.grow.elem i)) f.size allocationSize (by
      intro i h1 h2
      simp only [grow, hfl, h1, h2, and_self, if_true, next_setNext])
    have hr : List.range' f.size allocationSize
        = f.size :: List.range' (f.size + 1) 15 := by
      simp [allocationSize, List.range'_succ]
    refine ⟨f.size, List.range' (f.size + 1) 15, ⟨?_, ?_, ?_, ?_⟩, ?_, ?_, ?_, ?_, ?_⟩
    · rw [← hr]
      have : f.grow.free = some f.size := by simp [grow, hfl]
      rw [this]
      simpa [allocationSize] using hc
    · rw [← hr, List.nodup_append]
      refine ⟨h.live_nodup, List.nodup_range', ?_⟩
      rintro a ha b hb rfl
      have h1 := h.lt ha
      simp only [List.mem_range'_1] at hb
      omega
    · intro i
      rw [← hr]
      have := h.cover i
      simp only [List.not_mem_nil, or_false] at this
      rw [← this, List.mem_range'_1]
      simp only [grow, hfl]
      omega
    · simp [grow, hfl, h.count]
    · simp [grow, hfl]
    · simp [grow, hfl]
    · simp [grow, hfl]
    · intro j hj
      simp only [grow, hfl]
      rw [if_neg (by omega)]
    · intro j
      simp only [grow, hfl]
      split
      · exact Or.inr ⟨_, rfl⟩
      · exact Or.inl rfl

theorem insert_spec {f : FL α} {live fl : List Nat} (h : Inv f live fl) (v : α) :
    ∃ i f' fl', insert f v = some (i, f') ∧ Inv f' (i :: live) fl' ∧ i ∉ live ∧
      f.size ≤ f'.size ∧ f'.elem i = v ∧ (∀ j ∈ live, f'.elem j = f.elem j) ∧
      (∀ j, j ≠ i → f'.elem j = f.elem j ∨ ∃ n, f'.elem j = setNext blank n) := by
  obtain ⟨i, fl', hI, hf, hs, hc, ho, hn⟩ := grow_spec h
  have hi : i < f.grow.size := (hI.cover i).2 (by simp)
  have hnl : i ∉ live := fun hl => hI.not_free hl (by simp)
  refine ⟨i, { f.grow with
      free := next (f.grow.elem i), elem := fset f.grow.elem i v, count := f.grow.count + 1 }, fl',
    ?_, ⟨?_, ?_, ?_, ?_⟩, hnl, hs, by simp, ?_, ?_⟩
  · simp [insert, hf, hi]
  · refine (hI.chain.2).congr ?_
    intro x hx
    have : x ≠ i := by
      rintro rfl
      have := hI.nodup
      rw [List.nodup_append] at this
      simp [hx] at this
    simp [this]
  · exact (List.perm_middle.nodup_iff).1 hI.nodup
  · intro j
    simp only [hI.cover j, List.mem_cons]
    tauto
  · simp [hc, h.count]
  · intro j hj
    have : j ≠ i := fun e => hnl (e ▸ hj)
    simp only [fset_ne _ _ _ _ this]
    exact ho j (h.lt hj)
  · intro j hj
    simp only [fset_ne _ _ _ _ hj]
    exact hn j

theorem remove_spec {f : FL α} {live fl : List Nat} (h : Inv f live fl) {i : Nat} (hi : i ∈ live) :
    ∃ f', remove f i = some f' ∧ Inv f' (live.erase i) (i :: fl) ∧ f'.size = f.size ∧
      f'.elem = fset f.elem i (setNext blank f.free) := by
  have hp := List.perm_cons_erase hi
  refine ⟨⟨f.size, fset f.elem i (setNext blank f.free), f.count - 1, some i⟩,
    by simp [remove, h.lt hi], ⟨?_, ?_, ?_, ?_⟩, rfl, rfl⟩
  · refine ⟨rfl, ?_⟩
    simp only [fset_same, next_setNext]
    refine h.chain.congr ?_
    intro x hx
    have : x ≠ i := fun e => h.not_free hi (e ▸ hx)
    simp [this]
  · refine (List.Perm.nodup_iff ?_).1 h.nodup
    exact (hp.append_right fl).trans (by simpa using (List.perm_middle).symm)
  · intro j
    simp only [h.cover j, hp.mem_iff, List.mem_cons]
    tauto
  · simp [h.count, List.length_erase_of_mem hi]

theorem clear_spec {f : FL α} : Inv (clear f) [] (List.range' 0 f.size) := by
  refine ⟨?_, by simpa using List.nodup_range', ?_, rfl⟩
  · refine chain_range' _ 0 f.size ?_
    intro i _ h2
    simp only [Nat.zero_add] at h2
    simp [clear, h2, next_setNext]
  · intro i
    simp [clear]

end FL

/-! ## C06 -/

variable {α : Type} [Slot α]

/-- Histories of calls on a free list together with what the user stored: `c i = some v` while the
element `i` is in use and holds `v`.  Elements in use may be overwritten, `next` field included. -/
inductive FLReach : FL α → (Nat → Option α) → Prop where
  | init : FLReach FL.empty (fun _ => none)
  | insert {f f' c i} (v : α) : FLReach f c → f.insert v = some (i, f') →
      FLReach f' (fset c i (some v))
  | put {f f' c i} (v : α) : FLReach f c → c i ≠ none → f.put i v = some f' →
      FLReach f' (fset c i (some v))
  | remove {f f' c i} : FLReach f c → c i ≠ none → f.remove i = some f' →
      FLReach f' (fset c i none)
  | clear {f c} : FLReach f c → FLReach f.clear (fun _ => none)

theorem FLReach.inv {f : FL α} {c : Nat → Option α} (h : FLReach f c) :
    ∃ live fl, f.Inv live fl ∧ (∀ i, i ∈ live ↔ c i ≠ none) ∧
      ∀ i v, c i = some v → f.elem i = v := by
  induction h with
  | init => exact ⟨[], [], FL.inv_empty, by simp, by simp⟩
  | insert v _ hi ih =>
    obtain ⟨live, fl, hI, hL, hE⟩ := ih
    obtain ⟨i', f'', fl', h1, h2, h3, h4, h5, h6, _⟩ := FL.insert_spec hI v
    rw [hi] at h1
    simp only [Option.some.injEq, Prod.mk.injEq] at h1
    obtain ⟨rfl, rfl⟩ := h1
    refine ⟨_, fl', h2, ?_, ?_⟩
    · intro j
      rw [List.mem_cons, hL j, fset_apply]
      split <;> simp_all
    · intro j w hj
      rw [fset_apply] at hj
      split at hj
      · simp_all
      · rw [h6 j ((hL j).2 (by rw [hj]; simp))]
        exact hE j w hj
  | put v _ hc hp ih =>
    rename_i f f' c i _
    obtain ⟨live, fl, hI, hL, hE⟩ := ih
    have hm := (hL i).2 hc
    simp only [FL.put, hI.lt hm, if_true, Option.some.injEq] at hp
    subst hp
    refine ⟨live, fl, hI.write rfl rfl rfl ?_, ?_, ?_⟩
    · intro j hj
      simp only
      rw [fset_ne]
      rintro rfl; exact hj hm
    · intro j
      rw [hL j, fset_apply]
      split <;> simp_all
    · intro j w hj
      rw [fset_apply] at hj
      simp only [fset_apply]
      split
      · simp_all
      · rename_i hne
        rw [if_neg hne] at hj
        exact hE j w hj
  | remove _ hc hr ih =>
    rename_i f f' c i _
    obtain ⟨live, fl, hI, hL, hE⟩ := ih
    have hm := (hL i).2 hc
    obtain ⟨f'', h1, h2, _, h4⟩ := FL.remove_spec hI hm
    rw [hr] at h1
    simp only [Option.some.injEq] at h1
    subst h1
    refine ⟨_, _, h2, ?_, ?_⟩
    · intro j
      rw [hI.live_nodup.mem_erase_iff, hL j, fset_apply]
      split <;> simp_all
    · intro j w hj
      rw [fset_apply] at hj
      split at hj
      · simp at hj
      · rename_i hne
        rw [h4, fset_ne _ _ _ _ hne]
        exact hE j w hj
  | clear _ _ => exact ⟨[], _, FL.clear_spec, by simp, by simp⟩

/-- C06. In every history: insertion always succeeds and returns an index that is not in use;
elements in use can be read, overwritten and removed, and hold what was last stored in them;
`count` is the number of elements in use. -/
theorem freeList_no_alias {f : FL α} {c : Nat → Option α} (h : FLReach f c) :
    (∀ v, ∃ i f', f.insert v = some (i, f') ∧ c i = none) ∧
    (∀ i v, c i = some v → f.get i = some v ∧ (∃ f', f.remove i = some f') ∧
      ∀ w, ∃ f', f.put i w = some f') ∧
    (∃ live : List Nat, live.Nodup ∧ (∀ i, i ∈ live ↔ c i ≠ none) ∧ f.count = live.length) := by
  obtain ⟨live, fl, hI, hL, hE⟩ := h.inv
  refine ⟨?_, ?_, live, hI.live_nodup, hL, hI.count⟩
  · intro v
    obtain ⟨i, f', fl', h1, _, h3, _⟩ := FL.insert_spec hI v
    refine ⟨i, f', h1, ?_⟩
    by_contra hne
    exact h3 ((hL i).2 hne)
  · intro i v hv
    have hlt := hI.lt ((hL i).2 (by rw [hv]; simp))
    refine ⟨by simp [FL.get, hlt, hE i v hv], ?_, ?_⟩
    · obtain ⟨f', h1, _⟩ := FL.remove_spec hI ((hL i).2 (by rw [hv]; simp))
      exact ⟨f', h1⟩
    · intro w
      exact ⟨{ f with elem := fset f.elem i w }, by simp [FL.put, hlt]⟩

/-! Non-vacuity: a concrete element type, and a history crossing a chunk boundary. -/

instance : Slot (Nat × Option Nat) where
  blank := (0, none)
  next := fun p => p.2
  setNext := fun p n => (p.1, n)
  next_setNext := fun _ _ => rfl

def exFL : Option (List Nat × FL (Nat × Option Nat)) :=
  (List.range 18).foldlM (fun (acc : List Nat × FL (Nat × Option Nat)) v =>
    (acc.2.insert (v, none)).map fun (i, f) => (acc.1 ++ [i], f)) ([], FL.empty)

example : (exFL.map fun p => (p.1, p.2.size, p.2.count)) = some (List.range 18, 32, 18) := by
  decide +kernel

example : ((exFL.bind fun p => (p.2.remove 3).bind fun f => (f.remove 7).bind fun f =>
    (f.insert (99, none)).bind fun (i, f) => (f.insert (98, none)).map fun (j, f) =>
      (i, j, f.get 7, f.count))) = some (7, 3, some (99, none), 18) := by decide +kernel

example : ∃ (f : FL (Nat × Option Nat)) (c : _), FLReach f c ∧ c 0 = some (5, none) := by
  obtain ⟨i, f', h1, _⟩ := (freeList_no_alias (FLReach.init (α := Nat × Option Nat))).1 (5, none)
  have h2 := FLReach.insert (5, none) FLReach.init h1
  have : ((FL.empty : FL (Nat × Option Nat)).insert (5, none)).map (·.1) = some 0 := by decide +kernel
  rw [h1] at this
  simp at this
  subst this
  exact ⟨f', _, h2, by simp⟩

end Edyn.Graph
