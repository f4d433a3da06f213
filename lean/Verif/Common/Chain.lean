import Mathlib.Data.List.Perm.Subperm
import Mathlib.Data.List.Nodup

/-!
# Singly linked lists stored in arrays

`Chain nx h l`: following the links `nx` from the head `h` visits exactly `l` and then ends.
-/

namespace Edyn

/-- Function update: assignment to one array element. -/
def fset {α : Type} (f : Nat → α) (i : Nat) (v : α) : Nat → α := fun j => if j = i then v else f j

@[simp] theorem fset_same {α : Type} (f : Nat → α) (i : Nat) (v : α) : fset f i v i = v := by
  simp [fset]

@[simp] theorem fset_ne {α : Type} (f : Nat → α) (i j : Nat) (v : α) (h : j ≠ i) :
    fset f i v j = f j := by
  simp [fset, h]

theorem fset_apply {α : Type} (f : Nat → α) (i j : Nat) (v : α) :
    fset f i v j = if j = i then v else f j := rfl

theorem fset_self {α : Type} (f : Nat → α) (i : Nat) : fset f i (f i) = f := by
  funext j; simp only [fset]; split <;> simp_all

theorem fset_fset {α : Type} (f : Nat → α) (i : Nat) (v w : α) :
    fset (fset f i v) i w = fset f i w := by
  funext j; simp only [fset]; split <;> simp_all

/-- A linked list starting at `h` with elements `l`. -/
def Chain (nx : Nat → Option Nat) : Option Nat → List Nat → Prop
  | h, [] => h = none
  | h, x :: xs => h = some x ∧ Chain nx (nx x) xs

namespace Chain

variable {nx nx' : Nat → Option Nat} {h : Option Nat} {l xs ys : List Nat}

theorem head (c : Chain nx h l) : h = l.head? := by
  cases l with
  | nil => exact c
  | cons x xs => simpa using c.1

theorem congr (c : Chain nx h l) (hnx : ∀ x ∈ l, nx' x = nx x) : Chain nx' h l := by
  induction l generalizing h with
  | nil => exact c
  | cons x xs ih =>
    refine ⟨c.1, ?_⟩
    rw [hnx x (by simp)]
    exact ih c.2 (fun y hy => hnx y (by simp [hy]))

theorem unique (c : Chain nx h l) {l' : List Nat} (c' : Chain nx h l') : l = l' := by
  induction l generalizing h l' with
  | nil =>
    cases l' with
    | nil => rfl
    | cons y ys => have := c'.1; rw [c] at this; simp at this
  | cons x xs ih =>
    cases l' with
    | nil => have := c.1; rw [c'] at this; simp at this
    | cons y ys =>
      have h1 := c.1; have h2 := c'.1
      rw [h1] at h2
      simp only [Option.some.injEq] at h2
      subst h2
      rw [ih c.2 c'.2]

/-- Splitting at an element. -/
theorem split (c : Chain nx h (xs ++ ys)) :
    ∃ m, Chain nx m ys ∧ (xs = [] → h = m) ∧ ∀ x zs, xs = zs ++ [x] → nx x = m := by
  induction xs generalizing h with
  | nil => exact ⟨h, c, fun _ => rfl, by simp⟩
  | cons x xs ih =>
    obtain ⟨m, h1, h2, h3⟩ := ih c.2
    refine ⟨m, h1, by simp, ?_⟩
    intro y zs he
    rcases List.eq_nil_or_concat xs with rfl | ⟨ws, w, rfl⟩
    · cases zs with
      | nil => simp at he; rw [← he]; exact h2 rfl
      | cons z zs => simp at he
    · simp only [List.concat_eq_append] at *
      cases zs with
      | nil => simp at he
      | cons z zs =>
        simp only [List.cons_append, List.cons.injEq] at he
        exact h3 y zs he.2

/-- Removing the element after `p` by redirecting `p`'s link. -/
theorem unlink {p y : Nat} (c : Chain nx h (xs ++ p :: y :: ys)) (nd : (xs ++ p :: y :: ys).Nodup) :
    Chain (fset nx p (nx y)) h (xs ++ p :: ys) := by
  induction xs generalizing h with
  | nil =>
    obtain ⟨h1, h2, h3⟩ := c
    refine ⟨h1, ?_⟩
    rw [fset_same]
    refine h3.congr ?_
    intro z hz
    rw [fset_ne]
    rintro rfl
    simp at nd
    exact nd.1.2 hz
  | cons x xs ih =>
    obtain ⟨h1, h2⟩ := c
    refine ⟨h1, ?_⟩
    rw [fset_ne]
    · exact ih h2 (by simpa using (List.nodup_cons.1 nd).2)
    · rintro rfl
      simp at nd

end Chain

/-- Follow links from `h`, checking each index with `ok`, for at most `fuel` elements. -/
def walk (nx : Nat → Option Nat) (ok : Nat → Bool) : Nat → Option Nat → Option (List Nat)
  | _, none => some []
  | 0, some _ => none
  | k + 1, some i => if ok i then (walk nx ok k (nx i)).map (i :: ·) else none

theorem walk_chain {nx : Nat → Option Nat} {ok : Nat → Bool} {h : Option Nat} {l : List Nat}
    (c : Chain nx h l) (hok : ∀ x ∈ l, ok x = true) {fuel : Nat} (hf : l.length ≤ fuel) :
    walk nx ok fuel h = some l := by
  induction l generalizing h fuel with
  | nil => rw [show h = none from c]; cases fuel <;> simp [walk]
  | cons x xs ih =>
    obtain ⟨h1, h2⟩ := c
    subst h1
    cases fuel with
    | zero => simp at hf
    | succ k =>
      simp only [walk, hok x (by simp), if_true]
      rw [ih h2 (fun y hy => hok y (by simp [hy])) (by simpa using hf)]
      rfl

theorem length_le_of_nodup_lt {l : List Nat} {n : Nat} (nd : l.Nodup) (hl : ∀ x ∈ l, x < n) :
    l.length ≤ n := by
  have : l ⊆ List.range n := fun x hx => List.mem_range.2 (hl x hx)
  simpa using (List.subperm_of_subset nd this).length_le

end Edyn
