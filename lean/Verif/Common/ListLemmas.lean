/-!
# List facts shared by several areas
-/

namespace Edyn.ListLemmas

variable {α : Type}

/-- Overwriting position `k`: same multiset as removing it and adding the new value. -/
theorem set_perm (l : List α) (k : Nat) (a : α) (h : k < l.length) :
    (l.set k a).Perm (a :: l.eraseIdx k) := by
  induction l generalizing k with
  | nil => simp at h
  | cons x xs ih =>
    cases k with
    | zero => simp
    | succ k =>
      simp only [List.set_cons_succ, List.eraseIdx_cons_succ]
      exact (List.Perm.cons x (ih k (by simpa using h))).trans (List.Perm.swap _ _ _)

/-- Removal by overwriting with the last element and dropping the last element. -/
def swapRemove (l : List α) (k : Nat) : List α :=
  match l.getLast? with
  | none => l
  | some last => (l.set k last).dropLast

theorem swapRemove_perm (l : List α) (k : Nat) (h : k < l.length) :
    (swapRemove l k).Perm (l.eraseIdx k) := by
  rcases List.eq_nil_or_concat l with rfl | ⟨init, last, rfl⟩
  · simp at h
  · simp only [List.concat_eq_append] at *
    simp only [swapRemove, List.getLast?_concat]
    by_cases hk : k < init.length
    · rw [List.set_append_left _ _ hk, List.dropLast_concat, List.eraseIdx_append_of_lt_length hk]
      exact (set_perm init k last hk).trans (by
        simpa using (List.perm_middle (a := last) (l₁ := init.eraseIdx k) (l₂ := [])).symm)
    · have : k = init.length := by simp at h; omega
      subst this
      rw [List.set_append_right _ _ (Nat.le_refl _), List.eraseIdx_append_of_length_le (Nat.le_refl _)]
      simp

theorem swapRemove_length (l : List α) (k : Nat) (h : k < l.length) :
    (swapRemove l k).length = l.length - 1 := by
  rw [(swapRemove_perm l k h).length_eq, List.length_eraseIdx]
  simp [h]

theorem mem_eraseIdx_nodup (l : List α) (hn : l.Nodup) (k : Nat) (b : α) (hk : l[k]? = some b)
    (a : α) : a ∈ l.eraseIdx k ↔ a ∈ l ∧ a ≠ b := by
  induction l generalizing k with
  | nil => simp at hk
  | cons x xs ih =>
    simp only [List.nodup_cons] at hn
    cases k with
    | zero =>
      simp only [List.getElem?_cons_zero, Option.some.injEq] at hk
      subst hk
      simp only [List.eraseIdx_cons_zero, List.mem_cons]
      constructor
      · intro h; exact ⟨Or.inr h, fun e => hn.1 (e ▸ h)⟩
      · rintro ⟨h | h, h2⟩
        · exact absurd h h2
        · exact h
    | succ k =>
      simp only [List.getElem?_cons_succ] at hk
      simp only [List.eraseIdx_cons_succ, List.mem_cons, ih hn.2 k hk]
      have hb : b ∈ xs := List.mem_of_getElem? hk
      constructor
      · rintro (rfl | h)
        · exact ⟨Or.inl rfl, fun e => hn.1 (e ▸ hb)⟩
        · exact ⟨Or.inr h.1, h.2⟩
      · rintro ⟨rfl | h, h2⟩
        · exact Or.inl rfl
        · exact Or.inr ⟨h, h2⟩

end Edyn.ListLemmas
