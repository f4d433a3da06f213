import Verif.Core.UnorderedPair

/-!
# Properties of `unordered_pair` (C41)
-/

namespace Edyn.Core.UPair

/-- The elements of a pair, with multiplicity and without order: how often `x` occurs. -/
def occurrences (a : UPair) (x : Nat) : Nat := [a.first, a.second].count x

/-- C41. `==` holds exactly when both pairs hold the same elements the same number of times. -/
theorem eq_iff_same_elements (a b : UPair) :
    a.eq b = true ↔ ∀ x, a.occurrences x = b.occurrences x := by
  obtain ⟨a1, a2⟩ := a
  obtain ⟨b1, b2⟩ := b
  simp only [eq, occurrences, Bool.or_eq_true, Bool.and_eq_true, beq_iff_eq]
  constructor
  · rintro (⟨rfl, rfl⟩ | ⟨rfl, rfl⟩) x
    · rfl
    · exact (List.Perm.swap _ _ _).count_eq x
  · intro h
    have h1 := h a1
    have h2 := h a2
    have h3 := h b1
    have h4 := h b2
    simp only [List.count_cons, List.count_nil, beq_iff_eq] at h1 h2 h3 h4
    grind

/-- C41. `==` ignores order and is an equivalence relation. -/
theorem eq_equivalence :
    (∀ a : UPair, a.eq a = true) ∧ (∀ a b : UPair, a.eq b = true → b.eq a = true) ∧
    (∀ a b c : UPair, a.eq b = true → b.eq c = true → a.eq c = true) ∧
    (∀ a : UPair, a.eq a.flip = true) := by
  refine ⟨?_, ?_, ?_, ?_⟩
  · intro a; rw [eq_iff_same_elements]; intro x; rfl
  · intro a b h; rw [eq_iff_same_elements] at *; intro x; exact (h x).symm
  · intro a b c h1 h2; rw [eq_iff_same_elements] at *; intro x; exact (h1 x).trans (h2 x)
  · intro a
    rw [eq_iff_same_elements]; intro x
    exact (List.Perm.swap a.second a.first []).count_eq x

/-- A strict weak order: irreflexive, transitive, and incomparability is transitive. This is what
`std::map` requires of its comparator. -/
structure StrictWeakOrder {α : Type} (lt : α → α → Bool) : Prop where
  irrefl : ∀ a, lt a a = false
  trans : ∀ a b c, lt a b = true → lt b c = true → lt a c = true
  incomp_trans : ∀ a b c, lt a b = false → lt b a = false → lt b c = false → lt c b = false →
    lt a c = false ∧ lt c a = false

/-- C41, finding. `operator<` is not a strict weak order: `(1,3) < (2,0) < (3,1)` while `(1,3)` and
`(3,1)` are the same pair. Using it as the comparator of a `std::map` is undefined behaviour. -/
theorem lt_not_strictWeakOrder : ¬ StrictWeakOrder lt := by
  intro h
  have := h.trans ⟨1, 3⟩ ⟨2, 0⟩ ⟨3, 1⟩ (by decide) (by decide)
  exact absurd this (by decide)

/-- The pairs written with the smaller element first. -/
def Normal (a : UPair) : Prop := a.first ≤ a.second

/-- C41, what remains true of the order: restricted to pairs written with the smaller element
first it is irreflexive, transitive, and two such pairs are incomparable exactly when equal. -/
theorem lt_total_on_normal_partial (a b c : UPair) (ha : a.Normal) (hb : b.Normal) (hc : c.Normal) :
    lt a a = false ∧ (lt a b = true → lt b c = true → lt a c = true) ∧
    ((lt a b = false ∧ lt b a = false) ↔ a.eq b = true) := by
  obtain ⟨a1, a2⟩ := a
  obtain ⟨b1, b2⟩ := b
  obtain ⟨c1, c2⟩ := c
  simp only [Normal] at ha hb hc
  simp only [lt, eq, Bool.and_eq_true, beq_iff_eq, Bool.or_eq_true]
  refine ⟨?_, ?_, ?_⟩
  · split <;> simp
  · split
    · simp
    · split
      · split
        · simp
        · split
          · split
            · intro h1 h2; simp at h1 h2; omega
            · split
              · simp; omega
              · simp; omega
          · split
            · intro h1 h2; simp at h1 h2; omega
            · split <;> (simp; omega)
      · split
        · simp
        · split
          · split
            · intro h1 h2; simp at h1 h2; omega
            · split <;> (simp; omega)
          · split
            · intro h1 h2; simp at h1 h2; omega
            · split <;> (simp; omega)
  · constructor
    · rintro ⟨h1, h2⟩
      split at h1
      · omega
      · split at h2
        · omega
        · split at h1 <;> split at h2 <;> simp at h1 h2 <;> omega
    · intro h
      rcases h with ⟨rfl, rfl⟩ | ⟨rfl, rfl⟩
      · constructor <;> (split <;> simp)
      · simp

/-- C41: on such pairs the order is the lexicographic one. -/
theorem lt_lex_on_normal_partial (a b : UPair) (ha : a.Normal) (hb : b.Normal) :
    lt a b = true ↔ a.first < b.first ∨ (a.first = b.first ∧ a.second < b.second) := by
  obtain ⟨a1, a2⟩ := a
  obtain ⟨b1, b2⟩ := b
  simp only [Normal] at ha hb
  simp only [lt, Bool.and_eq_true, beq_iff_eq]
  split
  · simp; omega
  · split <;> simp <;> omega

/-- Non-vacuity: two different normal pairs, ordered. -/
example : Normal ⟨1, 3⟩ ∧ Normal ⟨2, 2⟩ ∧ lt ⟨1, 3⟩ ⟨2, 2⟩ = true := by
  refine ⟨?_, ?_, ?_⟩ <;> simp [Normal, lt]

end Edyn.Core.UPair
