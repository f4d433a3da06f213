import Verif.DynTree.Remove

/-!
# `clear` and the traversals
-/

namespace Edyn.DynTree

variable {S : Type} [LinearOrder S]

omit [LinearOrder S] in
theorem clear_chain (s : State S) (n k : Nat) (h : k + n = s.size) (hn : 0 < n) :
    FreeChain (clear s) (some k) (List.range' k n) := by
  induction n generalizing k with
  | zero => omega
  | succ n ih =>
    have hs : s.size ≠ 0 := by omega
    simp only [List.range', FreeChain]
    refine ⟨trivial, by simp [clear, hs]; omega, ?_⟩
    by_cases h0 : n = 0
    · subst h0
      have : (clear s).up k = none := by
        have : k = s.size - 1 := by omega
        simp [clear, hs, this]
      simp [this, FreeChain]
    · have : (clear s).up k = some (k + 1) := by
        have h1 : k ≠ s.size - 1 := by omega
        have h2 : k < s.size := by omega
        simp [clear, hs, upd_apply, h1, h2]
      rw [this]
      exact ih (k + 1) (by omega) (by omega)

theorem clear_spec (s : State S) : Inv (clear s) none (List.range' 0 s.size) [] := by
  by_cases hs : s.size = 0
  · refine ⟨?_, ?_, ?_, ?_, by simp⟩
    · simp [clear, hs, FreeChain]
    · simp [idsO, hs]
    · simp [clear, hs, idsO]
    · simp [clear, hs]
  · refine ⟨?_, ?_, ?_, ?_, by simp⟩
    · have : (clear s).freeList = some 0 := by simp [clear, hs]
      rw [this]
      exact clear_chain s s.size 0 (by omega) (by omega)
    · simp [idsO, List.nodup_range']
    · intro i
      simp [clear, hs, idsO, List.mem_range'_1]
    · simp [clear, hs]

/-- The leaves the traversal reports below a node, in order. -/
def visit (s : State S) (test : Box S → Bool) : T → List Nat
  | .leaf i => if test (s.box i) then [i] else []
  | .node i l r => if test (s.box i) then visit s test r ++ visit s test l else []

theorem traverseLoop_spec {s : State S} {test : Box S → Bool} {t : T} (h : Rep s t) :
    ∀ (fuel : Nat) (stack : List (Option Nat)) (acc : List Nat), ∃ extra,
      traverseLoop s test (fuel + t.ids.length) (some t.id :: stack) acc =
        traverseLoop s test (fuel + extra) stack (acc ++ visit s test t) := by
  induction t with
  | leaf i =>
    intro fuel stack acc
    refine ⟨0, ?_⟩
    simp only [T.ids, List.length_cons, List.length_nil, Nat.zero_add, T.id_leaf, traverseLoop,
      chk_some h.1, Option.bind_some, visit]
    have : isLeaf s i = true := by simp [isLeaf, h.2.1]
    simp only [this, if_true]
    split
    · rfl
    · simp
  | node i l r hl hr =>
    intro fuel stack acc
    obtain ⟨k1, k2, k3, k4, k5, k6, k7, k8, k9⟩ := h
    have : isLeaf s i = false := by simp [isLeaf, k2]
    have hlen : fuel + (T.node i l r).ids.length = ((fuel + l.ids.length) + r.ids.length) + 1 := by
      simp [T.ids]; omega
    rw [hlen]
    simp only [T.id_node, traverseLoop, chk_some k1, Option.bind_some, this, Bool.false_eq_true,
      if_false, k2, k3, visit]
    by_cases ht : test (s.box i) = true
    · simp only [ht, if_true]
      obtain ⟨e1, q1⟩ := hr k9 (fuel + l.ids.length) (some l.id :: stack) acc
      rw [q1]
      obtain ⟨e2, q2⟩ := hl k8 (fuel + e1) stack (acc ++ visit s test r)
      refine ⟨e1 + e2, ?_⟩
      have : fuel + l.ids.length + e1 = fuel + e1 + l.ids.length := by omega
      rw [this, q2, List.append_assoc]
      congr 1
      omega
    · simp only [ht, if_false]
      exact ⟨l.ids.length + r.ids.length, by
        simp [Nat.add_assoc]⟩

theorem traverse_spec {s : State S} {test : Box S → Bool} {ot : Option T} {fl ex : List Nat}
    (h : Inv s ot fl ex) :
    traverse s test = some (match ot with | none => [] | some t => visit s test t) := by
  unfold traverse
  cases ot with
  | none =>
    have : s.root = none := h.root
    simp [this, traverseLoop]
  | some t =>
    have hr : s.root = some t.id := h.root
    have hlen := h.ids_length
    obtain ⟨e, q⟩ := traverseLoop_spec (test := test) (h.rep t rfl).2 (s.size + 1 - t.ids.length) [] []
    have : s.size + 1 - t.ids.length + t.ids.length = s.size + 1 := by omega
    rw [this] at q
    rw [hr, q]
    cases h' : s.size + 1 - t.ids.length + e <;> simp [traverseLoop]

/-- A test which holds for every box enclosing a box for which it holds. -/
def Monotone (test : Box S → Bool) : Prop :=
  ∀ a b : Box S, a.Encloses b → test b = true → test a = true

/-- Boxes of subtrees are enclosed. -/
theorem Rep.encloses {s : State S} {t : T} (h : Rep s t) :
    ∀ j ∈ t.ids, (s.box t.id).Encloses (s.box j) := by
  induction t with
  | leaf i => intro j hj; simp at hj; subst hj; exact Box.Encloses.refl _
  | node i l r hl hr =>
    obtain ⟨k1, k2, k3, k4, k5, k6, k7, k8, k9⟩ := h
    intro j hj
    simp only [T.ids, List.mem_cons, List.mem_append] at hj
    rcases hj with rfl | hj | hj
    · exact Box.Encloses.refl _
    · simp only [T.id_node, k6]
      exact (Box.enclosing_left _ _).trans (hl k8 j hj)
    · simp only [T.id_node, k6]
      exact (Box.enclosing_right _ _).trans (hr k9 j hj)

theorem mem_visit {s : State S} {test : Box S → Bool} (hm : Monotone test) {t : T} (h : Rep s t)
    (j : Nat) : j ∈ visit s test t ↔ j ∈ t.leaves ∧ test (s.box j) = true := by
  induction t with
  | leaf i =>
    simp only [visit, T.leaves, List.mem_cons, List.not_mem_nil, or_false]
    split
    · rename_i ht
      simp only [List.mem_cons, List.not_mem_nil, or_false]
      constructor
      · rintro rfl; exact ⟨rfl, ht⟩
      · exact fun h => h.1
    · rename_i ht
      simp only [List.not_mem_nil, false_iff]
      rintro ⟨rfl, h'⟩; exact ht h'
  | node i l r hl hr =>
    have henc := h.encloses
    obtain ⟨k1, k2, k3, k4, k5, k6, k7, k8, k9⟩ := h
    simp only [visit, T.leaves, List.mem_append]
    split
    · rw [List.mem_append, hl k8, hr k9]; grind
    · rename_i ht
      simp only [List.not_mem_nil, false_iff]
      rintro ⟨h1, h2⟩
      apply ht
      refine hm _ _ (henc j ?_) h2
      simp only [T.ids, List.mem_cons, List.mem_append]
      rcases h1 with h1 | h1
      · exact Or.inr (Or.inl (T.leaves_sub h1))
      · exact Or.inr (Or.inr (T.leaves_sub h1))

theorem visit_sub {s : State S} {test : Box S → Bool} {t : T} :
    ∀ j ∈ visit s test t, j ∈ t.leaves := by
  induction t with
  | leaf i => intro j hj; simp only [visit] at hj; split at hj <;> simp_all
  | node i l r hl hr =>
    intro j hj
    simp only [visit] at hj
    split at hj
    · simp only [List.mem_append, T.leaves] at hj ⊢
      rcases hj with h | h
      · exact Or.inr (hr j h)
      · exact Or.inl (hl j h)
    · simp at hj

theorem visit_nodup {s : State S} {test : Box S → Bool} {t : T} (h : t.leaves.Nodup) :
    (visit s test t).Nodup := by
  induction t with
  | leaf i => simp only [visit]; split <;> simp
  | node i l r hl hr =>
    simp only [T.leaves, List.nodup_append] at h
    simp only [visit]
    split
    · rw [List.nodup_append]
      refine ⟨hr h.2.1, hl h.1, fun a ha b hb => ?_⟩
      exact Ne.symm (h.2.2 b (visit_sub b hb) a (visit_sub a ha))
    · simp

end Edyn.DynTree
