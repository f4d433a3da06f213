import Verif.Material.Model
import Verif.Core.UnorderedPairProps

/-!
# Properties of the material mixing table (C40)
-/

namespace Edyn.Material

open Edyn.Core

variable {V : Type}

/-- Specification: a table of entries keyed by *unordered* pairs; the last insertion wins. -/
def specStep (s : UPair → Option V) : Op V → UPair → Option V
  | .insert k v => fun q => if UPair.eq q k then some v else s q
  | .remove k => fun q => if UPair.eq q k then none else s q

def specRun (s : UPair → Option V) (os : List (Op V)) : UPair → Option V := os.foldl specStep s

def opKey : Op V → UPair
  | .insert k _ => k
  | .remove k => k

/-- C40, full statement: every lookup after every history, for either order of the two ids, finds
what was inserted last for these two materials. -/
def FullStatement (V : Type) : Prop :=
  ∀ (b : Balance V) (os : List (Op V)) (q : UPair),
    tryGet (run b .leaf os) q = specRun (fun _ => none) os q

/-- C40, finding: the full statement is false. After inserting a mixing for materials 2 and 0 and
one for materials 1 and 3, looking up materials (3, 1) finds nothing (the comparator of the map is
not a strict weak order). -/
theorem lookup_order_dependent : ¬ FullStatement Nat := by
  intro h
  have := h (Balance.id Nat) [.insert ⟨2, 0⟩ 20, .insert ⟨1, 3⟩ 13] ⟨3, 1⟩
  exact absurd this (by decide)

/-! ### The part that holds -/

/-- Invariant: normalised keys, strictly increasing. -/
def Inv (t : Tree V) : Prop :=
  (∀ e ∈ t.toList, e.1.Normal) ∧ t.toList.Pairwise (fun a b => UPair.lt a.1 b.1 = true)

theorem lt_irrefl (a : UPair) : UPair.lt a a = false := by
  simp only [UPair.lt]; split <;> simp

theorem normal_trans {a b c : UPair} (ha : a.Normal) (hb : b.Normal) (hc : c.Normal)
    (h1 : UPair.lt a b = true) (h2 : UPair.lt b c = true) : UPair.lt a c = true :=
  (UPair.lt_total_on_normal_partial a b c ha hb hc).2.1 h1 h2

theorem normal_eq {a b : UPair} (ha : a.Normal) (hb : b.Normal)
    (h1 : UPair.lt a b = false) (h2 : UPair.lt b a = false) : a = b := by
  have := (UPair.lt_total_on_normal_partial a b a ha hb ha).2.2.1 ⟨h1, h2⟩
  obtain ⟨a1, a2⟩ := a
  obtain ⟨b1, b2⟩ := b
  simp only [UPair.eq, UPair.Normal, Bool.or_eq_true, Bool.and_eq_true, beq_iff_eq, UPair.mk.injEq] at *
  omega

theorem normal_eq_iff {a b : UPair} (ha : a.Normal) (hb : b.Normal) : UPair.eq a b = true ↔ a = b := by
  obtain ⟨a1, a2⟩ := a
  obtain ⟨b1, b2⟩ := b
  simp only [UPair.eq, UPair.Normal, Bool.or_eq_true, Bool.and_eq_true, beq_iff_eq, UPair.mk.injEq] at *
  omega

theorem normal_asymm {a b : UPair} (ha : a.Normal) (hb : b.Normal)
    (h1 : UPair.lt a b = true) : UPair.lt b a = false := by
  cases h : UPair.lt b a
  · rfl
  · have := normal_trans ha hb ha h1 h
    rw [lt_irrefl] at this; cases this

/-- First entry of a list that is not less than `k`. -/
def firstNotLess (k : UPair) : List (UPair × V) → Option (UPair × V)
  | [] => none
  | e :: es => if UPair.lt e.1 k then firstNotLess k es else some e

theorem firstNotLess_append (k : UPair) (l₁ l₂ : List (UPair × V)) :
    firstNotLess k (l₁ ++ l₂) = (firstNotLess k l₁).or (firstNotLess k l₂) := by
  induction l₁ with
  | nil => simp [firstNotLess]
  | cons e es ih => simp only [List.cons_append, firstNotLess]; split <;> simp_all

theorem firstNotLess_none (k : UPair) (l : List (UPair × V))
    (hall : ∀ e ∈ l, UPair.lt e.1 k = true) : firstNotLess k l = none := by
  induction l with
  | nil => rfl
  | cons e es ih =>
    simp only [firstNotLess]
    rw [if_pos (hall e (by simp))]
    exact ih fun e' he' => hall e' (by simp [he'])

theorem lowerBound_eq (k : UPair) (hk : k.Normal) (t : Tree V) : Inv t → ∀ acc,
    t.lowerBound k acc = (firstNotLess k t.toList).or acc := by
  induction t with
  | leaf => intro _ acc; simp [Tree.lowerBound, Tree.toList, firstNotLess]
  | node l k' v r ihl ihr =>
    intro ⟨hn, hp⟩ acc
    simp only [Tree.toList, List.pairwise_append, List.mem_append, List.mem_cons,
      List.pairwise_cons] at hn hp
    have hkl := hn (k', v) (by simp)
    have il : Inv l := ⟨fun e he => hn e (Or.inl he), hp.1⟩
    have ir : Inv r := ⟨fun e he => hn e (Or.inr (Or.inr he)), hp.2.1.2⟩
    simp only [Tree.lowerBound, Tree.toList, firstNotLess_append, firstNotLess]
    by_cases h : UPair.lt k' k = true
    · rw [if_pos h, if_pos h, ihr ir]
      have : firstNotLess k l.toList = none := by
        apply firstNotLess_none
        exact fun e he =>
          normal_trans (hn e (Or.inl he)) hkl hk (hp.2.2 e he (k', v) (by simp)) h
      simp [this]
    · rw [if_neg h, if_neg h, ihl il]
      cases firstNotLess k l.toList <;> simp

theorem firstNotLess_mem {k : UPair} {l : List (UPair × V)} {e} (h : firstNotLess k l = some e) :
    e ∈ l ∧ UPair.lt e.1 k = false := by
  induction l with
  | nil => simp [firstNotLess] at h
  | cons a es ih =>
    simp only [firstNotLess] at h
    split at h
    · exact ⟨List.mem_cons_of_mem _ (ih h).1, (ih h).2⟩
    · cases h; rename_i h; exact ⟨by simp, by simpa using h⟩

/-- `find` on an ordered tree of any shape finds exactly the entry with that key. -/
theorem find_iff (t : Tree V) (h : Inv t) (k : UPair) (hk : k.Normal) (e : UPair × V) :
    t.find k = some e ↔ e ∈ t.toList ∧ e.1 = k := by
  obtain ⟨hn, hp⟩ := h
  have hl := lowerBound_eq k hk t ⟨hn, hp⟩ none
  simp only [Option.or_none] at hl
  unfold Tree.find
  rw [hl]
  constructor
  · intro hf
    cases hb : firstNotLess k t.toList with
    | none => simp [hb] at hf
    | some e' =>
      simp only [hb] at hf
      split at hf
      · cases hf
      · cases hf
        obtain ⟨h1, h2⟩ := firstNotLess_mem hb
        rename_i h3
        exact ⟨h1, normal_eq (hn _ h1) hk h2 (by simpa using h3)⟩
  · rintro ⟨hm, rfl⟩
    have : firstNotLess e.1 t.toList = some e := by
      clear hl
      generalize t.toList = l at *
      induction l with
      | nil => simp at hm
      | cons a es ih =>
        simp only [List.pairwise_cons] at hp
        simp only [firstNotLess]
        rcases List.mem_cons.1 hm with rfl | hm'
        · simp [lt_irrefl]
        · rw [if_pos (hp.1 e hm')]
          exact ih (fun e he => hn e (List.mem_cons_of_mem _ he)) hp.2 hm'
    rw [this]
    simp [lt_irrefl]

theorem mem_insertLeaf (k : UPair) (v : V) (t : Tree V) (e : UPair × V) :
    e ∈ (t.insertLeaf k v).toList ↔ e = (k, v) ∨ e ∈ t.toList := by
  induction t with
  | leaf => simp [Tree.insertLeaf, Tree.toList]
  | node l k' v' r ihl ihr =>
    simp only [Tree.insertLeaf]
    split <;> simp only [Tree.toList, List.mem_append, List.mem_cons, ihl, ihr] <;> grind

theorem inv_insertLeaf (k : UPair) (hk : k.Normal) (v : V) (t : Tree V) (h : Inv t)
    (hnew : ∀ e ∈ t.toList, e.1 ≠ k) : Inv (t.insertLeaf k v) := by
  induction t with
  | leaf => simp [Inv, Tree.insertLeaf, Tree.toList, hk]
  | node l k' v' r ihl ihr =>
    obtain ⟨hn, hp⟩ := h
    simp only [Tree.toList, List.pairwise_append, List.mem_append, List.mem_cons,
      List.pairwise_cons] at hn hp hnew
    have hkl : k'.Normal := hn (k', v') (by simp)
    have il : Inv l := ⟨fun e he => hn e (Or.inl he), hp.1⟩
    have ir : Inv r := ⟨fun e he => hn e (Or.inr (Or.inr he)), hp.2.1.2⟩
    have ihl := ihl il (fun e he => hnew e (Or.inl he))
    have ihr := ihr ir (fun e he => hnew e (Or.inr (Or.inr he)))
    simp only [Tree.insertLeaf]
    split
    · rename_i hlt
      refine ⟨?_, ?_⟩
      · intro e he
        simp only [Tree.toList, List.mem_append, List.mem_cons, mem_insertLeaf] at he
        rcases he with (rfl | he) | he
        · exact hk
        · exact hn e (Or.inl he)
        · exact hn e (Or.inr he)
      · simp only [Tree.toList, List.pairwise_append, List.pairwise_cons, List.mem_cons,
          mem_insertLeaf]
        refine ⟨ihl.2, hp.2.1, ?_⟩
        rintro a (rfl | ha) b (rfl | hb)
        · exact hlt
        · exact normal_trans hk hkl (hn b (by simp [hb])) hlt (hp.2.1.1 b hb)
        · exact hp.2.2 a ha _ (Or.inl rfl)
        · exact hp.2.2 a ha b (Or.inr hb)
    · rename_i hlt
      have hlt' : UPair.lt k' k = true := by
        cases h' : UPair.lt k' k
        · exact absurd (normal_eq hkl hk h' (by simpa using hlt)) (hnew (k', v') (by simp))
        · rfl
      refine ⟨?_, ?_⟩
      · intro e he
        simp only [Tree.toList, List.mem_append, List.mem_cons, mem_insertLeaf] at he
        rcases he with he | rfl | rfl | he
        · exact hn e (Or.inl he)
        · exact hkl
        · exact hk
        · exact hn e (Or.inr (Or.inr he))
      · simp only [Tree.toList, List.pairwise_append, List.pairwise_cons, List.mem_cons,
          mem_insertLeaf]
        refine ⟨hp.1, ⟨?_, ihr.2⟩, ?_⟩
        · rintro a (rfl | ha)
          · exact hlt'
          · exact hp.2.1.1 a ha
        · rintro a ha b (rfl | rfl | hb)
          · exact hp.2.2 a ha _ (Or.inl rfl)
          · exact normal_trans (hn a (Or.inl ha)) hkl hk (hp.2.2 a ha _ (Or.inl rfl)) hlt'
          · exact hp.2.2 a ha b (Or.inr hb)

theorem toList_assign (k : UPair) (v : V) (t : Tree V)
    (hd : (t.toList.map (·.1)).Nodup) :
    (t.assign k v).toList = t.toList.map (fun e => if e.1 = k then (e.1, v) else e) := by
  induction t with
  | leaf => rfl
  | node l k' v' r ihl ihr =>
    simp only [Tree.toList, List.map_append, List.map_cons, List.nodup_append, List.nodup_cons] at hd
    have ihl := ihl hd.1
    have ihr := ihr hd.2.1.2
    have hnot : ∀ (es : List (UPair × V)) (key : UPair), key ∉ es.map (·.1) →
        es.map (fun e => if e.1 = key then (e.1, v) else e) = es := by
      intro es key hes
      induction es with
      | nil => rfl
      | cons e es ih =>
        simp only [List.map_cons, List.mem_cons, not_or] at hes
        simp only [List.map_cons]
        rw [if_neg (Ne.symm hes.1), ih hes.2]
    simp only [Tree.assign]
    split
    · rename_i hkk
      subst hkk
      simp only [Tree.toList, List.map_append, List.map_cons, if_true]
      rw [hnot l.toList k' (fun hm => hd.2.2 _ hm _ (by simp) rfl),
        hnot r.toList k' hd.2.1.1]
    · rename_i hkk
      simp only [Tree.toList, List.map_append, List.map_cons, if_neg hkk, ihl, ihr]

theorem toList_ofList (es : List (UPair × V)) : (Tree.ofList es).toList = es := by
  induction es with
  | nil => rfl
  | cons e es ih => simp [Tree.ofList, Tree.toList, ih]

theorem inv_nodup {t : Tree V} (h : Inv t) : (t.toList.map (·.1)).Nodup := by
  rw [List.Nodup, List.pairwise_map]
  refine List.Pairwise.imp ?_ h.2
  intro a b hab e
  rw [e, lt_irrefl] at hab
  cases hab

/-- Simulation relation between tree and specification, on normalised keys. -/
def Rel (t : Tree V) (s : UPair → Option V) : Prop :=
  Inv t ∧ ∀ k : UPair, k.Normal → ∀ v, (k, v) ∈ t.toList ↔ s k = some v

theorem rel_insert (b : Balance V) {t : Tree V} {s} (h : Rel t s) (k : UPair) (hk : k.Normal) (v : V) :
    Rel (insert b t k v) (specStep s (.insert k v)) := by
  obtain ⟨hi, hs⟩ := h
  unfold insert
  split
  · rename_i e hf
    obtain ⟨he, rfl⟩ := (find_iff t hi k hk e).1 hf
    have hl := toList_assign e.1 v t (inv_nodup hi)
    refine ⟨⟨?_, ?_⟩, ?_⟩
    · rw [hl]
      intro e' he'
      obtain ⟨a, ha, rfl⟩ := List.mem_map.1 he'
      have := hi.1 a ha
      split <;> exact this
    · rw [hl, List.pairwise_map]
      refine List.Pairwise.imp ?_ hi.2
      intro x y hxy
      split <;> split <;> exact hxy
    · intro q hq w
      rw [hl]
      simp only [specStep, normal_eq_iff hq hk, List.mem_map]
      by_cases hqe : q = e.1
      · subst hqe
        simp only [if_true, Option.some.injEq]
        constructor
        · rintro ⟨a, ha, hav⟩
          split at hav
          · exact (Prod.mk.inj hav).2
          · rename_i hne; exact absurd (by rw [hav]) hne
        · rintro rfl
          exact ⟨e, he, by simp⟩
      · rw [if_neg hqe, ← hs q hq w]
        constructor
        · rintro ⟨a, ha, hav⟩
          split at hav
          · rename_i h1; exact absurd ((Prod.mk.inj hav).1.symm.trans h1) hqe
          · rw [← hav]; exact ha
        · intro hm
          exact ⟨(q, w), hm, by simp [hqe]⟩
  · rename_i hf
    have hnew : ∀ e ∈ t.toList, e.1 ≠ k := by
      intro e he hek
      have := (find_iff t hi k hk e).2 ⟨he, hek⟩
      rw [hf] at this; cases this
    have hinv := inv_insertLeaf k hk v t hi hnew
    refine ⟨⟨?_, ?_⟩, ?_⟩
    · rw [b.keeps]; exact hinv.1
    · rw [b.keeps]; exact hinv.2
    · intro q hq w
      rw [b.keeps, mem_insertLeaf, hs q hq w]
      simp only [specStep, normal_eq_iff hq hk]
      by_cases hqk : q = k
      · subst hqk
        simp only [Prod.mk.injEq, true_and, if_true, Option.some.injEq]
        constructor
        · rintro (rfl | hw)
          · rfl
          · exact absurd rfl (hnew _ ((hs q hq w).2 hw))
        · rintro rfl; exact Or.inl rfl
      · simp [hqk]

theorem rel_remove (b : Balance V) {t : Tree V} {s} (h : Rel t s) (k : UPair) (hk : k.Normal) :
    Rel (remove b t k) (specStep s (.remove k)) := by
  obtain ⟨hi, hs⟩ := h
  unfold remove
  split
  · rename_i hf
    refine ⟨hi, ?_⟩
    intro q hq w
    simp only [specStep, normal_eq_iff hq hk]
    by_cases hqk : q = k
    · subst hqk
      simp only [if_true]
      constructor
      · intro hm
        have := (find_iff t hi q hq (q, w)).2 ⟨hm, rfl⟩
        rw [hf] at this; cases this
      · intro hm; cases hm
    · simp only [hqk, if_false]; exact hs q hq w
  · rename_i e hf
    obtain ⟨he, rfl⟩ := (find_iff t hi k hk e).1 hf
    refine ⟨⟨?_, ?_⟩, ?_⟩
    · rw [b.keeps, toList_ofList]
      intro e' he'
      exact hi.1 e' (List.mem_filter.1 he').1
    · rw [b.keeps, toList_ofList]
      exact hi.2.sublist List.filter_sublist
    · intro q hq w
      rw [b.keeps, toList_ofList, List.mem_filter, hs q hq w]
      simp only [specStep, normal_eq_iff hq hk]
      by_cases hqk : q = e.1 <;> simp [hqk]

theorem rel_run (b : Balance V) (os : List (Op V)) : ∀ {t s}, Rel t s →
    (∀ o ∈ os, (opKey o).Normal) → Rel (run b t os) (specRun s os) := by
  induction os with
  | nil => intro t s h _; exact h
  | cons o os ih =>
    intro t s h hn
    have ho := hn o (by simp)
    refine ih ?_ (fun o' ho' => hn o' (List.mem_cons_of_mem _ ho'))
    cases o with
    | insert k v => exact rel_insert b h k ho v
    | remove k => exact rel_remove b h k ho

/-- C40, the part that holds: if every pair, in insertions, removals and lookups, is written with
the smaller id first, then for every history and every rebalancing each lookup finds the entry
inserted last for these two materials. Missing: pairs written in the other order (see
`lookup_order_dependent`). -/
theorem lookup_normalised_partial (b : Balance V) (os : List (Op V))
    (hn : ∀ o ∈ os, (opKey o).Normal) (q : UPair) (hq : q.Normal) :
    tryGet (run b .leaf os) q = specRun (fun _ => none) os q ∧
    contains (run b .leaf os) q = (specRun (fun _ => none) os q).isSome := by
  have hrel : Rel (run b .leaf os) (specRun (fun _ => none) os) :=
    rel_run b os ⟨⟨by simp [Tree.toList], by simp [Tree.toList]⟩, by simp [Tree.toList]⟩ hn
  obtain ⟨hi, hs⟩ := hrel
  generalize run b .leaf os = t at *
  generalize specRun (fun _ => none) os = s at *
  have key : (t.find q).map (·.2) = s q := by
    cases hf : t.find q with
    | none =>
      cases hsq : s q with
      | none => rfl
      | some v =>
        have := (find_iff t hi q hq (q, v)).2 ⟨(hs q hq v).2 hsq, rfl⟩
        rw [hf] at this; cases this
    | some e =>
      obtain ⟨he, rfl⟩ := (find_iff t hi q hq e).1 hf
      rw [(hs e.1 hq e.2).1 he]; rfl
  refine ⟨key, ?_⟩
  rw [← key]
  simp [contains]

/-- Non-vacuity: a history with normalised keys, an overwrite and a removal. -/
example : (∀ o ∈ ([.insert ⟨0, 2⟩ 20, .insert ⟨1, 3⟩ 13, .insert ⟨0, 2⟩ 21, .remove ⟨1, 3⟩] : List (Op Nat)),
      (opKey o).Normal) ∧
    tryGet (run (Balance.id Nat) .leaf
      [.insert ⟨0, 2⟩ 20, .insert ⟨1, 3⟩ 13, .insert ⟨0, 2⟩ 21, .remove ⟨1, 3⟩]) ⟨0, 2⟩ = some 21 := by
  constructor
  · simp [opKey, UPair.Normal]
  · decide

end Edyn.Material
