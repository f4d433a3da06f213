import Verif.Islands.Model
import Mathlib.Data.List.Induction
import Mathlib.Tactic.Tauto
import Mathlib.Tactic.Push

/-! # Islands: what the calls do to timers and sleeping tags of islands -/

namespace Edyn.Islands

variable {T : Type}

/-- Calls other than those that put islands to sleep: an island that sleeps afterwards slept before
and has got no new members; a timer that runs afterwards ran before with the same start. -/
structure Tm (w w' : W T) : Prop where
  next : w.next ≤ w'.next
  last : w'.lastTime = w.lastTime
  sleep : ∀ i, w'.slI i = true → w.slI i = true ∧ ∀ I', w'.isl i = some I' →
    ∃ I, w.isl i = some I ∧ ∀ n ∈ I'.nodes, n ∈ I.nodes
  stamp : ∀ i, w'.stamp i = none ∨
    (w'.stamp i = w.stamp i ∧ ((w.isl i).isSome = true → (w'.isl i).isSome = true))

theorem Tm.refl (w : W T) : Tm w w :=
  ⟨le_refl _, rfl, fun _ h => ⟨h, fun I' h => ⟨I', h, fun _ h => h⟩⟩, fun _ => Or.inr ⟨rfl, id⟩⟩

theorem Tm.trans {w w' w'' : W T} (h : Tm w w') (h' : Tm w' w'') : Tm w w'' := by
  constructor
  · exact le_trans h.next h'.next
  · rw [h'.last, h.last]
  · intro i hi
    obtain ⟨a, b⟩ := h'.sleep i hi
    obtain ⟨c, d⟩ := h.sleep i a
    refine ⟨c, fun I'' hI'' => ?_⟩
    obtain ⟨I', hI', e⟩ := b I'' hI''
    obtain ⟨I, hI, f⟩ := d I' hI'
    exact ⟨I, hI, fun n hn => f n (e n hn)⟩
  · intro i
    rcases h'.stamp i with a | ⟨a, b⟩
    · exact Or.inl a
    · rcases h.stamp i with c | ⟨c, d⟩
      · left; rw [a, c]
      · right; exact ⟨by rw [a, c], fun h => b (d h)⟩

/-- Calls that do not touch islands. -/
theorem Tm.of_eq {w w' : W T} (h1 : w'.next = w.next) (h2 : w'.lastTime = w.lastTime)
    (h3 : w'.slI = w.slI) (h4 : w'.isl = w.isl) (h5 : w'.stamp = w.stamp) : Tm w w' := by
  constructor
  · rw [h1]
  · exact h2
  · intro i hi; rw [h3] at hi; rw [h4]; exact ⟨hi, fun I' h => ⟨I', h, fun _ h => h⟩⟩
  · intro i; rw [h4, h5]; exact Or.inr ⟨rfl, id⟩

theorem wakeUp_tm {w w' : W T} {i : Nat} (h : wakeUp w i = some w') :
    Tm w w' ∧ w'.slI i = false ∧ (∀ j, j ≠ i → w'.slI j = w.slI j) ∧ w'.isl = w.isl ∧
      w'.stamp = w.stamp ∧ w'.next = w.next ∧ w'.nosleep = w.nosleep := by
  unfold wakeUp at h
  cases hs : w.slI i with
  | false =>
    simp only [hs] at h; simp at h; subst h
    exact ⟨Tm.refl _, hs, fun _ _ => rfl, rfl, rfl, rfl, rfl⟩
  | true =>
    simp only [hs, if_true] at h
    cases hi : w.isl i with
    | none => rw [hi] at h; cases h
    | some I =>
      rw [hi] at h; simp only [Option.some.injEq] at h; subst h
      refine ⟨⟨le_refl _, rfl, ?_, fun j => Or.inr ⟨rfl, id⟩⟩, by simp,
        fun j hj => by simp [Function.update_of_ne hj], rfl, rfl, rfl, rfl⟩
      intro j hj
      have hji : j ≠ i := by rintro rfl; simp at hj
      simp only [Function.update_of_ne hji] at hj
      exact ⟨hj, fun I' h => ⟨I', h, fun _ h => h⟩⟩

/-- What insertion leaves unchanged. -/
structure Frame (w w' : W T) (i : Nat) : Prop where
  slI : w'.slI = w.slI
  stamp : w'.stamp = w.stamp
  next : w'.next = w.next
  last : w'.lastTime = w.lastTime
  other : ∀ j, j ≠ i → w'.isl j = w.isl j
  live : (w.isl i).isSome = true → (w'.isl i).isSome = true

theorem Frame.refl (w : W T) (i : Nat) : Frame w w i := ⟨rfl, rfl, rfl, rfl, fun _ _ => rfl, id⟩

theorem Frame.trans {w w' w'' : W T} {i : Nat} (h : Frame w w' i) (h' : Frame w' w'' i) :
    Frame w w'' i :=
  ⟨h'.1.trans h.1, h'.2.trans h.2, h'.3.trans h.3, h'.4.trans h.4,
    fun j hj => (h'.other j hj).trans (h.other j hj), fun hi => h'.live (h.live hi)⟩

theorem insertNodes_frame (i : Nat) (ns : List Nat) : ∀ (w w' : W T),
    insertNodes i ns w = some w' → Frame w w' i := by
  induction ns with
  | nil => intro w w' h; simp [insertNodes] at h; subst h; exact Frame.refl _ _
  | cons n ns ih =>
    intro w w' h
    simp only [insertNodes] at h
    cases hi : w.isl i with
    | none => rw [hi] at h; cases h
    | some I =>
      rw [hi] at h; simp only at h
      split at h
      · split at h
        · cases h
        · refine Frame.trans ?_ (ih _ _ h)
          exact ⟨rfl, rfl, rfl, rfl, fun j hj => by simp [Function.update_of_ne hj], by simp⟩
      · refine Frame.trans ?_ (ih _ _ h)
        exact ⟨rfl, rfl, rfl, rfl, fun j hj => by simp [Function.update_of_ne hj], by simp⟩

theorem insertEdges_frame (i : Nat) (ns : List Nat) : ∀ (w w' : W T),
    insertEdges i ns w = some w' → Frame w w' i := by
  induction ns with
  | nil => intro w w' h; simp [insertEdges] at h; subst h; exact Frame.refl _ _
  | cons n ns ih =>
    intro w w' h
    simp only [insertEdges] at h
    cases hi : w.isl i with
    | none => rw [hi] at h; cases h
    | some I =>
      rw [hi] at h; simp only at h
      split at h
      · cases h
      · refine Frame.trans ?_ (ih _ _ h)
        exact ⟨rfl, rfl, rfl, rfl, fun j hj => by simp [Function.update_of_ne hj], by simp⟩

theorem insertTo_tm {w w' : W T} {i : Nat} {ns es : List Nat} (h : insertTo w i ns es = some w') :
    Tm w w' ∧ ((w.isl i).isSome = true → (w'.isl i).isSome = true) := by
  unfold insertTo at h
  obtain ⟨w1, h1, h⟩ := Option.bind_eq_some_iff.1 h
  obtain ⟨w2, h2, h⟩ := Option.bind_eq_some_iff.1 h
  have F := (insertNodes_frame i ns _ _ h1).trans (insertEdges_frame i es _ _ h2)
  obtain ⟨-, a, b, c, d, e, -⟩ := wakeUp_tm h
  obtain ⟨⟨_, hl, _, _⟩, _⟩ := wakeUp_tm h
  refine ⟨⟨?_, ?_, ?_, ?_⟩, ?_⟩
  · rw [e, F.next]
  · rw [hl, F.last]
  · intro j hj
    have hji : j ≠ i := by rintro rfl; rw [a] at hj; cases hj
    rw [b j hji, F.slI] at hj
    rw [c, F.other j hji]
    exact ⟨hj, fun I' h => ⟨I', h, fun _ h => h⟩⟩
  · intro j
    right
    rw [d, F.stamp, c]
    refine ⟨rfl, fun hj => ?_⟩
    by_cases hji : j = i
    · subst hji; exact F.live hj
    · rw [F.other j hji]; exact hj
  · rw [c]; exact F.live

theorem createIsland_tm (w : W T) : Tm w (createIsland w) := by
  refine ⟨by simp [createIsland], rfl, ?_, ?_⟩
  · intro j hj
    by_cases hji : j = w.next
    · subst hji; simp [createIsland] at hj
    · simp only [createIsland, Function.update_of_ne hji] at hj ⊢
      exact ⟨hj, fun I' h => ⟨I', h, fun _ h => h⟩⟩
  · intro j
    by_cases hji : j = w.next
    · subst hji; left; simp [createIsland]
    · right; simp [createIsland, Function.update_of_ne hji]

theorem mergeIslands_tm {w w' : W T} {is ns es : List Nat} (h : mergeIslands w is ns es = some w') :
    Tm w w' := by
  unfold mergeIslands at h
  cases hb : biggest (islandSize w) is none 0 with
  | none => rw [hb] at h; cases h
  | some i =>
    rw [hb] at h; simp only at h
    obtain ⟨w1, h1, h2⟩ := Option.map_eq_some_iff.1 h
    refine (insertTo_tm h1).1.trans ?_
    subst h2
    refine ⟨le_refl _, rfl, ?_, ?_⟩
    · intro j hj
      simp only [setAll] at hj ⊢
      split at hj
      · cases hj
      · rename_i hc; rw [if_neg hc]; exact ⟨hj, fun I' h => ⟨I', h, fun _ h => h⟩⟩
    · intro j
      simp only [setAll]
      split
      · left; rfl
      · right; exact ⟨rfl, id⟩

theorem assign_tm {w w' : W T} {c : Coll} (h : assign w c = some w') : Tm w w' := by
  unfold assign at h
  split at h
  · exact (createIsland_tm w).trans (insertTo_tm h).1
  · exact (insertTo_tm h).1
  · exact mergeIslands_tm h

theorem reachLoop_tm (env : Env T) (rs : List Nat) : ∀ (vis visE : Nat → Bool) (c : Coll) (w w' : W T),
    reachLoop env rs vis visE c w = some w' → Tm w w' := by
  induction rs with
  | nil => intro vis visE c w w' h; simp [reachLoop] at h; subst h; exact Tm.refl _
  | cons r rs ih =>
    intro vis visE c w w' h
    simp only [reachLoop] at h
    split at h
    · exact ih _ _ _ _ _ h
    · cases h1 : collect w c (.ask r) with
      | none => rw [h1] at h; cases h
      | some c1 =>
        rw [h1] at h; simp only at h
        split at h
        · cases h2 : loop (env.adj w.edges) w.proc (should env w) pushStack (w.nodes.length + 1)
              ⟨vis, visE, [r], []⟩ with
          | none => rw [h2] at h; cases h
          | some t =>
            rw [h2] at h; simp only at h
            cases h3 : t.log.foldlM (collect w) c1 with
            | none => rw [h3] at h; cases h
            | some c2 =>
              rw [h3] at h; simp only at h
              cases h4 : assign w c2 with
              | none => rw [h4] at h; cases h
              | some w1 =>
                rw [h4] at h; simp only at h
                exact (assign_tm h4).trans (ih _ _ _ _ _ h)
        · exact ih _ _ _ _ _ h

theorem initNew_tm (env : Env T) {w w' : W T} (h : initNew env w = some w') : Tm w w' := by
  unfold initNew at h
  cases h1 : startNodes w with
  | none => rw [h1] at h; cases h
  | some l =>
    rw [h1] at h; simp only at h
    have t := reachLoop_tm env _ _ _ _ _ _ h
    refine Tm.trans ?_ t
    exact Tm.of_eq rfl rfl rfl rfl rfl

theorem moveNodes_frame (source k : Nat) (S : Island) (ns : List Nat) : ∀ (w w' : W T),
    moveNodes source k S ns w = some w' →
    w'.next = w.next ∧ w'.lastTime = w.lastTime ∧ w'.slI = w.slI ∧ w'.isl = w.isl ∧ w'.stamp = w.stamp := by
  induction ns with
  | nil => intro w w' h; simp [moveNodes] at h; subst h; exact ⟨rfl, rfl, rfl, rfl, rfl⟩
  | cons n ns ih =>
    intro w w' h
    simp only [moveNodes] at h
    split at h
    · have := ih _ _ h; exact this
    · split at h
      · cases h
      · have := ih _ _ h; exact this

theorem makeIslands_tm (source : Nat) (S : Island) (is : List Island) : ∀ (w w' : W T),
    makeIslands source S is w = some w' → Tm w w' := by
  induction is with
  | nil => intro w w' h; simp [makeIslands] at h; subst h; exact Tm.refl _
  | cons I is ih =>
    intro w w' h
    simp only [makeIslands] at h
    generalize hw0 : ({ w with
      isl := Function.update w.isl w.next (some I)
      stamp := Function.update w.stamp w.next none
      slI := Function.update w.slI w.next false
      next := w.next + 1 } : W T) = w0 at h
    have h0 : Tm w w0 := by
      subst hw0
      refine ⟨Nat.le_succ _, rfl, ?_, ?_⟩
      · intro j hj
        by_cases hji : j = w.next
        · subst hji; simp at hj
        · simp only [Function.update_of_ne hji] at hj ⊢
          exact ⟨hj, fun I' h => ⟨I', h, fun _ h => h⟩⟩
      · intro j
        by_cases hji : j = w.next
        · subst hji; left; simp
        · right; simp [Function.update_of_ne hji]
    cases h1 : moveNodes source w.next S I.nodes w0 with
    | none => rw [h1] at h; cases h
    | some w1 =>
      rw [h1] at h; simp only at h
      obtain ⟨a, b, c, d, e⟩ := moveNodes_frame _ _ _ _ _ _ h1
      have t := ih _ _ h
      refine h0.trans ((Tm.of_eq (w' := w1) a b c d e).trans (Tm.trans ?_ t))
      exact Tm.of_eq rfl rfl rfl rfl rfl

theorem forget_frame (i : Nat) (ns : List Nat) : ∀ (w w' : W T), forget i ns w = some w' →
    w'.next = w.next ∧ w'.lastTime = w.lastTime ∧ w'.slI = w.slI ∧ w'.isl = w.isl ∧ w'.stamp = w.stamp := by
  induction ns with
  | nil => intro w w' h; simp [forget] at h; subst h; exact ⟨rfl, rfl, rfl, rfl, rfl⟩
  | cons n ns ih =>
    intro w w' h
    simp only [forget] at h
    split at h
    · have := ih _ _ h; exact this
    · cases h

theorem splitOne_tm (env : Env T) {w w' : W T} {i : Nat} (h : splitOne env w i = some w') : Tm w w' := by
  unfold splitOne at h
  cases hi : w.isl i with
  | none => rw [hi] at h; cases h
  | some I =>
    rw [hi] at h; simp only at h
    split at h
    · split at h
      · obtain ⟨w1, h1, h2⟩ := Option.map_eq_some_iff.1 h
        obtain ⟨a, b, c, d, e⟩ := forget_frame _ _ _ _ h1
        refine (Tm.of_eq a b c d e).trans ?_
        subst h2
        refine ⟨le_refl _, rfl, ?_, ?_⟩
        · intro j hj
          by_cases hji : j = i
          · subst hji; simp at hj
          · simp only [Function.update_of_ne hji] at hj ⊢
            exact ⟨hj, fun I' h => ⟨I', h, fun _ h => h⟩⟩
        · intro j
          by_cases hji : j = i
          · subst hji; left; simp
          · right; simp [Function.update_of_ne hji]
      · cases h
    · cases h1 : components env w I.nodes.length I.nodes with
      | none => rw [h1] at h; cases h
      | some is =>
        rw [h1] at h; simp only at h
        split at h
        · cases h
        · cases h; exact Tm.refl _
        · split at h
          · refine Tm.trans ?_ (makeIslands_tm _ _ _ _ _ h)
            refine ⟨le_refl _, rfl, ?_, ?_⟩
            · intro j hj
              by_cases hji : j = i
              · subst hji; simp at hj
              · simp only [Function.update_of_ne hji] at hj ⊢
                exact ⟨hj, fun I' h => ⟨I', h, fun _ h => h⟩⟩
            · intro j
              by_cases hji : j = i
              · subst hji; left; simp
              · right; simp [Function.update_of_ne hji]
          · cases h

theorem split_tm (env : Env T) {w w' : W T} (h : split env w = some w') : Tm w w' := by
  unfold split at h
  obtain ⟨w1, h1, h2⟩ := Option.map_eq_some_iff.1 h
  have : ∀ (l : List Nat) (w w' : W T), l.foldlM (splitOne env) w = some w' → Tm w w' := by
    intro l
    induction l with
    | nil => intro w w' h; simp at h; subst h; exact Tm.refl _
    | cons i l ih =>
      intro w w' h
      simp only [List.foldlM_cons] at h
      obtain ⟨w1, h1, h2⟩ := Option.bind_eq_some_iff.1 h
      exact (splitOne_tm env h1).trans (ih _ _ h2)
  refine (this _ _ _ h1).trans ?_
  subst h2
  exact Tm.of_eq rfl rfl rfl rfl rfl

theorem wakeAll_tm {w w' : W T} (h : wakeAll w = some w') : Tm w w' := by
  unfold wakeAll at h
  obtain ⟨w1, h1, h2⟩ := Option.map_eq_some_iff.1 h
  have : ∀ (l : List Nat) (w w' : W T), l.foldlM (fun (w : W T) i =>
      if (w.isl i).isSome then wakeUp w i else some w) w = some w' → Tm w w' := by
    intro l
    induction l with
    | nil => intro w w' h; simp at h; subst h; exact Tm.refl _
    | cons i l ih =>
      intro w w' h
      simp only [List.foldlM_cons] at h
      obtain ⟨w1, h1, h2⟩ := Option.bind_eq_some_iff.1 h
      refine Tm.trans ?_ (ih _ _ h2)
      split at h1
      · exact (wakeUp_tm h1).1
      · cases h1; exact Tm.refl _
  refine (this _ _ _ h1).trans ?_
  subst h2
  exact Tm.of_eq rfl rfl rfl rfl rfl

theorem edgeResidentGone_tm {w w' : W T} {e : Nat} (h : edgeResidentGone w e = some w') : Tm w w' := by
  unfold edgeResidentGone at h
  cases hr : w.eres e with
  | none => rw [hr] at h; simp at h; subst h; exact Tm.refl _
  | some i =>
    rw [hr] at h; simp only at h
    cases hi : w.isl i with
    | none => rw [hi] at h; cases h
    | some I =>
      rw [hi] at h; simp only [Option.some.injEq] at h; subst h
      refine ⟨le_refl _, rfl, ?_, ?_⟩
      · intro j hj
        refine ⟨hj, fun I' hI' => ?_⟩
        by_cases hji : j = i
        · subst hji; simp only [Function.update_self, Option.some.injEq] at hI'; subst hI'
          exact ⟨I, hi, fun _ h => h⟩
        · simp only [Function.update_of_ne hji] at hI'; exact ⟨I', hI', fun _ h => h⟩
      · intro j; right
        refine ⟨rfl, fun h => ?_⟩
        by_cases hji : j = i
        · subst hji; simp
        · simpa [Function.update_of_ne hji] using h

theorem nodeResidentGone_tm {w w' : W T} {e : Nat} (h : nodeResidentGone w e = some w') : Tm w w' := by
  unfold nodeResidentGone at h
  cases hr : w.nres e with
  | none => rw [hr] at h; simp at h; subst h; exact Tm.refl _
  | some i =>
    rw [hr] at h; simp only at h
    cases hi : w.isl i with
    | none => rw [hi] at h; cases h
    | some I =>
      rw [hi] at h; simp only [Option.some.injEq] at h; subst h
      refine ⟨le_refl _, rfl, ?_, ?_⟩
      · intro j hj
        refine ⟨hj, fun I' hI' => ?_⟩
        by_cases hji : j = i
        · subst hji; simp only [Function.update_self, Option.some.injEq] at hI'; subst hI'
          exact ⟨I, hi, fun _ h => (List.mem_filter.1 h).1⟩
        · simp only [Function.update_of_ne hji] at hI'; exact ⟨I', hI', fun _ h => h⟩
      · intro j; right
        refine ⟨rfl, fun h => ?_⟩
        by_cases hji : j = i
        · subst hji; simp
        · simpa [Function.update_of_ne hji] using h

theorem multiResidentGone_tm (n : Nat) (l : List Nat) : ∀ (w w' : W T),
    multiResidentGone n l w = some w' → Tm w w' := by
  induction l with
  | nil => intro w w' h; simp [multiResidentGone] at h; subst h; exact Tm.refl _
  | cons i l ih =>
    intro w w' h
    simp only [multiResidentGone] at h
    cases hi : w.isl i with
    | none => rw [hi] at h; cases h
    | some I =>
      rw [hi] at h; simp only at h
      split at h
      · refine Tm.trans ?_ (ih _ _ h)
        refine ⟨le_refl _, rfl, ?_, ?_⟩
        · intro j hj
          refine ⟨hj, fun I' hI' => ?_⟩
          by_cases hji : j = i
          · subst hji; simp only [Function.update_self, Option.some.injEq] at hI'; subst hI'
            exact ⟨I, hi, fun _ h => (List.mem_filter.1 h).1⟩
          · simp only [Function.update_of_ne hji] at hI'; exact ⟨I', hI', fun _ h => h⟩
        · intro j; right
          refine ⟨rfl, fun h => ?_⟩
          by_cases hji : j = i
          · subst hji; simp
          · simpa [Function.update_of_ne hji] using h
      · cases h

theorem removeEdge_tm {w w' : W T} {e : Nat} {d : Bool} (h : removeEdge w e d = some w') : Tm w w' := by
  unfold removeEdge at h
  split at h
  · obtain ⟨w1, h1, h2⟩ := Option.map_eq_some_iff.1 h
    refine (edgeResidentGone_tm h1).trans ?_
    subst h2
    exact Tm.of_eq rfl rfl rfl rfl rfl
  · cases h

theorem removeNode_tm {w w' : W T} {n : Nat} (h : removeNode w n = some w') : Tm w w' := by
  unfold removeNode at h
  split at h
  · simp only at h
    obtain ⟨w1, h1, h⟩ := Option.bind_eq_some_iff.1 h
    obtain ⟨w2, h2, h3⟩ := Option.map_eq_some_iff.1 h
    have : ∀ (l : List Nat) (w w' : W T),
        l.foldlM (fun w e => removeEdge w e true) w = some w' → Tm w w' := by
      intro l
      induction l with
      | nil => intro w w' h; simp at h; subst h; exact Tm.refl _
      | cons i l ih =>
        intro w w' h
        simp only [List.foldlM_cons] at h
        obtain ⟨w1, h1, h2⟩ := Option.bind_eq_some_iff.1 h
        exact (removeEdge_tm h1).trans (ih _ _ h2)
    refine (this _ _ _ h1).trans (Tm.trans (w' := w2) ?_ ?_)
    · split at h2
      · exact nodeResidentGone_tm h2
      · exact multiResidentGone_tm _ _ _ _ h2
    · subst h3; exact Tm.of_eq rfl rfl rfl rfl rfl
  · cases h

theorem setProcedural_tm {w w' : W T} {n : Nat} {p : Bool} (h : setProcedural w n p = some w') :
    Tm w w' := by
  unfold setProcedural at h
  split at h
  · split at h
    · cases h; exact Tm.refl _
    · split at h
      · simp only at h
        split at h
        · refine Tm.trans ?_ (insertTo_tm h).1
          exact Tm.trans (Tm.of_eq (by rfl) (by rfl) (by rfl) (by rfl) (by rfl)) (createIsland_tm _)
        · cases h; exact Tm.of_eq rfl rfl rfl rfl rfl
        · cases hb : biggest (islandSize w) (w.mres n) none 0 with
          | none => rw [hb] at h; cases h
          | some i =>
            rw [hb] at h; simp only at h
            obtain ⟨w1, h1, h2⟩ := Option.map_eq_some_iff.1 h
            refine (mergeIslands_tm h1).trans ?_
            subst h2
            exact Tm.of_eq rfl rfl rfl rfl rfl
      · split at h
        · cases h
        · cases h; exact Tm.of_eq rfl rfl rfl rfl rfl
  · cases h

section
variable [AddCommGroup T] [LinearOrder T]

/-- All calls except `update` and `put_all_to_sleep`. -/
theorem step_tm (env : Env T) {w w' : W T} {op : Op T} (h : step env w op = some w')
    (h1 : ∀ t f, op ≠ .update t f) (h2 : op ≠ .sleepNow) : Tm w w' := by
  cases op with
  | addNode n p s =>
    simp only [step, addNode] at h
    split at h
    · cases h
    · cases h; exact Tm.of_eq rfl rfl rfl rfl rfl
  | addEdge e a b =>
    simp only [step, addEdge] at h
    split at h
    · cases h; exact Tm.of_eq rfl rfl rfl rfl rfl
    · cases h
  | removeEdge e d => exact removeEdge_tm h
  | removeNode n => exact removeNode_tm h
  | setProcedural n p => exact setProcedural_tm h
  | wakeUp i =>
    simp only [step] at h
    split at h
    · exact (wakeUp_tm h).1
    · cases h
  | sleepNow => exact absurd rfl h2
  | update t f => exact absurd rfl (h1 t f)

/-- One island in `put_islands_to_sleep`. -/
theorem maybeSleep_frame (env : Env T) (fast : Nat → Bool) {w w' : W T} {i : Nat}
    (h : maybeSleep env fast w i = some w') :
    w'.isl = w.isl ∧ w'.next = w.next ∧ w'.nosleep = w.nosleep ∧ w'.lastTime = w.lastTime ∧
      (∀ j, j ≠ i → w'.slI j = w.slI j ∧ w'.stamp j = w.stamp j) ∧
      (w'.slI i = true → w.slI i = true ∨ ∃ I t, w.isl i = some I ∧ w.stamp i = some t ∧
        couldSleep w fast I = true ∧ w.lastTime - t > env.timeToSleep ∧ w'.stamp i = none) ∧
      (∀ t, w'.stamp i = some t → (w.isl i = none ∧ w.stamp i = some t) ∨ (w.slI i = true ∧ w.stamp i = some t) ∨
        (∃ I, w.isl i = some I ∧ couldSleep w fast I = true ∧ w'.slI i = false ∧
        (t = w.lastTime ∧ w.stamp i = none ∨ w.stamp i = some t))) := by
  unfold maybeSleep at h
  cases hi : w.isl i with
  | none =>
    rw [hi] at h; simp only [Option.some.injEq] at h; subst h
    exact ⟨rfl, rfl, rfl, rfl, fun _ _ => ⟨rfl, rfl⟩, fun h => Or.inl h, fun t h => Or.inl ⟨rfl, h⟩⟩
  | some I =>
    rw [hi] at h; simp only at h
    cases hs : w.slI i with
    | true =>
      simp only [hs, if_true, Option.some.injEq] at h; subst h
      exact ⟨rfl, rfl, rfl, rfl, fun _ _ => ⟨rfl, rfl⟩, by tauto, by tauto⟩
    | false =>
      simp only [hs, Bool.false_eq_true, if_false] at h
      cases hc : couldSleep w fast I with
      | false =>
        simp only [hc, Bool.false_eq_true, if_false, Option.some.injEq] at h; subst h
        refine ⟨rfl, rfl, rfl, rfl, ?_, ?_, ?_⟩
        · intro j hj; simp [Function.update_of_ne hj]
        · intro h; simp only at h; rw [hs] at h; cases h
        · intro t h; simp at h
      | true =>
        simp only [hc, if_true] at h
        cases hst : w.stamp i with
        | none =>
          rw [hst] at h; simp only [Option.some.injEq] at h; subst h
          refine ⟨rfl, rfl, rfl, rfl, ?_, ?_, ?_⟩
          · intro j hj; simp [Function.update_of_ne hj]
          · intro h; simp only at h; rw [hs] at h; cases h
          · intro t h
            simp only [Function.update_self, Option.some.injEq] at h
            right; right
            exact ⟨I, rfl, hc, hs, Or.inl ⟨h.symm, rfl⟩⟩
        | some t =>
          rw [hst] at h; simp only at h
          split at h
          · rename_i hlt
            obtain ⟨w1, h1, h2⟩ := Option.map_eq_some_iff.1 h
            unfold putToSleep at h1
            rw [hi] at h1; simp only at h1
            split at h1
            · cases h1
            · cases h1
              subst h2
              refine ⟨rfl, rfl, rfl, rfl, ?_, ?_, ?_⟩
              · intro j hj; simp [Function.update_of_ne hj]
              · intro _; right; exact ⟨I, t, rfl, rfl, hc, hlt, by simp⟩
              · intro t' h; simp at h
          · simp only [Option.some.injEq] at h; subst h
            refine ⟨rfl, rfl, rfl, rfl, fun _ _ => ⟨rfl, rfl⟩, ?_, ?_⟩
            · intro h; rw [hs] at h; cases h
            · intro t' h; rw [hst] at h; right; right; exact ⟨I, rfl, hc, hs, Or.inr h⟩

/-- `put_islands_to_sleep`. -/
theorem sleepAll_frame (env : Env T) (fast : Nat → Bool) {w w' : W T}
    (h : sleepAll env fast w = some w') :
    w'.isl = w.isl ∧ w'.next = w.next ∧ w'.nosleep = w.nosleep ∧ w'.lastTime = w.lastTime ∧
      (∀ i, w'.slI i = true → w.slI i = true ∨ ∃ I t, w.isl i = some I ∧ w.stamp i = some t ∧
        couldSleep w fast I = true ∧ w.lastTime - t > env.timeToSleep ∧ w'.stamp i = none) ∧
      (∀ i, i ≥ w.next → w'.stamp i = w.stamp i) ∧
      (∀ i t, w'.stamp i = some t → ((i ≥ w.next ∨ w.isl i = none) ∧ w.stamp i = some t) ∨
        (w.slI i = true ∧ w.stamp i = some t) ∨
        (∃ I, w.isl i = some I ∧ couldSleep w fast I = true ∧ w'.slI i = false ∧
        (t = w.lastTime ∧ w.stamp i = none ∨ w.stamp i = some t))) := by
  unfold sleepAll at h
  have key : ∀ (l : List Nat) (w w' : W T), l.Nodup → l.foldlM (maybeSleep env fast) w = some w' →
      w'.isl = w.isl ∧ w'.next = w.next ∧ w'.nosleep = w.nosleep ∧ w'.lastTime = w.lastTime ∧
      (∀ i, i ∉ l → w'.slI i = w.slI i ∧ w'.stamp i = w.stamp i) ∧
      (∀ i ∈ l, w'.slI i = true → w.slI i = true ∨ ∃ I t, w.isl i = some I ∧ w.stamp i = some t ∧
        couldSleep w fast I = true ∧ w.lastTime - t > env.timeToSleep ∧ w'.stamp i = none) ∧
      (∀ i ∈ l, ∀ t, w'.stamp i = some t → (w.isl i = none ∧ w.stamp i = some t) ∨ (w.slI i = true ∧ w.stamp i = some t) ∨
        (∃ I, w.isl i = some I ∧ couldSleep w fast I = true ∧ w'.slI i = false ∧
          (t = w.lastTime ∧ w.stamp i = none ∨ w.stamp i = some t))) := by
    intro l
    induction l with
    | nil => intro w w' _ h; simp at h; subst h; exact ⟨rfl, rfl, rfl, rfl, by simp, by simp, by simp⟩
    | cons i l ih =>
      intro w w' hnd h
      rw [List.nodup_cons] at hnd
      simp only [List.foldlM_cons] at h
      obtain ⟨w1, h1, h2⟩ := Option.bind_eq_some_iff.1 h
      obtain ⟨a1, a2, a3, a4, a5, a6, a7⟩ := maybeSleep_frame env fast h1
      obtain ⟨b1, b2, b3, b4, b5, b6, b7⟩ := ih w1 w' hnd.2 h2
      have hcs : ∀ I, couldSleep w1 fast I = couldSleep w fast I := by
        intro I; unfold couldSleep; rw [a3]
      refine ⟨b1.trans a1, b2.trans a2, b3.trans a3, b4.trans a4, ?_, ?_, ?_⟩
      · intro j hj
        simp only [List.mem_cons, not_or] at hj
        rw [(b5 j hj.2).1, (b5 j hj.2).2]
        exact a5 j hj.1
      · intro j hj hsj
        rcases List.mem_cons.1 hj with rfl | hj
        · rw [(b5 j hnd.1).1] at hsj
          rw [(b5 j hnd.1).2]
          exact a6 hsj
        · have hji : j ≠ i := fun h => hnd.1 (h ▸ hj)
          have := b6 j hj hsj
          rw [(a5 j hji).1, (a5 j hji).2, a1, a4] at this
          simpa only [hcs] using this
      · intro j hj t hst
        rcases List.mem_cons.1 hj with rfl | hj
        · rw [(b5 j hnd.1).2] at hst
          rw [(b5 j hnd.1).1]
          exact a7 t hst
        · have hji : j ≠ i := fun h => hnd.1 (h ▸ hj)
          have := b7 j hj t hst
          rw [(a5 j hji).1, (a5 j hji).2, a1, a4] at this
          simpa only [hcs] using this
  obtain ⟨b1, b2, b3, b4, b5, b6, b7⟩ := key (List.range w.next) w w' List.nodup_range h
  refine ⟨b1, b2, b3, b4, ?_, fun i hi => (b5 i (by simpa using hi)).2, ?_⟩
  · intro i hi
    by_cases h : i < w.next
    · exact b6 i (List.mem_range.2 h) hi
    · rw [(b5 i (by simpa using h)).1] at hi; exact Or.inl hi
  · intro i t hi
    by_cases h : i < w.next
    · rcases b7 i (List.mem_range.2 h) t hi with ⟨h1, h2⟩ | h | h
      · exact Or.inl ⟨Or.inr h1, h2⟩
      · exact Or.inr (Or.inl h)
      · exact Or.inr (Or.inr h)
    · rw [(b5 i (by simpa using h)).2] at hi
      exact Or.inl ⟨Or.inl (by omega), hi⟩

theorem run_append (env : Env T) (w : W T) (a b : List (Op T)) :
    run env w (a ++ b) = (run env w a).bind fun w => run env w b := by
  induction a generalizing w with
  | nil => rfl
  | cons op a ih =>
    simp only [List.cons_append, run]
    cases step env w op with
    | none => rfl
    | some w1 => exact ih w1

theorem run_snoc (env : Env T) {w w' : W T} {ops : List (Op T)} {op : Op T}
    (h : run env w (ops ++ [op]) = some w') :
    ∃ w1, run env w ops = some w1 ∧ step env w1 op = some w' := by
  rw [run_append] at h
  obtain ⟨w1, h1, h2⟩ := Option.bind_eq_some_iff.1 h
  refine ⟨w1, h1, ?_⟩
  simp only [run] at h2
  cases h3 : step env w1 op with
  | none => rw [h3] at h2; cases h2
  | some w2 => rw [h3] at h2; exact h2

theorem run_snoc_eq (env : Env T) {w w' w'' : W T} {ops : List (Op T)} {op : Op T}
    (h : run env w ops = some w') (h' : step env w' op = some w'') :
    run env w (ops ++ [op]) = some w'' := by
  rw [run_append, h]; simp [run, h']

/-- The island rested in all updates of `mid`, the first of which happened with the clock at `t`. -/
structure Rested (env : Env T) (w₀ : W T) (ops : List (Op T)) (i : Nat) (t : T)
    (pre mid : List (Op T)) : Prop where
  hist : ops = pre ++ mid
  start : ∃ w τ f mid', run env w₀ pre = some w ∧ w.lastTime = t ∧ mid = .update τ f :: mid'
  rest : ∀ a τ f b, mid = a ++ .update τ f :: b → ∃ w I, run env w₀ (pre ++ a ++ [.update τ f]) = some w ∧
    w.isl i = some I ∧ w.slI i = false ∧ ∀ n ∈ I.nodes, f n = false ∧ w.nosleep n = false

/-- The parts of `update`. -/
theorem update_parts (env : Env T) {time : T} {fast : Nat → Bool} {w w' : W T}
    (h : update env time fast w = some w') :
    ∃ w1 w2, Tm w w1 ∧ sleepAll env fast w1 = some w2 ∧ w' = { w2 with lastTime := time } := by
  unfold update at h
  obtain ⟨a, h1, h⟩ := Option.bind_eq_some_iff.1 h
  obtain ⟨b, h2, h⟩ := Option.bind_eq_some_iff.1 h
  obtain ⟨c, h3, h⟩ := Option.bind_eq_some_iff.1 h
  obtain ⟨d, h4, h5⟩ := Option.map_eq_some_iff.1 h
  exact ⟨c, d, (wakeAll_tm h1).trans ((initNew_tm env h2).trans (split_tm env h3)), h4, h5.symm⟩

theorem Rested.snoc {env : Env T} {w₀ : W T} {ops : List (Op T)} {i : Nat} {t : T} {pre mid : List (Op T)}
    (R : Rested env w₀ ops i t pre mid) {op : Op T} (h : ∀ τ f, op ≠ .update τ f) :
    Rested env w₀ (ops ++ [op]) i t pre (mid ++ [op]) := by
  obtain ⟨h1, ⟨w, τ, f, mid', h2, h3, h4⟩, h5⟩ := R
  refine ⟨by rw [h1]; simp, ⟨w, τ, f, mid' ++ [op], h2, h3, by rw [h4]; simp⟩, ?_⟩
  intro a τ' f' b hab
  rcases List.eq_nil_or_concat b with rfl | ⟨b', z, rfl⟩
  · have := (List.append_inj' hab rfl).2
    simp at this
    exact absurd this (h _ _)
  · have hab' : mid ++ [op] = (a ++ .update τ' f' :: b') ++ [z] := by rw [hab]; simp
    exact h5 a τ' f' b' (List.append_inj' hab' rfl).1

/-- What holds of the timers at all times. -/
def Stamps (env : Env T) (w₀ : W T) (ops : List (Op T)) (w : W T) : Prop :=
  ∀ i t, w.stamp i = some t → i < w.next ∧ (w.isl i).isSome = true ∧ w.slI i = false ∧
    ∃ pre mid, Rested env w₀ ops i t pre mid

theorem stamps (env : Env T) (w₀ : W T) (h0 : ∀ i, w₀.stamp i = none) (ops : List (Op T)) :
    ∀ w, run env w₀ ops = some w → .sleepNow ∉ ops → Stamps env w₀ ops w := by
  induction ops using List.reverseRecOn with
  | nil =>
    intro w h _ i t ht
    simp [run] at h; subst h
    rw [h0] at ht; cases ht
  | append_singleton ops op ih =>
    intro w' h hns
    simp only [List.mem_append, List.mem_singleton, not_or] at hns
    obtain ⟨w, hw, hstep⟩ := run_snoc env h
    have S := ih w hw hns.1
    by_cases hup : ∃ τ f, op = .update τ f
    · obtain ⟨τ, f, rfl⟩ := hup
      simp only [step] at hstep
      obtain ⟨w1, w2, hT, hsl, hw'⟩ := update_parts env hstep
      obtain ⟨c1, c2, c3, c4, c5, c6', c6⟩ := sleepAll_frame env f hsl
      have S1 : ∀ i t, w1.stamp i = some t → w.stamp i = some t ∧ i < w1.next ∧
          (w1.isl i).isSome = true ∧ w1.slI i = false := by
        intro i t ht
        rcases hT.stamp i with h | ⟨h, h'⟩
        · rw [h] at ht; cases ht
        · rw [h] at ht
          obtain ⟨s1, s2, s3, _⟩ := S i t ht
          refine ⟨ht, lt_of_lt_of_le s1 hT.next, h' s2, ?_⟩
          cases hs : w1.slI i with
          | false => rfl
          | true => rw [(hT.sleep i hs).1] at s3; cases s3
      intro i t ht
      have e_stamp : w'.stamp = w2.stamp := by rw [hw']
      have e_next : w'.next = w1.next := by rw [hw']; exact c2
      have e_isl : w'.isl = w1.isl := by rw [hw']; exact c1
      have e_slI : w'.slI = w2.slI := by rw [hw']
      have e_ns : w'.nosleep = w1.nosleep := by rw [hw']; exact c3
      rw [e_stamp] at ht
      -- the island was awake when the timers were processed
      have hfin : ∃ I, w1.isl i = some I ∧ couldSleep w1 f I = true ∧ w2.slI i = false ∧
          (t = w1.lastTime ∧ w1.stamp i = none ∨ w1.stamp i = some t) ∧ i < w1.next := by
        rcases c6 i t ht with ⟨h, h'⟩ | ⟨h, h'⟩ | ⟨I, a, b, c, d⟩
        · obtain ⟨_, s1, s2, _⟩ := S1 i t h'
          rcases h with h | h
          · omega
          · rw [h] at s2; cases s2
        · obtain ⟨_, _, _, s3⟩ := S1 i t h'
          rw [h] at s3; cases s3
        · refine ⟨I, a, b, c, d, ?_⟩
          by_contra hc
          rw [c6' i (by omega)] at ht
          obtain ⟨_, s1, _⟩ := S1 i t ht
          omega
      obtain ⟨I, f1, f2, f3, f4, f5⟩ := hfin
      have hslow : ∀ n ∈ I.nodes, f n = false ∧ w'.nosleep n = false := by
        intro n hn
        rw [e_ns]
        have := (List.all_eq_true.1 f2) n hn
        simp at this
        exact ⟨this.2, this.1⟩
      refine ⟨by rw [e_next]; exact f5, by rw [e_isl, f1]; rfl, by rw [e_slI]; exact f3, ?_⟩
      rcases f4 with ⟨rfl, _⟩ | f4
      · refine ⟨ops, [.update τ f], rfl, ⟨w, τ, f, [], hw, hT.last.symm, rfl⟩, ?_⟩
        intro a τ' f' b hab
        have ha : a = [] := by
          cases a with
          | nil => rfl
          | cons z zs => simp at hab
        subst ha
        simp only [List.nil_append, List.cons.injEq, Op.update.injEq] at hab
        obtain ⟨⟨rfl, rfl⟩, -⟩ := hab
        exact ⟨w', I, by simpa using h, by rw [e_isl]; exact f1, by rw [e_slI]; exact f3, hslow⟩
      · obtain ⟨_, _, _, pre, mid, hist, ⟨w0, τ0, f0, mid', g1, g2, g3⟩, rest⟩ := S i t (S1 i t f4).1
        refine ⟨pre, mid ++ [.update τ f], by rw [hist]; simp,
          ⟨w0, τ0, f0, mid' ++ [.update τ f], g1, g2, by rw [g3]; simp⟩, ?_⟩
        intro a τ' f' b hab
        rcases List.eq_nil_or_concat b with rfl | ⟨b', z, rfl⟩
        · obtain ⟨h1, h2⟩ := List.append_inj' hab rfl
          simp only [List.cons.injEq, Op.update.injEq, and_true] at h2
          obtain ⟨rfl, rfl⟩ := h2
          subst h1
          exact ⟨w', I, by rw [← hist]; exact h, by rw [e_isl]; exact f1, by rw [e_slI]; exact f3, hslow⟩
        · have hab' : mid ++ [.update τ f] = (a ++ .update τ' f' :: b') ++ [z] := by rw [hab]; simp
          exact rest a τ' f' b' (List.append_inj' hab' rfl).1
    · push_neg at hup
      have hT := step_tm env hstep hup (Ne.symm hns.2)
      intro i t ht
      rcases hT.stamp i with h | ⟨h, h'⟩
      · rw [h] at ht; cases ht
      · rw [h] at ht
        obtain ⟨s1, s2, s3, pre, mid, s4⟩ := S i t ht
        refine ⟨lt_of_lt_of_le s1 hT.next, h' s2, ?_, pre, mid ++ [op], s4.snoc hup⟩
        cases hs : w'.slI i with
        | false => rfl
        | true => rw [(hT.sleep i hs).1] at s3; cases s3

end

end Edyn.Islands
