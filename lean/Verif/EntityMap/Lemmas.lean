import Verif.EntityMap.Spec

namespace Edyn.EntityMap

/-- Simulation relation. -/
structure Rel (m : EMap) (s : Spec.Pairs) : Prop where
  wf : m.map.WF
  wfL : m.mapLocal.WF
  fwd : ∀ r l, m.map.get? r = some l ↔ s r l
  bwd : ∀ r l, m.mapLocal.get? l = some r ↔ s r l

theorem rel_init : Rel init Spec.empty :=
  ⟨AMap.wf_empty, AMap.wf_empty, by simp [init, Spec.empty], by simp [init, Spec.empty]⟩

theorem Rel.fwd_unique {m s} (h : Rel m s) {r l l'} (h1 : s r l) (h2 : s r l') : l = l' := by
  have a := (h.fwd r l).2 h1
  have b := (h.fwd r l').2 h2
  simp_all

theorem Rel.bwd_unique {m s} (h : Rel m s) {r r' l} (h1 : s r l) (h2 : s r' l) : r = r' := by
  have a := (h.bwd r l).2 h1
  have b := (h.bwd r' l).2 h2
  simp_all

theorem not_contains {m : AMap Entity Entity} {k} : m.contains k = false ↔ ∀ v, m.get? k ≠ some v := by
  rw [AMap.contains]
  cases m.get? k <;> simp

theorem rel_insert {m s} (h : Rel m s) (r l : Entity) (ha : Spec.allowed s (.insert r l)) :
    ∃ m', insert m r l = some m' ∧ Rel m' (Spec.step s (.insert r l)) := by
  have h1 : m.map.contains r = false := not_contains.2 fun v hv => ha.1 v ((h.fwd _ _).1 hv)
  have h2 : m.mapLocal.contains l = false := not_contains.2 fun v hv => ha.2 v ((h.bwd _ _).1 hv)
  refine ⟨_, by simp only [insert, h1, h2]; rfl, AMap.wf_set h.wf _ _, AMap.wf_set h.wfL _ _, ?_, ?_⟩
  · intro a b
    simp only [AMap.get?_set, Spec.step]
    by_cases har : a = r
    · subst har
      simp only [if_true, Option.some.injEq, true_and]
      constructor
      · intro e; exact Or.inl e.symm
      · rintro (e | e)
        · exact e.symm
        · exact absurd e (ha.1 b)
    · simp [har, h.fwd]
  · intro a b
    simp only [AMap.get?_set, Spec.step]
    by_cases hbl : b = l
    · subst hbl
      simp only [if_true, Option.some.injEq, and_true]
      constructor
      · intro e; exact Or.inl e.symm
      · rintro (e | e)
        · exact e.symm
        · exact absurd e (ha.2 a)
    · simp [hbl, h.bwd]

/-- Erasing a mapped pair from both maps. -/
theorem rel_erasePair {m s} (h : Rel m s) {r l} (hs : s r l) :
    Rel ⟨m.map.erase r, m.mapLocal.erase l⟩ (fun a b => s a b ∧ ¬ (a = r ∧ b = l)) := by
  refine ⟨AMap.wf_erase h.wf _, AMap.wf_erase h.wfL _, ?_, ?_⟩
  · intro a b
    simp only [AMap.get?_erase]
    by_cases e : a = r
    · subst e
      simp only [if_true, true_and]
      constructor
      · simp
      · rintro ⟨h1, h2⟩; exact absurd (h.fwd_unique h1 hs) h2
    · simp [e, h.fwd]
  · intro a b
    simp only [AMap.get?_erase]
    by_cases e : b = l
    · subst e
      simp only [if_true, and_true]
      constructor
      · simp
      · rintro ⟨h1, h2⟩; exact absurd (h.bwd_unique h1 hs) h2
    · simp [e, h.bwd]

theorem Rel.congr {m s s'} (h : Rel m s) (hs : ∀ a b, s a b ↔ s' a b) : Rel m s' :=
  ⟨h.wf, h.wfL, fun r l => (h.fwd r l).trans (hs r l), fun r l => (h.bwd r l).trans (hs r l)⟩

theorem rel_erase {m s} (h : Rel m s) (r : Entity) (ha : Spec.allowed s (.erase r)) :
    ∃ m', erase m r = some m' ∧ Rel m' (Spec.step s (.erase r)) := by
  obtain ⟨l, hl⟩ := ha
  have hg := (h.fwd r l).2 hl
  refine ⟨_, by simp only [erase, hg], (rel_erasePair h hl).congr ?_⟩
  intro a b
  simp only [Spec.step]
  constructor
  · rintro ⟨h1, h2⟩
    refine ⟨h1, ?_⟩
    rintro rfl
    exact h2 ⟨rfl, h.fwd_unique h1 hl⟩
  · rintro ⟨h1, h2⟩
    exact ⟨h1, fun e => h2 e.1⟩

theorem rel_eraseLocal {m s} (h : Rel m s) (l : Entity) (ha : Spec.allowed s (.eraseLocal l)) :
    ∃ m', eraseLocal m l = some m' ∧ Rel m' (Spec.step s (.eraseLocal l)) := by
  obtain ⟨r, hl⟩ := ha
  have hg := (h.bwd r l).2 hl
  refine ⟨_, by simp only [eraseLocal, hg], (rel_erasePair h hl).congr ?_⟩
  intro a b
  simp only [Spec.step]
  constructor
  · rintro ⟨h1, h2⟩
    refine ⟨h1, ?_⟩
    rintro rfl
    exact h2 ⟨h.bwd_unique h1 hl, rfl⟩
  · rintro ⟨h1, h2⟩
    exact ⟨h1, fun e => h2 e.2⟩

/-- The loop of `erase_if` after visiting the entries `es`. -/
theorem rel_eraseIf_loop (p : Entity → Entity → Bool) (es : List (Entity × Entity)) :
    ∀ {m s}, Rel m s → (es.map (·.1)).Nodup → (∀ e ∈ es, s e.1 e.2) →
      Rel (es.foldl (fun acc e =>
        if p e.1 e.2 then ⟨acc.map.erase e.1, acc.mapLocal.erase e.2⟩ else acc) m)
        (fun a b => s a b ∧ ¬ ((a, b) ∈ es ∧ p a b = true)) := by
  induction es with
  | nil => intro m s h _ _; exact h.congr (by simp)
  | cons e es ih =>
    intro m s h hn hmem
    simp only [List.map_cons, List.nodup_cons] at hn
    obtain ⟨hn1, hn2⟩ := hn
    simp only [List.foldl_cons]
    have he : s e.1 e.2 := hmem e (by simp)
    by_cases hp : p e.1 e.2 = true
    · rw [if_pos hp]
      have hrel := rel_erasePair h he
      have := ih hrel hn2 (by
        intro e' he'
        refine ⟨hmem e' (List.mem_cons_of_mem _ he'), ?_⟩
        rintro ⟨h1, -⟩
        exact hn1 (List.mem_map.2 ⟨e', he', h1⟩))
      refine this.congr ?_
      intro a b
      constructor
      · rintro ⟨⟨h1, h2⟩, h3⟩
        refine ⟨h1, ?_⟩
        rintro ⟨h4, h5⟩
        rcases List.mem_cons.1 h4 with h4 | h4
        · exact h2 ⟨by rw [← h4], by rw [← h4]⟩
        · exact h3 ⟨h4, h5⟩
      · rintro ⟨h1, h2⟩
        refine ⟨⟨h1, ?_⟩, fun h3 => h2 ⟨List.mem_cons_of_mem _ h3.1, h3.2⟩⟩
        rintro ⟨rfl, rfl⟩
        exact h2 ⟨by simp, hp⟩
    · rw [if_neg hp]
      refine (ih h hn2 (fun e' he' => hmem e' (List.mem_cons_of_mem _ he'))).congr ?_
      intro a b
      constructor
      · rintro ⟨h1, h2⟩
        refine ⟨h1, ?_⟩
        rintro ⟨h4, h5⟩
        rcases List.mem_cons.1 h4 with h4 | h4
        · rw [← h4] at hp; exact hp h5
        · exact h2 ⟨h4, h5⟩
      · rintro ⟨h1, h2⟩
        exact ⟨h1, fun h3 => h2 ⟨List.mem_cons_of_mem _ h3.1, h3.2⟩⟩

theorem rel_eraseIf {m s} (h : Rel m s) (p : Entity → Entity → Bool) :
    Rel (eraseIf m p) (Spec.step s (.eraseIf p)) := by
  have hmem : ∀ e : Entity × Entity, e ∈ m.map.entries ↔ s e.1 e.2 := by
    intro e
    rw [← h.fwd]
    exact AMap.mem_iff_get? h.wf
  refine (rel_eraseIf_loop p m.map.entries h h.wf (fun e he => (hmem e).1 he)).congr ?_
  intro a b
  simp only [Spec.step]
  constructor
  · rintro ⟨h1, h2⟩
    refine ⟨h1, ?_⟩
    cases hp : p a b
    · rfl
    · exact absurd ⟨(hmem (a, b)).2 h1, hp⟩ h2
  · rintro ⟨h1, h2⟩
    exact ⟨h1, fun h3 => by simp [h2] at h3⟩

theorem rel_step {m s} (h : Rel m s) (o : Op) (ha : Spec.allowed s o) :
    ∃ m', step m o = some m' ∧ Rel m' (Spec.step s o) := by
  cases o with
  | insert r l => exact rel_insert h r l ha
  | erase r => exact rel_erase h r ha
  | eraseLocal l => exact rel_eraseLocal h l ha
  | eraseIf p => exact ⟨_, rfl, rel_eraseIf h p⟩
  | swap => exact ⟨_, rfl, h.wfL, h.wf, fun r l => h.bwd l r, fun r l => h.fwd l r⟩
  | clear => exact ⟨_, rfl, rel_init⟩

theorem step_none {m s} (h : Rel m s) (o : Op) (ha : ¬ Spec.allowed s o) : step m o = none := by
  cases o with
  | insert r l =>
    simp only [step, insert]
    by_cases h1 : m.map.contains r = true
    · simp [h1]
    · by_cases h2 : m.mapLocal.contains l = true
      · simp [h2]
      · exfalso
        apply ha
        simp only [Bool.not_eq_true] at h1 h2
        exact ⟨fun b hb => not_contains.1 h1 b ((h.fwd _ _).2 hb),
          fun a hb => not_contains.1 h2 a ((h.bwd _ _).2 hb)⟩
  | erase r =>
    simp only [step, erase]
    cases hg : m.map.get? r with
    | none => rfl
    | some l => exact absurd ⟨l, (h.fwd _ _).1 hg⟩ ha
  | eraseLocal l =>
    simp only [step, eraseLocal]
    cases hg : m.mapLocal.get? l with
    | none => rfl
    | some r => exact absurd ⟨r, (h.bwd _ _).1 hg⟩ ha
  | eraseIf p => exact absurd trivial ha
  | swap => exact absurd trivial ha
  | clear => exact absurd trivial ha

theorem rel_run (os : List Op) : ∀ {m s}, Rel m s → Spec.allAllowed s os →
    ∃ m', run m os = some m' ∧ Rel m' (Spec.run s os) := by
  induction os with
  | nil => intro m s h _; exact ⟨m, rfl, h⟩
  | cons o os ih =>
    intro m s h ha
    obtain ⟨m1, h1, r1⟩ := rel_step h o ha.1
    obtain ⟨m2, h2, r2⟩ := ih r1 ha.2
    exact ⟨m2, by simp [run, h1, h2], r2⟩

theorem run_some_allowed (os : List Op) : ∀ {m s m'}, Rel m s → run m os = some m' →
    Spec.allAllowed s os := by
  induction os with
  | nil => intros; trivial
  | cons o os ih =>
    intro m s m' h hr
    by_cases ha : Spec.allowed s o
    · obtain ⟨m1, h1, r1⟩ := rel_step h o ha
      simp only [run, h1, Option.bind_some] at hr
      exact ⟨ha, ih r1 hr⟩
    · simp [run, step_none h o ha] at hr

end Edyn.EntityMap
