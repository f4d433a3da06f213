import Verif.Mesh.Cache

/-!
# The page cache keeps its order, evicts the right page and respects its budget
-/

namespace Edyn.Mesh.Cache

/-! ## Pages -/

theorem hasMesh_iff (c : Cache) (i : Nat) : hasMesh c.pages i = true ↔ Loaded c i := by
  unfold hasMesh Loaded
  cases h : c.pages[i]? with
  | none => simp
  | some p =>
    obtain ⟨v, m⟩ := p
    cases m <;> simp

theorem setMesh_length (ps : List Page) (i : Nat) (m : Option Int) :
    (setMesh ps i m).length = ps.length := by simp [setMesh]

theorem setMesh_getElem? (ps : List Page) (i : Nat) (m : Option Int) (j : Nat) :
    (setMesh ps i m)[j]? = if i = j then ps[j]?.map (fun p => { p with mesh := m }) else ps[j]? := by
  unfold setMesh
  rw [List.getElem?_modify]
  by_cases h : i = j <;> simp [h]

theorem vertsOf_setMesh (ps : List Page) (i : Nat) (m : Option Int) (j : Nat) :
    vertsOf (setMesh ps i m) j = vertsOf ps j := by
  unfold vertsOf
  rw [setMesh_getElem?]
  by_cases h : i = j
  · rw [if_pos h]; cases ps[j]? <;> rfl
  · rw [if_neg h]

theorem hasMesh_setMesh (ps : List Page) (i : Nat) (m : Option Int) (j : Nat) :
    hasMesh (setMesh ps i m) j = if i = j then (decide (j < ps.length) && m.isSome) else hasMesh ps j := by
  unfold hasMesh
  rw [setMesh_getElem?]
  by_cases h : i = j
  · rw [if_pos h, if_pos h]
    by_cases hl : j < ps.length
    · simp [List.getElem?_eq_getElem hl, hl]
    · simp [List.getElem?_eq_none (by omega : ps.length ≤ j), hl]
  · rw [if_neg h, if_neg h]

theorem hasMesh_lt {ps : List Page} {i : Nat} (h : hasMesh ps i = true) : i < ps.length := by
  unfold hasMesh at h
  by_contra hn
  rw [List.getElem?_eq_none (by omega)] at h
  simp at h

theorem numVertices_foldl (ps : List Page) (n : Nat) :
    ps.foldl addPage n = n + ((ps.filter (fun p => p.mesh.isSome)).map Page.verts).sum := by
  induction ps generalizing n with
  | nil => simp
  | cons p ps ih =>
    obtain ⟨v, m⟩ := p
    simp only [List.foldl_cons, addPage]
    rw [ih]
    cases m with
    | none => simp
    | some t => simp; omega

theorem numVertices_eq (c : Cache) : numVertices c.pages = InMemory c := by
  unfold numVertices InMemory
  rw [numVertices_foldl]; omega

theorem numVertices_cons (v : Nat) (m : Option Int) (ps : List Page) :
    numVertices (⟨v, m⟩ :: ps) = (if m.isSome = true then v else 0) + numVertices ps := by
  unfold numVertices
  rw [numVertices_foldl, numVertices_foldl]
  cases m <;> simp

theorem numVertices_setMesh_some (ps : List Page) (i : Nat) (t : Int) (h : hasMesh ps i = false) :
    numVertices (setMesh ps i (some t)) = numVertices ps + (if i < ps.length then vertsOf ps i else 0) := by
  induction ps generalizing i with
  | nil => simp [setMesh]
  | cons p ps ih =>
    obtain ⟨v, m⟩ := p
    cases i with
    | zero =>
      have hm : m = none := by
        simpa [hasMesh] using h
      subst hm
      simp [setMesh, numVertices_cons, vertsOf]; omega
    | succ i =>
      have h' : hasMesh ps i = false := by simpa [hasMesh] using h
      have := ih i h'
      have e : setMesh (⟨v, m⟩ :: ps) (i + 1) (some t) = ⟨v, m⟩ :: setMesh ps i (some t) := by
        simp [setMesh]
      have e2 : vertsOf (⟨v, m⟩ :: ps) (i + 1) = vertsOf ps i := by simp [vertsOf]
      rw [e, e2, numVertices_cons, numVertices_cons, this]
      simp; omega

theorem numVertices_setMesh_none (ps : List Page) (i : Nat) (h : hasMesh ps i = true) :
    numVertices (setMesh ps i none) + vertsOf ps i = numVertices ps := by
  induction ps generalizing i with
  | nil => simp [hasMesh] at h
  | cons p ps ih =>
    obtain ⟨v, m⟩ := p
    cases i with
    | zero =>
      have hm : m.isSome = true := by simpa [hasMesh] using h
      simp [setMesh, numVertices_cons, vertsOf, hm]; omega
    | succ i =>
      have h' : hasMesh ps i = true := by simpa [hasMesh] using h
      have := ih i h'
      have e : setMesh (⟨v, m⟩ :: ps) (i + 1) none = ⟨v, m⟩ :: setMesh ps i none := by
        simp [setMesh]
      have e2 : vertsOf (⟨v, m⟩ :: ps) (i + 1) = vertsOf ps i := by simp [vertsOf]
      rw [e, e2, numVertices_cons, numVertices_cons]
      omega

theorem numVertices_pos {ps : List Page} (h : 0 < numVertices ps) : ∃ i, hasMesh ps i = true := by
  induction ps with
  | nil => simp [numVertices] at h
  | cons p ps ih =>
    obtain ⟨v, m⟩ := p
    rw [numVertices_cons] at h
    cases m with
    | none =>
      obtain ⟨i, hi⟩ := ih (by simpa using h)
      exact ⟨i + 1, by simpa [hasMesh] using hi⟩
    | some t => exact ⟨0, by simp [hasMesh]⟩

/-! ## Moving to the front -/

theorem markRecent_some {l : List Nat} {i : Nat} (h : i ∈ l) :
    markRecent l i = some (i :: l.erase i) := by
  unfold markRecent
  have hlt := List.idxOf_lt_length_of_mem h
  simp only [List.getElem?_eq_getElem hlt, List.getElem_idxOf]
  rw [List.erase_eq_eraseIdx_of_idxOf rfl, List.eraseIdx_eq_take_drop_succ]

theorem fresher_visit {visits : List Nat} {a b i : Nat} (hb : b ≠ i) (h : Fresher visits a b)
    (ha : a ≠ i) : Fresher (visits ++ [i]) a b := by
  rcases h with ⟨s, t, e, hbt, hab⟩ | ⟨h1, h2, h3⟩
  · left
    exact ⟨s, t ++ [i], by rw [e]; simp, by simp [hbt, hb], hab⟩
  · right
    exact ⟨by simp [h1, ha], by simp [h2, hb], h3⟩

/-! ## The invariant -/

structure Inv (c : Cache) : Prop where
  perm : c.lru.Perm (List.range c.pages.length)
  order : c.lru.Pairwise (Fresher c.visits)
  flags : c.loading.length = c.pages.length
  nodup : (c.room ++ c.inflight).Nodup
  busy : ∀ i, i ∈ c.room ++ c.inflight ↔ c.loading[i]? = some true
  absent : ∀ i, i ∈ c.room ++ c.inflight → hasMesh c.pages i = false
  fits : ∀ i, i ∈ c.room ++ c.inflight → vertsOf c.pages i < c.max

theorem inv_init (pages : List Page) (max : Nat) (t : Int) : Inv (init pages max t) where
  perm := by simp [init]
  order := by
    simp only [init]
    refine List.Pairwise.imp ?_ (List.pairwise_lt_range (n := pages.length))
    intro a b h
    exact Or.inr ⟨by simp, by simp, h⟩
  flags := by simp [init]
  nodup := by simp [init]
  busy := by
    intro i
    simp only [init, List.append_nil, List.not_mem_nil, false_iff]
    intro h
    have := List.mem_of_getElem? h
    simp at this
  absent := by intro i hi; simp [init] at hi
  fits := by intro i hi; simp [init] at hi

theorem inv_unload {c : Cache} (h : Inv c) : Inv (unload c) := by
  unfold unload
  cases hf : c.lru.reverse.find? (fun j => hasMesh c.pages j) with
  | none => exact h
  | some j =>
    exact
      { perm := by simpa [setMesh_length] using h.perm
        order := h.order
        flags := by simpa [setMesh_length] using h.flags
        nodup := h.nodup
        busy := h.busy
        absent := by
          intro i hi
          have := h.absent i hi
          simp only [hasMesh_setMesh]
          split
          · simp
          · exact this
        fits := by intro i hi; simpa [vertsOf_setMesh] using h.fits i hi }

theorem inv_makeRoom {c : Cache} (h : Inv c) (i : Nat) : Inv (makeRoom c i) := by
  unfold makeRoom
  by_cases hi : i ∈ c.room
  · rw [if_pos hi]
    by_cases hv : numVertices c.pages + vertsOf c.pages i > c.max
    · rw [if_pos hv]; exact inv_unload h
    · rw [if_neg hv]
      have hp : (c.room.erase i ++ i :: c.inflight).Perm (c.room ++ c.inflight) := by
        refine (List.perm_middle).trans ?_
        rw [← List.cons_append]
        exact (List.perm_cons_erase hi).symm.append_right _
      exact
        { perm := h.perm, order := h.order, flags := h.flags
          nodup := hp.nodup_iff.mpr h.nodup
          busy := fun k => (hp.mem_iff).trans (h.busy k)
          absent := fun k hk => h.absent k (hp.mem_iff.mp hk)
          fits := fun k hk => h.fits k (hp.mem_iff.mp hk) }
  · rw [if_neg hi]; exact h

theorem inv_enter {c c' : Cache} (h : Inv c) (i : Nat) (e : enter c i = some c') : Inv c' := by
  unfold enter at e
  cases hl : c.loading[i]? with
  | none => rw [hl] at e; simp at e
  | some b =>
    rw [hl] at e
    cases b with
    | true => simp only [Option.some.injEq] at e; subst e; exact h
    | false =>
      simp only at e
      have hlt : i < c.loading.length := (List.getElem?_eq_some_iff.mp hl).1
      by_cases hm : hasMesh c.pages i = true
      · rw [if_pos hm] at e
        simp only [Option.some.injEq] at e
        subst e
        have : c.loading.set i false = c.loading := by
          apply List.ext_getElem?
          intro k
          rw [List.getElem?_set]
          by_cases hk : i = k
          · subst hk; rw [if_pos rfl, if_pos hlt, hl]
          · rw [if_neg hk]
        rw [this]
        exact h
      · rw [if_neg hm] at e
        by_cases hv : vertsOf c.pages i < c.max
        · rw [if_pos hv] at e
          simp only [Option.some.injEq] at e
          subst e
          have hni : i ∉ c.room ++ c.inflight := by
            intro hi
            rw [h.busy, hl] at hi
            simp at hi
          exact
            { perm := h.perm, order := h.order
              flags := by simpa using h.flags
              nodup := by
                simp only [List.cons_append, List.nodup_cons]
                exact ⟨hni, h.nodup⟩
              busy := by
                intro k
                simp only [List.cons_append, List.mem_cons, List.getElem?_set]
                by_cases hk : i = k
                · subst hk; simp [hlt]
                · rw [if_neg hk, ← h.busy]
                  constructor
                  · rintro (rfl | hh)
                    · exact absurd rfl hk
                    · exact hh
                  · exact Or.inr
              absent := by
                intro k hk
                rcases List.mem_cons.mp (List.cons_append ▸ hk) with rfl | hk'
                · simpa using hm
                · exact h.absent k hk'
              fits := by
                intro k hk
                rcases List.mem_cons.mp (List.cons_append ▸ hk) with rfl | hk'
                · exact hv
                · exact h.fits k hk' }
        · rw [if_neg hv] at e; simp at e

theorem inv_assign {c : Cache} (h : Inv c) (i : Nat) : Inv (assign c i) := by
  unfold assign
  by_cases hi : i ∈ c.inflight
  · rw [if_pos hi]
    have hnr : i ∉ c.room := by
      intro hr
      exact (List.nodup_append.mp h.nodup).2.2 i hr i hi rfl
    have hni : i ∉ c.inflight.erase i :=
      ((List.nodup_append.mp h.nodup).2.1).not_mem_erase
    have hsub : ∀ k, k ∈ c.room ++ c.inflight.erase i → k ≠ i ∧ k ∈ c.room ++ c.inflight := by
      intro k hk
      rcases List.mem_append.mp hk with h1 | h1
      · exact ⟨fun e => hnr (e ▸ h1), List.mem_append_left _ h1⟩
      · exact ⟨fun e => hni (e ▸ h1), List.mem_append_right _ (List.mem_of_mem_erase h1)⟩
    exact
      { perm := by simpa [setMesh_length] using h.perm
        order := h.order
        flags := by simpa [setMesh_length] using h.flags
        nodup := by
          refine List.Sublist.nodup ?_ h.nodup
          exact List.Sublist.append_left (List.erase_sublist) _
        busy := by
          intro k
          simp only [List.getElem?_set]
          by_cases hk : i = k
          · subst hk
            constructor
            · intro hh; exact absurd rfl (hsub i hh).1
            · rw [if_pos rfl]; split <;> simp
          · rw [if_neg hk, ← h.busy]
            constructor
            · intro hh; exact (hsub k hh).2
            · intro hh
              rcases List.mem_append.mp hh with h1 | h1
              · exact List.mem_append_left _ h1
              · exact List.mem_append_right _ ((List.mem_erase_of_ne (fun e => hk e.symm)).mpr h1)
        absent := by
          intro k hk
          obtain ⟨h1, h2⟩ := hsub k hk
          simp only [hasMesh_setMesh]
          rw [if_neg (fun e => h1 e.symm)]
          exact h.absent k h2
        fits := by
          intro k hk
          obtain ⟨h1, h2⟩ := hsub k hk
          simpa [vertsOf_setMesh] using h.fits k h2 }
  · rw [if_neg hi]; exact h

theorem inv_use {c c' : Cache} (h : Inv c) (i : Nat) (e : use c i = some c') : Inv c' := by
  unfold use at e
  by_cases hr : i ∈ c.readers
  · rw [if_pos hr] at e
    by_cases hm : hasMesh c.pages i = true
    · rw [if_pos hm] at e
      have hi : i ∈ c.lru := by
        rw [h.perm.mem_iff]
        exact List.mem_range.mpr (hasMesh_lt hm)
      rw [markRecent_some hi] at e
      simp only [Option.some.injEq] at e
      subst e
      have hnd : c.lru.Nodup := h.perm.nodup_iff.mpr List.nodup_range
      exact
        { perm := (List.perm_cons_erase hi).symm.trans h.perm
          order := by
            simp only
            rw [List.pairwise_cons]
            constructor
            · intro b hb
              left
              refine ⟨c.visits, [], rfl, by simp, ?_⟩
              rintro rfl
              exact hnd.not_mem_erase hb
            · have hp := h.order.sublist (List.erase_sublist (a := i) (l := c.lru))
              refine List.Pairwise.imp_of_mem ?_ hp
              intro a b ha hb hab
              exact fresher_visit (fun e => hnd.not_mem_erase (e ▸ hb)) hab
                (fun e => hnd.not_mem_erase (e ▸ ha))
          flags := h.flags, nodup := h.nodup, busy := h.busy, absent := h.absent, fits := h.fits }
    · rw [if_neg hm] at e; simp at e
  · rw [if_neg hr] at e
    simp only [Option.some.injEq] at e
    subst e; exact h

theorem inv_step {c c' : Cache} (h : Inv c) (s : Step) (e : step c s = some c') : Inv c' := by
  cases s with
  | enter i => exact inv_enter h i e
  | makeRoom i => simp only [step, Option.some.injEq] at e; subst e; exact inv_makeRoom h i
  | assign i => simp only [step, Option.some.injEq] at e; subst e; exact inv_assign h i
  | look i =>
    simp only [step, Option.some.injEq] at e
    subst e
    split
    · exact ⟨h.perm, h.order, h.flags, h.nodup, h.busy, h.absent, h.fits⟩
    · exact h
  | use i => exact inv_use h i e
  | clear =>
    simp only [step, Option.some.injEq] at e
    subst e
    refine ⟨by simpa using h.perm, h.order, by simpa using h.flags, h.nodup, h.busy, ?_, ?_⟩
    · intro i hi
      simp only [hasMesh, List.getElem?_map]
      cases c.pages[i]? <;> rfl
    · intro i hi
      have := h.fits i hi
      simp only [vertsOf, List.getElem?_map] at this ⊢
      cases hp : c.pages[i]? <;> simpa [hp] using this
  | setThickness t =>
    simp only [step, Option.some.injEq] at e
    subst e
    refine ⟨by simpa using h.perm, h.order, by simpa using h.flags, h.nodup, h.busy, ?_, ?_⟩
    · intro i hi
      have := h.absent i hi
      simp only [hasMesh, List.getElem?_map] at this ⊢
      cases hp : c.pages[i]? <;> simp_all
    · intro i hi
      have := h.fits i hi
      simp only [vertsOf, List.getElem?_map] at this ⊢
      cases hp : c.pages[i]? <;> simpa [hp] using this

theorem inv_run {l : List Step} {c c' : Cache} (h : Inv c) (e : run c l = some c') : Inv c' := by
  induction l generalizing c with
  | nil => simp only [run, Option.some.injEq] at e; subst e; exact h
  | cons s l ih =>
    simp only [run] at e
    cases hs : step c s with
    | none => rw [hs] at e; simp at e
    | some c1 =>
      rw [hs] at e
      exact ih (inv_step h s hs) (by simpa using e)

theorem run_append (c : Cache) (l m : List Step) :
    run c (l ++ m) = (run c l).bind (fun c' => run c' m) := by
  induction l generalizing c with
  | nil => rfl
  | cons s l ih =>
    simp only [List.cons_append, run]
    cases step c s with
    | none => rfl
    | some c1 => simp [ih]

theorem length_step {c c' : Cache} (s : Step) (e : step c s = some c') :
    c'.pages.length = c.pages.length ∧ c'.max = c.max
      ∧ ∀ i, vertsOf c'.pages i = vertsOf c.pages i := by
  cases s with
  | enter i =>
    simp only [step, enter] at e
    cases hl : c.loading[i]? with
    | none => rw [hl] at e; simp at e
    | some b =>
      rw [hl] at e
      cases b with
      | true => simp only [Option.some.injEq] at e; subst e; simp
      | false =>
        simp only at e
        by_cases hm : hasMesh c.pages i = true
        · rw [if_pos hm] at e; simp only [Option.some.injEq] at e; subst e; simp
        · rw [if_neg hm] at e
          by_cases hv : vertsOf c.pages i < c.max
          · rw [if_pos hv] at e; simp only [Option.some.injEq] at e; subst e; simp
          · rw [if_neg hv] at e; simp at e
  | makeRoom i =>
    simp only [step, makeRoom, Option.some.injEq] at e
    subst e
    split
    · split
      · unfold unload
        cases c.lru.reverse.find? (fun j => hasMesh c.pages j) with
        | none => simp
        | some j => simp [setMesh_length, vertsOf_setMesh]
      · simp
    · simp
  | assign i =>
    simp only [step, assign, Option.some.injEq] at e
    subst e
    split
    · simp [setMesh_length, vertsOf_setMesh]
    · simp
  | look i => simp only [step, Option.some.injEq] at e; subst e; split <;> simp
  | use i =>
    simp only [step, use] at e
    by_cases hr : i ∈ c.readers
    · rw [if_pos hr] at e
      by_cases hm : hasMesh c.pages i = true
      · rw [if_pos hm] at e
        cases hk : markRecent c.lru i with
        | none => rw [hk] at e; simp at e
        | some l => rw [hk] at e; simp only [Option.some.injEq] at e; subst e; simp
      · rw [if_neg hm] at e; simp at e
    · rw [if_neg hr] at e; simp only [Option.some.injEq] at e; subst e; simp
  | clear =>
    simp only [step, Option.some.injEq] at e; subst e
    refine ⟨by simp, rfl, fun i => ?_⟩
    simp only [vertsOf, List.getElem?_map]; cases c.pages[i]? <;> rfl
  | setThickness t =>
    simp only [step, Option.some.injEq] at e; subst e
    refine ⟨by simp, rfl, fun i => ?_⟩
    simp only [vertsOf, List.getElem?_map]; cases c.pages[i]? <;> rfl

/-! ## The theorems -/

/-- **The LRU list.**  However the threads interleave, the list is a permutation of all the pages,
ordered from the most recently to the least recently visited. -/
theorem lru_order (pages : List Page) (max : Nat) (t : Int) (l : List Step) (c : Cache)
    (e : run (init pages max t) l = some c) :
    c.lru.Perm (List.range pages.length) ∧ c.lru.Pairwise (Fresher c.visits) := by
  have hlen : ∀ (l : List Step) (c0 c1 : Cache), run c0 l = some c1 →
      c1.pages.length = c0.pages.length := by
    intro l
    induction l with
    | nil => intro c0 c1 e; simp only [run, Option.some.injEq] at e; subst e; rfl
    | cons s l ih =>
      intro c0 c1 e
      simp only [run] at e
      cases hs : step c0 s with
      | none => rw [hs] at e; simp at e
      | some c2 =>
        rw [hs] at e
        rw [ih c2 c1 (by simpa using e), (length_step s hs).1]
  have h := inv_run (inv_init pages max t) e
  have := h.perm
  rw [hlen l _ _ e] at this
  exact ⟨this, h.order⟩

/-- The order determines the list: "fresher" never holds both ways. -/
theorem fresher_asymm (visits : List Nat) (a b : Nat) (h : Fresher visits a b) :
    ¬ Fresher visits b a := by
  have key : ∀ s t s' t' : List Nat, s ++ a :: t = s' ++ b :: t' → b ∉ t → a ≠ b → a ∉ t' → False := by
    intro s t s' t' e hb hab ha
    rcases List.append_eq_append_iff.mp e with ⟨w, h1, h2⟩ | ⟨w, h1, h2⟩
    · cases w with
      | nil => simp only [List.nil_append, List.cons.injEq] at h2; exact hab h2.1
      | cons x w =>
        simp only [List.cons_append, List.cons.injEq] at h2
        exact hb (h2.2 ▸ by simp)
    · cases w with
      | nil => simp only [List.nil_append, List.cons.injEq] at h2; exact hab h2.1.symm
      | cons x w =>
        simp only [List.cons_append, List.cons.injEq] at h2
        exact ha (h2.2 ▸ by simp)
  rintro h'
  rcases h with ⟨s, t, e, hb, hab⟩ | ⟨h1, h2, h3⟩
  · rcases h' with ⟨s', t', e', ha, _⟩ | ⟨g1, g2, g3⟩
    · exact key s t s' t' (e ▸ e') hb hab ha
    · exact g2 (e ▸ by simp)
  · rcases h' with ⟨s', t', e', ha, _⟩ | ⟨g1, g2, g3⟩
    · exact h2 (e' ▸ by simp)
    · omega

theorem find_last {l : List Nat} {p : Nat → Bool} {j : Nat} (h : l.reverse.find? p = some j) :
    p j = true ∧ ∃ u v, l = u ++ j :: v ∧ ∀ x ∈ v, p x = false := by
  rw [List.find?_eq_some_iff_append] at h
  obtain ⟨hj, a, b, e, ha⟩ := h
  refine ⟨hj, b.reverse, a.reverse, ?_, ?_⟩
  · have := congrArg List.reverse e
    simpa using this
  · intro x hx
    have := ha x (List.mem_reverse.mp hx)
    simpa using this

/-- **Eviction.**  When a thread makes room for page `i` and a page `j` disappears, the budget
would otherwise have been exceeded, every other page in memory was visited more recently than `j`,
and no page but `j` disappears. -/
theorem evicts_least_recent (pages : List Page) (max : Nat) (t : Int) (l : List Step)
    (c c' : Cache) (i j : Nat) (e : run (init pages max t) l = some c)
    (hs : step c (.makeRoom i) = some c') (hj : Loaded c j) (hj' : ¬ Loaded c' j) :
    (∃ v m, c.pages[i]? = some ⟨v, m⟩ ∧ InMemory c + v > max)
      ∧ (∀ k, Loaded c k → k ≠ j → Fresher c.visits k j)
      ∧ ∀ k, k ≠ j → c'.pages[k]? = c.pages[k]? := by
  have hinv := inv_run (inv_init pages max t) e
  have hmax : ∀ (l : List Step) (c0 c1 : Cache), run c0 l = some c1 → c1.max = c0.max := by
    intro l
    induction l with
    | nil => intro c0 c1 e; simp only [run, Option.some.injEq] at e; subst e; rfl
    | cons s l ih =>
      intro c0 c1 e
      simp only [run] at e
      cases hs : step c0 s with
      | none => rw [hs] at e; simp at e
      | some c2 =>
        rw [hs] at e
        rw [ih c2 c1 (by simpa using e), (length_step s hs).2.1]
  have hm : c.max = max := hmax l _ _ e
  simp only [step, Option.some.injEq] at hs
  subst hs
  unfold makeRoom at hj' ⊢
  by_cases hi : i ∈ c.room
  · rw [if_pos hi] at hj' ⊢
    by_cases hv : numVertices c.pages + vertsOf c.pages i > c.max
    · rw [if_pos hv] at hj' ⊢
      unfold unload at hj' ⊢
      cases hf : c.lru.reverse.find? (fun j => hasMesh c.pages j) with
      | none => rw [hf] at hj'; exact absurd hj hj'
      | some j0 =>
        rw [hf] at hj'
        simp only at hj' ⊢
        have hjj : j0 = j := by
          by_contra hne
          apply hj'
          obtain ⟨v, m, hp⟩ := hj
          refine ⟨v, m, ?_⟩
          simp only [setMesh_getElem?]
          rw [if_neg hne, hp]
        subst hjj
        obtain ⟨_, u, v, hl, hall⟩ := find_last hf
        refine ⟨?_, ?_, ?_⟩
        · have hlt : i < c.pages.length := by
            have := (hinv.busy i).mp (List.mem_append_left _ hi)
            have := (List.getElem?_eq_some_iff.mp this).1
            rw [hinv.flags] at this; exact this
          refine ⟨c.pages[i].verts, c.pages[i].mesh, ?_, ?_⟩
          · rw [List.getElem?_eq_getElem hlt]
          · rw [← hm, ← numVertices_eq]
            have : vertsOf c.pages i = c.pages[i].verts := by
              simp [vertsOf, List.getElem?_eq_getElem hlt]
            rw [← this]; exact hv
        · intro k hk hkj
          have hkm := (hasMesh_iff c k).mpr hk
          have hkl : k ∈ c.lru := by
            rw [hinv.perm.mem_iff]; exact List.mem_range.mpr (hasMesh_lt hkm)
          rw [hl] at hkl
          rcases List.mem_append.mp hkl with h1 | h1
          · have ho := hinv.order
            rw [hl, List.pairwise_append] at ho
            exact ho.2.2 k h1 j0 (by simp)
          · rcases List.mem_cons.mp h1 with h2 | h2
            · exact absurd h2 hkj
            · have := hall k h2
              simp only [hkm] at this
              exact absurd this (by simp)
        · intro k hk
          rw [setMesh_getElem?, if_neg (fun e => hk e.symm)]
    · rw [if_neg hv] at hj'
      exact absurd hj hj'
  · rw [if_neg hi] at hj'; exact absurd hj hj'

/-- How many pages are in memory. -/
def count (ps : List Page) : Nat := (ps.filter (fun p => p.mesh.isSome)).length

theorem count_setMesh_none (ps : List Page) (i : Nat) (h : hasMesh ps i = true) :
    count (setMesh ps i none) + 1 = count ps := by
  induction ps generalizing i with
  | nil => simp [hasMesh] at h
  | cons p ps ih =>
    obtain ⟨v, m⟩ := p
    cases i with
    | zero =>
      have hm : m.isSome = true := by simpa [hasMesh] using h
      simp [setMesh, count, hm]
    | succ i =>
      have h' : hasMesh ps i = true := by simpa [hasMesh] using h
      have := ih i h'
      have e : setMesh (⟨v, m⟩ :: ps) (i + 1) none = ⟨v, m⟩ :: setMesh ps i none := by simp [setMesh]
      rw [e]
      cases m <;> simp [count] at this ⊢ <;> omega

theorem makeRoom_spin (n : Nat) : ∀ (c : Cache) (i : Nat), Inv c → i ∈ c.room → count c.pages < n →
    ∃ c', run c (List.replicate n (.makeRoom i)) = some c' ∧ i ∈ c'.inflight := by
  have stay : ∀ (n : Nat) (c : Cache) (i : Nat), i ∉ c.room → i ∈ c.inflight →
      run c (List.replicate n (.makeRoom i)) = some c := by
    intro n
    induction n with
    | zero => intros; rfl
    | succ n ih =>
      intro c i h1 h2
      simp only [List.replicate_succ, run, step, makeRoom]
      rw [if_neg h1]
      exact ih c i h1 h2
  induction n with
  | zero => intro c i _ _ h; omega
  | succ n ih =>
    intro c i hinv hi hc
    simp only [List.replicate_succ, run, step, Option.bind_some]
    by_cases hv : numVertices c.pages + vertsOf c.pages i > c.max
    · have hmr : makeRoom c i = unload c := by unfold makeRoom; rw [if_pos hi, if_pos hv]
      rw [hmr]
      have hfit := hinv.fits i (List.mem_append_left _ hi)
      obtain ⟨k, hk⟩ := numVertices_pos (ps := c.pages) (by omega)
      cases hf : c.lru.reverse.find? (fun j => hasMesh c.pages j) with
      | none =>
        exfalso
        rw [List.find?_eq_none] at hf
        refine hf k ?_ hk
        rw [List.mem_reverse, hinv.perm.mem_iff]
        exact List.mem_range.mpr (hasMesh_lt hk)
      | some j =>
        have hj := (find_last hf).1
        have hu : (unload c).pages = setMesh c.pages j none ∧ (unload c).room = c.room := by
          unfold unload; rw [hf]; exact ⟨rfl, rfl⟩
        refine ih (unload c) i (inv_unload hinv) (hu.2 ▸ hi) ?_
        rw [hu.1]
        have := count_setMesh_none c.pages j hj
        omega
    · have hmr : makeRoom c i = { c with room := c.room.erase i, inflight := i :: c.inflight } := by
        unfold makeRoom; rw [if_pos hi, if_neg hv]
      rw [hmr]
      have hnd : i ∉ c.room.erase i :=
        ((List.nodup_append.mp hinv.nodup).1).not_mem_erase
      exact ⟨_, stay n _ i hnd (by simp), by simp⟩

/-- **Making room comes to an end.**  A thread that is left alone finishes its eviction loop after
at most one turn per page and then asks the loader for its page. -/
theorem making_room_ends (pages : List Page) (max : Nat) (t : Int) (l : List Step) (c : Cache)
    (i : Nat) (e : run (init pages max t) l = some c) (hi : i ∈ c.room) :
    ∃ c', run c (List.replicate (pages.length + 1) (.makeRoom i)) = some c' ∧ i ∈ c'.inflight := by
  have hinv := inv_run (inv_init pages max t) e
  refine makeRoom_spin _ c i hinv hi ?_
  have hl : c.pages.length = pages.length := by
    have := (lru_order pages max t l c e).1.length_eq
    have h2 := hinv.perm.length_eq
    simp only [List.length_range] at this h2
    omega
  have : count c.pages ≤ c.pages.length := List.length_filter_le _ _
  omega

/-- **A page is asked for at most once.**  The loader is only asked for pages that are not in
memory, and never for a page it already is to deliver. -/
theorem requested_once (pages : List Page) (max : Nat) (t : Int) (l : List Step) (c c' : Cache)
    (s : Step) (i : Nat) (e : run (init pages max t) l = some c) (hs : step c s = some c')
    (hgrow : c'.inflight.count i > c.inflight.count i) :
    ¬ Loaded c i ∧ i ∉ c.inflight ∧ c'.inflight.count i = 1 := by
  have hinv := inv_run (inv_init pages max t) e
  have hinv' := inv_step hinv s hs
  have h1 : c'.inflight.count i ≤ 1 :=
    List.nodup_iff_count_le_one.mp (List.nodup_append.mp hinv'.nodup).2.1 i
  refine ⟨?_, ?_, by omega⟩
  · have hmem : i ∈ c'.inflight := List.count_pos_iff.mp (by omega)
    cases s with
    | makeRoom k =>
      simp only [step, Option.some.injEq] at hs
      subst hs
      unfold makeRoom at hgrow hmem
      by_cases hi : k ∈ c.room
      · rw [if_pos hi] at hgrow hmem
        by_cases hv : numVertices c.pages + vertsOf c.pages k > c.max
        · rw [if_pos hv] at hgrow
          exfalso
          unfold unload at hgrow
          cases hf : c.lru.reverse.find? (fun j => hasMesh c.pages j) with
          | none => rw [hf] at hgrow; exact absurd hgrow (by simp)
          | some j => rw [hf] at hgrow; exact absurd hgrow (by simp)
        · rw [if_neg hv] at hgrow
          simp only [List.count_cons] at hgrow
          have hk : k = i := by
            by_contra hne
            simp [hne] at hgrow
          subst hk
          intro hL
          have := hinv.absent k (List.mem_append_left _ hi)
          rw [(hasMesh_iff c k).mpr hL] at this
          exact absurd this (by simp)
      · rw [if_neg hi] at hgrow; omega
    | enter k =>
      exfalso
      simp only [step, enter] at hs
      cases hl : c.loading[k]? with
      | none => rw [hl] at hs; simp at hs
      | some b =>
        rw [hl] at hs
        cases b with
        | true => simp only [Option.some.injEq] at hs; subst hs; omega
        | false =>
          simp only at hs
          by_cases hm : hasMesh c.pages k = true
          · rw [if_pos hm] at hs; simp only [Option.some.injEq] at hs; subst hs; simp at hgrow
          · rw [if_neg hm] at hs
            by_cases hv : vertsOf c.pages k < c.max
            · rw [if_pos hv] at hs; simp only [Option.some.injEq] at hs; subst hs; simp at hgrow
            · rw [if_neg hv] at hs; simp at hs
    | assign k =>
      exfalso
      simp only [step, Option.some.injEq] at hs
      subst hs
      unfold assign at hgrow
      split at hgrow
      · have := (List.erase_sublist (a := k) (l := c.inflight)).count_le i
        simp only at hgrow
        omega
      · omega
    | look k =>
      exfalso
      simp only [step, Option.some.injEq] at hs
      subst hs
      split at hgrow <;> simp at hgrow
    | use k =>
      exfalso
      simp only [step, use] at hs
      by_cases hr : k ∈ c.readers
      · rw [if_pos hr] at hs
        by_cases hm : hasMesh c.pages k = true
        · rw [if_pos hm] at hs
          cases hk : markRecent c.lru k with
          | none => rw [hk] at hs; simp at hs
          | some l => rw [hk] at hs; simp only [Option.some.injEq] at hs; subst hs; simp at hgrow
        · rw [if_neg hm] at hs; simp at hs
      · rw [if_neg hr] at hs; simp only [Option.some.injEq] at hs; subst hs; omega
    | clear =>
      exfalso
      simp only [step, Option.some.injEq] at hs; subst hs; simp at hgrow
    | setThickness t =>
      exfalso
      simp only [step, Option.some.injEq] at hs; subst hs; simp at hgrow
  · intro hi
    have := List.count_pos_iff.mpr hi
    omega

/-- **A missing page can always be asked for.**  When a page is neither in memory nor on its way,
looking at it starts a load (no flag stays behind). -/
theorem missing_page_is_requested (pages : List Page) (max : Nat) (t : Int) (l : List Step)
    (c : Cache) (i v : Nat) (e : run (init pages max t) l = some c)
    (hp : c.pages[i]? = some ⟨v, none⟩) (hv : v < c.max) (hr : i ∉ c.room) (hf : i ∉ c.inflight) :
    ∃ c', step c (.enter i) = some c' ∧ i ∈ c'.room := by
  have hinv := inv_run (inv_init pages max t) e
  have hlt : i < c.loading.length := by
    rw [hinv.flags]; exact (List.getElem?_eq_some_iff.mp hp).1
  have hb : c.loading[i]? = some false := by
    have hn : ¬ (c.loading[i]? = some true) := by
      rw [← hinv.busy]
      intro h
      rcases List.mem_append.mp h with h | h
      · exact hr h
      · exact hf h
    rw [List.getElem?_eq_getElem hlt] at hn ⊢
    cases hx : c.loading[i] <;> simp_all
  have hm : ¬ hasMesh c.pages i = true := by simp [hasMesh, hp]
  have hvv : vertsOf c.pages i < c.max := by simpa [vertsOf, hp] using hv
  refine ⟨{ c with loading := c.loading.set i true, room := i :: c.room }, ?_, by simp⟩
  simp only [step, enter, hb]
  rw [if_neg hm, if_pos hvv]

/-! ## The memory budget -/

/-- A schedule in which the loader never has more than `k` pages to deliver. -/
def AtMost (k : Nat) : Cache → List Step → Prop
  | _, [] => True
  | c, s :: l => ∀ c', step c s = some c' → c'.inflight.length ≤ k ∧ AtMost k c' l

instance AtMost.dec (k : Nat) : (c : Cache) → (l : List Step) → Decidable (AtMost k c l)
  | _, [] => .isTrue trivial
  | c, s :: l =>
    match h : step c s with
    | none => .isTrue (by intro c' e; rw [h] at e; cases e)
    | some c1 =>
      have := AtMost.dec k c1 l
      if hh : c1.inflight.length ≤ k ∧ AtMost k c1 l then
        .isTrue (by intro c' e; rw [h] at e; cases e; exact hh)
      else .isFalse (fun f => hh (f c1 h))

theorem sum_map_le {l : List Nat} {f : Nat → Nat} {M : Nat} (h : ∀ x ∈ l, f x ≤ M) :
    (l.map f).sum ≤ l.length * M := by
  induction l with
  | nil => simp
  | cons a l ih =>
    have h1 := h a (by simp)
    have h2 := ih (fun x hx => h x (by simp [hx]))
    simp only [List.map_cons, List.sum_cons, List.length_cons, Nat.succ_mul]
    omega

/-- The vertices in memory and on their way. -/
def committed (c : Cache) : Nat := numVertices c.pages + (c.inflight.map (vertsOf c.pages)).sum

theorem committed_unload (c : Cache) : committed (unload c) ≤ committed c := by
  unfold unload
  cases hf : c.lru.reverse.find? (fun j => hasMesh c.pages j) with
  | none => exact le_refl _
  | some j =>
    have := numVertices_setMesh_none c.pages j (find_last hf).1
    have e : vertsOf (setMesh c.pages j none) = vertsOf c.pages :=
      funext fun k => vertsOf_setMesh _ _ _ _
    simp only [committed, e]
    omega

theorem numVertices_clear (ps : List Page) :
    numVertices (ps.map (fun p => { p with mesh := none })) = 0 := by
  induction ps with
  | nil => rfl
  | cons p ps ih => simpa [numVertices_cons] using ih

theorem numVertices_thickness (ps : List Page) (t : Int) :
    numVertices (ps.map (fun p => { p with mesh := p.mesh.map (fun _ => t) })) = numVertices ps := by
  induction ps with
  | nil => rfl
  | cons p ps ih =>
    obtain ⟨v, m⟩ := p
    simp only [List.map_cons, numVertices_cons, ih]
    cases m <;> rfl

theorem committed_step {c c' : Cache} {M k : Nat} (hinv : Inv c) (s : Step)
    (e : step c s = some c') (hM : ∀ i, vertsOf c.pages i ≤ M) (hk : c'.inflight.length ≤ k)
    (hc : committed c ≤ c.max + (k - 1) * M) : committed c' ≤ c.max + (k - 1) * M := by
  have hv := (length_step s e).2.2
  have hvf : vertsOf c'.pages = vertsOf c.pages := funext hv
  cases s with
  | enter i =>
    simp only [step, enter] at e
    cases hl : c.loading[i]? with
    | none => rw [hl] at e; simp at e
    | some b =>
      rw [hl] at e
      cases b with
      | true => simp only [Option.some.injEq] at e; subst e; exact hc
      | false =>
        simp only at e
        by_cases hm : hasMesh c.pages i = true
        · rw [if_pos hm] at e; simp only [Option.some.injEq] at e; subst e; exact hc
        · rw [if_neg hm] at e
          by_cases hv : vertsOf c.pages i < c.max
          · rw [if_pos hv] at e; simp only [Option.some.injEq] at e; subst e; exact hc
          · rw [if_neg hv] at e; simp at e
  | makeRoom i =>
    simp only [step, Option.some.injEq] at e
    subst e
    unfold makeRoom at hk ⊢
    by_cases hi : i ∈ c.room
    · rw [if_pos hi] at hk ⊢
      by_cases ho : numVertices c.pages + vertsOf c.pages i > c.max
      · rw [if_pos ho]
        exact le_trans (committed_unload c) hc
      · rw [if_neg ho] at hk ⊢
        simp only [committed, List.map_cons, List.sum_cons, List.length_cons] at hk ⊢
        have h1 := sum_map_le (l := c.inflight) (f := vertsOf c.pages) (M := M) (fun x _ => hM x)
        have h2 : c.inflight.length * M ≤ (k - 1) * M := Nat.mul_le_mul_right _ (by omega)
        omega
    · rw [if_neg hi]; exact hc
  | assign i =>
    simp only [step, Option.some.injEq] at e
    subst e
    unfold assign
    by_cases hi : i ∈ c.inflight
    · rw [if_pos hi]
      have e1 : vertsOf (setMesh c.pages i (some c.thickness)) = vertsOf c.pages :=
        funext fun k => vertsOf_setMesh _ _ _ _
      have hab := hinv.absent i (List.mem_append_right _ hi)
      have hs := numVertices_setMesh_some c.pages i c.thickness hab
      have hp : (c.inflight.map (vertsOf c.pages)).sum
          = vertsOf c.pages i + ((c.inflight.erase i).map (vertsOf c.pages)).sum := by
        have := ((List.perm_cons_erase hi).map (vertsOf c.pages)).sum_nat
        simpa using this
      simp only [committed, e1] at hc ⊢
      rw [hs]
      split <;> omega
    · rw [if_neg hi]; exact hc
  | look i =>
    simp only [step, Option.some.injEq] at e
    subst e
    split
    · exact hc
    · exact hc
  | use i =>
    simp only [step, use] at e
    by_cases hr : i ∈ c.readers
    · rw [if_pos hr] at e
      by_cases hm : hasMesh c.pages i = true
      · rw [if_pos hm] at e
        cases hk : markRecent c.lru i with
        | none => rw [hk] at e; simp at e
        | some l => rw [hk] at e; simp only [Option.some.injEq] at e; subst e; exact hc
      · rw [if_neg hm] at e; simp at e
    · rw [if_neg hr] at e; simp only [Option.some.injEq] at e; subst e; exact hc
  | clear =>
    simp only [step, Option.some.injEq] at e
    subst e
    simp only at hvf
    simp only [committed, hvf, numVertices_clear] at hc ⊢
    omega
  | setThickness t =>
    simp only [step, Option.some.injEq] at e
    subst e
    simp only at hvf
    simp only [committed, hvf, numVertices_thickness] at hc ⊢
    exact hc

/-- **The memory budget.**  If the loader never has more than `k` pages to deliver at a time and no
page has more than `M` vertices, the vertices in memory never exceed the budget by more than
`(k - 1) * M`, provided they did not to begin with. -/
theorem budget (pages : List Page) (max M k : Nat) (t : Int) (l : List Step) (c : Cache)
    (hM : ∀ p ∈ pages, p.verts ≤ M)
    (h0 : ((pages.filter (fun p => p.mesh.isSome)).map Page.verts).sum ≤ max + (k - 1) * M)
    (hk : AtMost k (init pages max t) l) (e : run (init pages max t) l = some c) :
    InMemory c ≤ max + (k - 1) * M := by
  have gen : ∀ (l : List Step) (c0 c1 : Cache), Inv c0 → AtMost k c0 l → run c0 l = some c1 →
      (∀ i, vertsOf c0.pages i ≤ M) → committed c0 ≤ c0.max + (k - 1) * M →
      committed c1 ≤ c0.max + (k - 1) * M := by
    intro l
    induction l with
    | nil =>
      intro c0 c1 _ _ e _ hc
      simp only [run, Option.some.injEq] at e; subst e; exact hc
    | cons s l ih =>
      intro c0 c1 hi ha e hM hc
      simp only [run] at e
      cases hs : step c0 s with
      | none => rw [hs] at e; simp at e
      | some c2 =>
        rw [hs] at e
        obtain ⟨a1, a2⟩ := ha c2 hs
        have hl := length_step s hs
        have := ih c2 c1 (inv_step hi s hs) a2 (by simpa using e)
          (fun i => by rw [hl.2.2]; exact hM i)
          (by rw [hl.2.1]; exact committed_step hi s hs hM a1 hc)
        rw [hl.2.1] at this
        exact this
  have := gen l _ c (inv_init pages max t) hk e ?_ ?_
  · rw [← numVertices_eq]
    simp only [committed, init] at this
    omega
  · intro i
    simp only [init, vertsOf]
    cases hp : pages[i]? with
    | none => simp
    | some p => simpa using hM p (List.mem_of_getElem? hp)
  · have hn := numVertices_eq (init pages max t)
    simp only [committed, init, List.map_nil, List.sum_nil, InMemory] at hn ⊢
    omega

/-- **One page at a time.**  When the loader delivers each page before the next one is asked for
(as it does when it runs in the calling thread), the budget is never exceeded. -/
theorem budget_one_at_a_time (pages : List Page) (max : Nat) (t : Int) (l : List Step) (c : Cache)
    (h0 : ((pages.filter (fun p => p.mesh.isSome)).map Page.verts).sum ≤ max)
    (hk : AtMost 1 (init pages max t) l) (e : run (init pages max t) l = some c) :
    InMemory c ≤ max := by
  obtain ⟨M, hM⟩ : ∃ M, ∀ p ∈ pages, p.verts ≤ M := by
    clear e hk h0
    induction pages with
    | nil => exact ⟨0, by simp⟩
    | cons p ps ih =>
      obtain ⟨M, hM⟩ := ih
      exact ⟨p.verts + M, by
        intro q hq
        rcases List.mem_cons.mp hq with rfl | hq
        · omega
        · have := hM q hq; omega⟩
  have := budget pages max M 1 t l c hM (by simpa using h0) hk e
  simpa using this

/-! ## Load messages -/

/-- **Load messages tell which pages are present.**  Without `clear_cache`, every time a page
comes or goes exactly one message is sent: a listener that flips a page's state with each message
knows the pages in memory. -/
theorem events_track_pages_partial (pages : List Page) (max : Nat) (t : Int) (l : List Step)
    (c : Cache) (hl : Step.clear ∉ l) (e : run (init pages max t) l = some c) (i : Nat) :
    Loaded c i ↔ ((∃ v m, pages[i]? = some ⟨v, some m⟩) ↔ c.events.count i % 2 = 0) := by
  have flip : ∀ (s : Step) (c0 c1 : Cache), Inv c0 → s ≠ .clear → step c0 s = some c1 →
      (c1.events.count i = c0.events.count i ∧ hasMesh c1.pages i = hasMesh c0.pages i)
      ∨ (c1.events.count i = c0.events.count i + 1 ∧ hasMesh c1.pages i = !hasMesh c0.pages i) := by
    intro s c0 c1 hinv hne e
    cases s with
    | enter k =>
      left
      simp only [step, enter] at e
      cases hl : c0.loading[k]? with
      | none => rw [hl] at e; simp at e
      | some b =>
        rw [hl] at e
        cases b with
        | true => simp only [Option.some.injEq] at e; subst e; simp
        | false =>
          simp only at e
          by_cases hm : hasMesh c0.pages k = true
          · rw [if_pos hm] at e; simp only [Option.some.injEq] at e; subst e; simp
          · rw [if_neg hm] at e
            by_cases hv : vertsOf c0.pages k < c0.max
            · rw [if_pos hv] at e; simp only [Option.some.injEq] at e; subst e; simp
            · rw [if_neg hv] at e; simp at e
    | makeRoom k =>
      simp only [step, Option.some.injEq] at e
      subst e
      unfold makeRoom
      by_cases hk : k ∈ c0.room
      · rw [if_pos hk]
        by_cases hv : numVertices c0.pages + vertsOf c0.pages k > c0.max
        · rw [if_pos hv]
          unfold unload
          cases hf : c0.lru.reverse.find? (fun j => hasMesh c0.pages j) with
          | none => left; simp
          | some j =>
            have hj := (find_last hf).1
            simp only [List.count_append, List.count_singleton, hasMesh_setMesh]
            by_cases hji : j = i
            · subst hji
              right
              simp [hj]
            · left
              simp [hji]
        · rw [if_neg hv]; left; simp
      · rw [if_neg hk]; left; simp
    | assign k =>
      simp only [step, Option.some.injEq] at e
      subst e
      unfold assign
      by_cases hk : k ∈ c0.inflight
      · rw [if_pos hk]
        have hmem : k ∈ c0.room ++ c0.inflight := List.mem_append_right _ hk
        have hab := hinv.absent k hmem
        have hlt : k < c0.pages.length := by
          have := (List.getElem?_eq_some_iff.mp ((hinv.busy k).mp hmem)).1
          rw [hinv.flags] at this; exact this
        simp only [List.count_append, List.count_singleton, hasMesh_setMesh]
        by_cases hji : k = i
        · subst hji
          right
          simp [hab, hlt]
        · left
          simp [hji]
      · rw [if_neg hk]; left; simp
    | look k => simp only [step, Option.some.injEq] at e; subst e; left; split <;> simp
    | use k =>
      left
      simp only [step, use] at e
      by_cases hr : k ∈ c0.readers
      · rw [if_pos hr] at e
        by_cases hm : hasMesh c0.pages k = true
        · rw [if_pos hm] at e
          cases hk : markRecent c0.lru k with
          | none => rw [hk] at e; simp at e
          | some l => rw [hk] at e; simp only [Option.some.injEq] at e; subst e; simp
        · rw [if_neg hm] at e; simp at e
      · rw [if_neg hr] at e; simp only [Option.some.injEq] at e; subst e; simp
    | clear => exact absurd rfl hne
    | setThickness t =>
      left
      simp only [step, Option.some.injEq] at e
      subst e
      refine ⟨rfl, ?_⟩
      simp only [hasMesh, List.getElem?_map]
      cases c0.pages[i]? with
      | none => rfl
      | some p => cases p.mesh <;> simp
  have gen : ∀ (l : List Step) (c0 c1 : Cache), Inv c0 → Step.clear ∉ l → run c0 l = some c1 →
      (hasMesh c1.pages i = hasMesh c0.pages i ↔ (c1.events.count i - c0.events.count i) % 2 = 0)
      ∧ c0.events.count i ≤ c1.events.count i := by
    intro l
    induction l with
    | nil =>
      intro c0 c1 _ _ e
      simp only [run, Option.some.injEq] at e; subst e; simp
    | cons s l ih =>
      intro c0 c1 hi hcl e
      simp only [run] at e
      cases hs : step c0 s with
      | none => rw [hs] at e; simp at e
      | some c2 =>
        rw [hs] at e
        obtain ⟨h1, h2⟩ := ih c2 c1 (inv_step hi s hs) (fun h => hcl (by simp [h])) (by simpa using e)
        rcases flip s c0 c2 hi (fun h => hcl (by simp [h])) hs with ⟨f1, f2⟩ | ⟨f1, f2⟩
        · rw [f1] at h1 h2; rw [← f2]; exact ⟨h1, h2⟩
        · rw [f1] at h1 h2
          refine ⟨?_, by omega⟩
          have hx : (c1.events.count i - c0.events.count i) % 2 = 0
              ↔ ¬ ((c1.events.count i - (c0.events.count i + 1)) % 2 = 0) := by omega
          rw [hx, ← h1, f2]
          cases hasMesh c1.pages i <;> cases hasMesh c0.pages i <;> simp
  obtain ⟨h1, _⟩ := gen l _ c (inv_init pages max t) hl e
  have h2 : (∃ v m, pages[i]? = some ⟨v, some m⟩) ↔ hasMesh pages i = true :=
    (hasMesh_iff (init pages max t) i).symm
  rw [← hasMesh_iff, h2]
  simp only [init, List.count_nil, Nat.sub_zero] at h1
  rw [← h1]
  cases hasMesh c.pages i <;> cases hasMesh pages i <;> simp

end Edyn.Mesh.Cache
