import Verif.Islands.Insert

/-! # Islands: new bodies and edges are put into islands -/

namespace Edyn.Islands

variable {T : Type}

theorem Assigned.core {w w' : W T} {t : Nat} {D ns es : List Nat} (C : Core w)
    (A : Assigned w w' t D ns es)
    (hn : ∀ n ∈ ns, n ∈ w.nodes ∧ (w.proc n = true → w.nres n = none))
    (he : ∀ e ∈ es, (∃ x ∈ w.edges, x.id = e) ∧ w.eres e = none)
    (hends : ∀ x ∈ w.edges, x.id ∈ es → (w.proc x.a = true ∨ w.proc x.b = true) ∧
      ∀ v, v = x.a ∨ v = x.b → v ∈ ns ∨ ∃ d ∈ D, ∃ I, w.isl d = some I ∧ v ∈ I.nodes)
    (hD : ∀ d ∈ D, ∃ I, w.isl d = some I) : Core w' := by
  obtain ⟨J, hJ, hJn, hJe, hJN, hJE, hJs, hJsE, hJo, hJoE, hJm⟩ := A.isl
  -- islands of the new state
  have hcase : ∀ j I, w'.isl j = some I → (j = t ∧ I = J) ∨ (j ≠ t ∧ j ∉ D ∧ w.isl j = some I ∧
      w'.slI j = w.slI j) := by
    intro j I h
    by_cases hjt : j = t
    · left; subst hjt; rw [hJ] at h; simp at h; exact ⟨rfl, h.symm⟩
    · right
      by_cases hjD : j ∈ D
      · rw [A.gone j hjD hjt] at h; cases h
      · obtain ⟨h1, h2, _⟩ := A.kept j hjD hjt
        exact ⟨hjt, hjD, by rw [← h1, h], h2⟩
  have hnt : ∀ n, w'.nres n = some t → n ∈ w.nodes ∧ w.proc n = true ∧ n ∈ J.nodes := by
    intro n h
    rw [A.nres] at h
    split at h
    · rename_i hc
      rcases hc with ⟨h1, h2⟩ | ⟨d, hd, h1⟩
      · exact ⟨(hn n h1).1, h2, (hJN n).2 (Or.inl h1)⟩
      · obtain ⟨a, b, c⟩ := C.nIn n d h1
        exact ⟨a, b, (hJN n).2 (Or.inr ⟨d, hd, c⟩)⟩
    · rename_i hc
      rcases A.tIn with ht | ⟨-, ht, -⟩
      · exact absurd (Or.inr ⟨t, ht, h⟩) hc
      · obtain ⟨_, _, I, hI, _⟩ := C.nIn n t h
        have := C.fresh t I hI; omega
  have hnj : ∀ n j, j ≠ t → w'.nres n = some j → w.nres n = some j ∧ j ∉ D := by
    intro n j hjt h
    rw [A.nres] at h
    split at h
    · simp at h; exact absurd h.symm hjt
    · rename_i hc
      refine ⟨h, fun hd => hc (Or.inr ⟨j, hd, h⟩)⟩
  have het : ∀ e, w'.eres e = some t → (∃ x ∈ w.edges, x.id = e) ∧ e ∈ J.edges := by
    intro e h
    rw [A.eres] at h
    split at h
    · rename_i hc
      rcases hc with h1 | ⟨d, hd, h1⟩
      · exact ⟨(he e h1).1, (hJE e).2 (Or.inl h1)⟩
      · obtain ⟨a, b⟩ := C.eIn e d h1
        exact ⟨a, (hJE e).2 (Or.inr ⟨d, hd, b⟩)⟩
    · rename_i hc
      rcases A.tIn with ht | ⟨-, ht, -⟩
      · exact absurd (Or.inr ⟨t, ht, h⟩) hc
      · obtain ⟨_, I, hI, _⟩ := C.eIn e t h
        have := C.fresh t I hI; omega
  have hej : ∀ e j, j ≠ t → w'.eres e = some j → w.eres e = some j ∧ j ∉ D := by
    intro e j hjt h
    rw [A.eres] at h
    split at h
    · simp at h; exact absurd h.symm hjt
    · rename_i hc
      refine ⟨h, fun hd => hc (Or.inr ⟨j, hd, h⟩)⟩
  constructor
  · rw [A.edges, A.nodes]; exact C.gEnds
  · rw [A.edges]; exact C.gIds
  · intro n i h
    rw [A.nodes, A.proc]
    by_cases hit : i = t
    · subst hit
      obtain ⟨a, b, c⟩ := hnt n h
      exact ⟨a, b, J, hJ, c⟩
    · obtain ⟨h1, h2⟩ := hnj n i hit h
      obtain ⟨a, b, I, hI, c⟩ := C.nIn n i h1
      exact ⟨a, b, I, by rw [(A.kept i h2 hit).1, hI], c⟩
  · intro i I n hi hnI hp
    rw [A.proc] at hp
    rcases hcase i I hi with ⟨rfl, rfl⟩ | ⟨hit, hiD, hI, -⟩
    · rw [A.nres, if_pos]
      rcases (hJN n).1 hnI with h | ⟨d, hd, I, hI, h⟩
      · exact Or.inl ⟨h, hp⟩
      · exact Or.inr ⟨d, hd, C.nOut d I n hI h hp⟩
    · have h1 := C.nOut i I n hI hnI hp
      rw [A.nres, if_neg, h1]
      rintro (⟨h, _⟩ | ⟨d, hd, h⟩)
      · rw [(hn n h).2 hp] at h1; cases h1
      · rw [h1] at h; simp at h; exact hiD (h ▸ hd)
  · intro i I n hi hnI
    rw [A.nodes]
    rcases hcase i I hi with ⟨rfl, rfl⟩ | ⟨hit, hiD, hI, -⟩
    · rcases (hJN n).1 hnI with h | ⟨d, hd, I, hI, h⟩
      · exact (hn n h).1
      · exact C.nNode d I n hI h
    · exact C.nNode i I n hI hnI
  · intro i I n hi hnI hp
    rw [A.proc] at hp
    rcases hcase i I hi with ⟨rfl, rfl⟩ | ⟨hit, hiD, hI, -⟩
    · exact hJm n hnI hp
    · rw [A.mOld n i hiD hit]; exact C.mOut i I n hI hnI hp
  · intro e i h
    rw [A.edges]
    by_cases hit : i = t
    · subst hit
      obtain ⟨a, b⟩ := het e h
      exact ⟨a, J, hJ, b⟩
    · obtain ⟨h1, h2⟩ := hej e i hit h
      obtain ⟨a, I, hI, c⟩ := C.eIn e i h1
      exact ⟨a, I, by rw [(A.kept i h2 hit).1, hI], c⟩
  · intro i I e hi heI
    rcases hcase i I hi with ⟨rfl, rfl⟩ | ⟨hit, hiD, hI, -⟩
    · rw [A.eres, if_pos]
      rcases (hJE e).1 heI with h | ⟨d, hd, I, hI, h⟩
      · exact Or.inl h
      · exact Or.inr ⟨d, hd, C.eOut d I e hI h⟩
    · have h1 := C.eOut i I e hI heI
      rw [A.eres, if_neg, h1]
      rintro (h | ⟨d, hd, h⟩)
      · rw [(he e h).2] at h1; cases h1
      · rw [h1] at h; simp at h; exact hiD (h ▸ hd)
  · intro i I hi
    rcases hcase i I hi with ⟨rfl, rfl⟩ | ⟨hit, hiD, hI, -⟩
    · exact ⟨hJn, hJe⟩
    · exact C.nd i I hI
  · intro x hx i I hres hi
    rw [A.edges] at hx
    rcases hcase i I hi with ⟨rfl, rfl⟩ | ⟨hit, hiD, hI, -⟩
    · rw [A.eres] at hres
      split at hres
      · rename_i hc
        rcases hc with h | ⟨d, hd, h⟩
        · have := (hends x hx h).2
          exact ⟨(hJN _).2 (this _ (Or.inl rfl)), (hJN _).2 (this _ (Or.inr rfl))⟩
        · obtain ⟨I', hI'⟩ := hD d hd
          have := C.ends x hx d I' h hI'
          exact ⟨(hJN _).2 (Or.inr ⟨d, hd, I', hI', this.1⟩), (hJN _).2 (Or.inr ⟨d, hd, I', hI', this.2⟩)⟩
      · rename_i hc
        rcases A.tIn with ht | ⟨-, ht, -⟩
        · exact absurd (Or.inr ⟨_, ht, hres⟩) hc
        · obtain ⟨_, I, hI, _⟩ := C.eIn _ _ hres
          have := C.fresh _ I hI; omega
    · obtain ⟨h1, _⟩ := hej x.id i hit hres
      exact C.ends x hx i I h1 hI
  · intro x hx i hres
    rw [A.edges] at hx
    rw [A.proc]
    rw [A.eres] at hres
    split at hres
    · rename_i hc
      rcases hc with h | ⟨d, hd, h⟩
      · exact (hends x hx h).1
      · exact C.endp x hx d h
    · exact C.endp x hx i hres
  · intro i I hi
    rcases hcase i I hi with ⟨rfl, rfl⟩ | ⟨hit, hiD, hI, -⟩
    · exact A.next.2
    · exact lt_of_lt_of_le (C.fresh i I hI) A.next.1
  · intro n i hi
    by_cases hit : i = t
    · subst hit; exact A.next.2
    · by_cases hiD : i ∈ D
      · obtain ⟨I, hI⟩ := hD i hiD
        exact lt_of_lt_of_le (C.fresh i I hI) A.next.1
      · rw [A.mOld n i hiD hit] at hi
        exact lt_of_lt_of_le (C.mFresh n i hi) A.next.1
  · intro i I hi hs
    rcases hcase i I hi with ⟨rfl, rfl⟩ | ⟨hit, hiD, hI, hsl⟩
    · rw [A.slI] at hs; cases hs
    · rw [hsl] at hs
      have := C.s1 i I hI hs
      rw [A.proc]
      refine ⟨fun n hnI hp => ?_, fun e heI => ?_⟩
      · rw [hJo n, this.1 n hnI hp]
        intro hnJ
        have h1 := C.nOut i I n hI hnI hp
        rcases (hJN n).1 hnJ with h | ⟨d, hd, I', hI', h⟩
        · rw [(hn n h).2 hp] at h1; cases h1
        · rw [C.nOut d I' n hI' h hp] at h1; simp at h1; exact hiD (h1 ▸ hd)
      · rw [hJoE e, this.2 e heI]
        intro hnJ
        have h1 := C.eOut i I e hI heI
        rcases (hJE e).1 hnJ with h | ⟨d, hd, I', hI', h⟩
        · rw [(he e h).2] at h1; cases h1
        · rw [C.eOut d I' e hI' h] at h1; simp at h1; exact hiD (h1 ▸ hd)
  · intro i I hi hs
    rcases hcase i I hi with ⟨rfl, rfl⟩ | ⟨hit, hiD, hI, hsl⟩
    · exact ⟨hJs, hJsE⟩
    · rw [hsl] at hs
      have := C.s2 i I hI hs
      refine ⟨fun n hnI => ?_, fun e heI => ?_⟩
      · by_cases h : n ∈ J.nodes
        · exact hJs n h
        · rw [hJo n h]; exact this.1 n hnI
      · by_cases h : e ∈ J.edges
        · exact hJsE e h
        · rw [hJoE e h]; exact this.2 e heI
  · intro n hp
    rw [A.proc] at hp
    by_cases h : n ∈ J.nodes
    · exact hJs n h
    · rw [hJo n h]; exact C.s3 n hp
  · intro n hres
    by_cases h : n ∈ J.nodes
    · exact hJs n h
    · rw [hJo n h]
      rw [A.nres] at hres
      split at hres
      · cases hres
      · exact C.s4 n hres
  · intro e hres
    by_cases h : e ∈ J.edges
    · exact hJsE e h
    · rw [hJoE e h]
      rw [A.eres] at hres
      split at hres
      · cases hres
      · exact C.s5 e hres

/-- What the functions called by `reach` collect from a sequence of calls. -/
theorem collect_spec (w : W T) (log : List Ev) (c : Coll)
    (hp : ∀ n, Ev.node n ∈ log → w.proc n = true) :
    ∃ c', log.foldlM (collect w) c = some c' ∧
      c'.edges = c.edges ++ (edgesIn log).filter (fun e => (w.eres e).isNone) ∧
      (∀ n, n ∈ c'.nodes ↔ n ∈ c.nodes ∨ (Ev.node n ∈ log ∧ w.nres n = none) ∨
        (Ev.ask n ∈ log ∧ w.proc n = false)) ∧
      (∀ i, i ∈ c'.islands ↔ i ∈ c.islands ∨ (∃ e, Ev.edge e ∈ log ∧ w.eres e = some i) ∨
        (∃ n, Ev.ask n ∈ log ∧ w.proc n = true ∧ w.nres n = some i)) ∧
      (c.islands.Nodup → c'.islands.Nodup) ∧
      (c.nodes.Nodup → (nodesOf log).Nodup → (∀ n ∈ c.nodes, w.proc n = true → n ∉ nodesOf log) →
        c'.nodes.Nodup) := by
  induction log generalizing c with
  | nil => exact ⟨c, rfl, by simp [edgesIn, nodesOf]⟩
  | cons ev log ih =>
    simp only [List.foldlM_cons]
    cases ev with
    | node n =>
      have hpn := hp n (by simp)
      have hp' : ∀ n, Ev.node n ∈ log → w.proc n = true := fun m h => hp m (by simp [h])
      have hno : nodesOf (.node n :: log) = n :: nodesOf log := by simp [nodesOf]
      have heo : edgesIn (.node n :: log) = edgesIn log := by simp [edgesIn]
      simp only [collect, hpn, if_true]
      cases hr : w.nres n with
      | none =>
        simp only [Option.bind_eq_bind, Option.bind_some]
        obtain ⟨c', h1, h2, h3, h4, h5, h6⟩ := ih { c with nodes := c.nodes ++ [n] } hp'
        refine ⟨c', h1, by rw [h2, heo], ?_, ?_, h5, ?_⟩
        · intro m; rw [h3]
          by_cases hm : m = n
          · subst hm; simp [hr]
          · simp [hm]
        · intro i; rw [h4]; simp
        · intro hc hnd hdis
          rw [hno, List.nodup_cons] at hnd
          refine h6 ?_ hnd.2 ?_
          · simp only
            rw [List.nodup_append]
            refine ⟨hc, by simp, ?_⟩
            rintro a ha b hb rfl
            simp only [List.mem_singleton] at hb
            subst hb
            exact hdis a ha hpn (by simp [hno])
          · intro m hm hpm
            simp only [List.mem_append, List.mem_singleton] at hm
            rcases hm with hm | rfl
            · have := hdis m hm hpm; rw [hno] at this; simp at this; exact this.2
            · exact hnd.1
      | some i =>
        simp only [Option.bind_eq_bind, Option.bind_some]
        obtain ⟨c', h1, h2, h3, h4, h5, h6⟩ := ih c hp'
        refine ⟨c', h1, by rw [h2, heo], ?_, ?_, h5, ?_⟩
        · intro m; rw [h3]
          by_cases hm : m = n
          · subst hm; simp [hr]
          · simp [hm]
        · intro i; rw [h4]; simp
        · intro hc hnd hdis
          rw [hno, List.nodup_cons] at hnd
          refine h6 hc hnd.2 ?_
          intro m hm hpm
          have := hdis m hm hpm; rw [hno] at this; simp at this; exact this.2
    | edge e =>
      have hp' : ∀ n, Ev.node n ∈ log → w.proc n = true := fun m h => hp m (by simp [h])
      have hno : nodesOf (.edge e :: log) = nodesOf log := by simp [nodesOf]
      have heo : edgesIn (.edge e :: log) = e :: edgesIn log := by simp [edgesIn]
      simp only [collect]
      cases hr : w.eres e with
      | none =>
        simp only [Option.bind_eq_bind, Option.bind_some]
        obtain ⟨c', h1, h2, h3, h4, h5, h6⟩ := ih { c with edges := c.edges ++ [e] } hp'
        refine ⟨c', h1, by rw [h2, heo]; simp [hr], ?_, ?_, h5, by rw [hno]; exact h6⟩
        · intro m; rw [h3]; simp
        · intro i; rw [h4]
          simp only [List.mem_cons, reduceCtorEq, false_or, Ev.edge.injEq]
          constructor
          · rintro (h | ⟨x, h⟩ | h)
            · exact Or.inl h
            · exact Or.inr (Or.inl ⟨x, Or.inr h.1, h.2⟩)
            · exact Or.inr (Or.inr h)
          · rintro (h | ⟨x, rfl | h, h'⟩ | h)
            · exact Or.inl h
            · rw [hr] at h'; cases h'
            · exact Or.inr (Or.inl ⟨x, h, h'⟩)
            · exact Or.inr (Or.inr h)
      | some j =>
        simp only [Option.bind_eq_bind, Option.bind_some]
        obtain ⟨c', h1, h2, h3, h4, h5, h6⟩ := ih { c with islands := pushNew c.islands j } hp'
        refine ⟨c', h1, by rw [h2, heo]; simp [hr], ?_, ?_, fun h => h5 (nodup_pushNew h),
          by rw [hno]; exact h6⟩
        · intro m; rw [h3]; simp
        · intro i; rw [h4, mem_pushNew]
          simp only [List.mem_cons, reduceCtorEq, false_or, Ev.edge.injEq]
          constructor
          · rintro ((h | rfl) | ⟨x, h⟩ | h)
            · exact Or.inl h
            · exact Or.inr (Or.inl ⟨e, Or.inl rfl, hr⟩)
            · exact Or.inr (Or.inl ⟨x, Or.inr h.1, h.2⟩)
            · exact Or.inr (Or.inr h)
          · rintro (h | ⟨x, rfl | h, h'⟩ | h)
            · exact Or.inl (Or.inl h)
            · rw [hr] at h'; simp at h'; exact Or.inl (Or.inr h'.symm)
            · exact Or.inr (Or.inl ⟨x, h, h'⟩)
            · exact Or.inr (Or.inr h)
    | ask n =>
      have hp' : ∀ n, Ev.node n ∈ log → w.proc n = true := fun m h => hp m (by simp [h])
      have hno : nodesOf (.ask n :: log) = nodesOf log := by simp [nodesOf]
      have heo : edgesIn (.ask n :: log) = edgesIn log := by simp [edgesIn]
      simp only [collect]
      cases hpn : w.proc n with
      | true =>
        simp only [if_true]
        cases hr : w.nres n with
        | none =>
          simp only [Option.bind_eq_bind, Option.bind_some]
          obtain ⟨c', h1, h2, h3, h4, h5, h6⟩ := ih c hp'
          refine ⟨c', h1, by rw [h2, heo], ?_, ?_, h5, by rw [hno]; exact h6⟩
          · intro m; rw [h3]
            by_cases hm : m = n
            · subst hm; simp [hpn]
            · simp [hm]
          · intro i; rw [h4]
            simp only [List.mem_cons, reduceCtorEq, false_or, Ev.ask.injEq]
            constructor
            · rintro (h | h | ⟨x, h⟩)
              · exact Or.inl h
              · exact Or.inr (Or.inl h)
              · exact Or.inr (Or.inr ⟨x, Or.inr h.1, h.2⟩)
            · rintro (h | h | ⟨x, rfl | h, h'⟩)
              · exact Or.inl h
              · exact Or.inr (Or.inl h)
              · rw [hr] at h'; simp at h'
              · exact Or.inr (Or.inr ⟨x, h, h'⟩)
        | some j =>
          simp only [Option.bind_eq_bind, Option.bind_some]
          obtain ⟨c', h1, h2, h3, h4, h5, h6⟩ := ih { c with islands := pushNew c.islands j } hp'
          refine ⟨c', h1, by rw [h2, heo], ?_, ?_, fun h => h5 (nodup_pushNew h),
            by rw [hno]; exact h6⟩
          · intro m; rw [h3]
            by_cases hm : m = n
            · subst hm; simp [hpn]
            · simp [hm]
          · intro i; rw [h4, mem_pushNew]
            simp only [List.mem_cons, reduceCtorEq, false_or, Ev.ask.injEq]
            constructor
            · rintro ((h | rfl) | h | ⟨x, h⟩)
              · exact Or.inl h
              · exact Or.inr (Or.inr ⟨n, Or.inl rfl, hpn, hr⟩)
              · exact Or.inr (Or.inl h)
              · exact Or.inr (Or.inr ⟨x, Or.inr h.1, h.2⟩)
            · rintro (h | h | ⟨x, rfl | h, h'⟩)
              · exact Or.inl (Or.inl h)
              · exact Or.inr (Or.inl h)
              · rw [hr] at h'; simp at h'; exact Or.inl (Or.inr h'.2.symm)
              · exact Or.inr (Or.inr ⟨x, h, h'⟩)
      | false =>
        simp only [Bool.false_eq_true, if_false, Option.bind_eq_bind, Option.bind_some]
        obtain ⟨c', h1, h2, h3, h4, h5, h6⟩ := ih { c with nodes := pushNew c.nodes n } hp'
        refine ⟨c', h1, by rw [h2, heo], ?_, ?_, h5, ?_⟩
        · intro m; rw [h3, mem_pushNew]
          by_cases hm : m = n
          · subst hm; simp [hpn]
          · simp [hm]
        · intro i; rw [h4]
          simp only [List.mem_cons, reduceCtorEq, false_or, Ev.ask.injEq]
          constructor
          · rintro (h | h | ⟨x, h⟩)
            · exact Or.inl h
            · exact Or.inr (Or.inl h)
            · exact Or.inr (Or.inr ⟨x, Or.inr h.1, h.2⟩)
          · rintro (h | h | ⟨x, rfl | h, h'⟩)
            · exact Or.inl h
            · exact Or.inr (Or.inl h)
            · simp [hpn] at h'
            · exact Or.inr (Or.inr ⟨x, h, h'⟩)
        · intro hc hnd hdis
          rw [hno] at hnd hdis
          refine h6 (nodup_pushNew hc) hnd ?_
          intro m hm hpm
          simp only [mem_pushNew] at hm
          rcases hm with hm | rfl
          · exact hdis m hm hpm
          · rw [hpn] at hpm; cases hpm

/-! ### One component -/

/-- `n` and `m` are joined by an edge. -/
def Joined (w : W T) (n m : Nat) : Prop :=
  ∃ x ∈ w.edges, (x.a = n ∧ x.b = m) ∨ (x.a = m ∧ x.b = n)

theorem adj_iff (env : Env T) (w : W T) (n m : Nat) : Adj (env.adj w.edges) n m ↔ Joined w n m := by
  constructor
  · rintro ⟨es, h⟩
    obtain ⟨hne, hall⟩ := (env.adjOk w.edges).sound n m es h
    obtain ⟨e, he⟩ := List.exists_mem_of_ne_nil es hne
    obtain ⟨x, hx, -, h⟩ := hall e he
    exact ⟨x, hx, h⟩
  · rintro ⟨x, hx, h⟩
    obtain ⟨es, h, -⟩ := (env.adjOk w.edges).complete x.id n m ⟨x, hx, rfl, h⟩
    exact ⟨es, h⟩

theorem inc_iff (env : Env T) (w : W T) (n e : Nat) :
    Inc (env.adj w.edges) n e ↔ ∃ x ∈ w.edges, x.id = e ∧ (x.a = n ∨ x.b = n) := by
  constructor
  · rintro ⟨m, es, h, he⟩
    obtain ⟨x, hx, h1, h2⟩ := ((env.adjOk w.edges).sound n m es h).2 e he
    exact ⟨x, hx, h1, by tauto⟩
  · rintro ⟨x, hx, h1, h2⟩
    rcases h2 with h2 | h2
    · obtain ⟨es, h, he⟩ := (env.adjOk w.edges).complete e n x.b ⟨x, hx, h1, Or.inl ⟨h2, rfl⟩⟩
      exact ⟨_, es, h, he⟩
    · obtain ⟨es, h, he⟩ := (env.adjOk w.edges).complete e n x.a ⟨x, hx, h1, Or.inr ⟨rfl, h2⟩⟩
      exact ⟨_, es, h, he⟩

/-- A body or one of its edges is not in an island yet. -/
def Pending (w : W T) (n : Nat) : Prop :=
  w.nres n = none ∨ ∃ x ∈ w.edges, (x.a = n ∨ x.b = n) ∧ w.eres x.id = none

theorem should_iff (env : Env T) (w : W T) (n : Nat) :
    should env w n = true ↔ w.proc n = true ∧ Pending w n := by
  unfold should Pending
  rw [Bool.and_eq_true, Bool.or_eq_true, Option.isNone_iff_eq_none, List.any_eq_true]
  refine and_congr_right fun _ => or_congr_right ?_
  constructor
  · rintro ⟨e, he, h⟩
    have : Inc (env.adj w.edges) n e := by
      simp only [edgesOf, List.mem_flatMap] at he
      obtain ⟨p, hp, he⟩ := he
      exact ⟨p.1, p.2, hp, he⟩
    rw [inc_iff] at this
    obtain ⟨x, hx, h1, h2⟩ := this
    exact ⟨x, hx, h2, by rw [h1]; simpa using h⟩
  · rintro ⟨x, hx, h2, h⟩
    have : Inc (env.adj w.edges) n x.id := (inc_iff env w n x.id).2 ⟨x, hx, rfl, h2⟩
    obtain ⟨m, es, h1, he⟩ := this
    exact ⟨x.id, by simp only [edgesOf, List.mem_flatMap]; exact ⟨_, h1, he⟩, by simp [h]⟩

/-- Bodies of the component `new` found from `r`, and the collections. -/
structure Comp (w : W T) (r : Nat) (new : List Nat) (c : Coll) : Prop where
  start : r ∈ new
  isProc : ∀ n ∈ new, w.proc n = true ∧ n ∈ w.nodes
  path : ∀ n ∈ new, Relation.ReflTransGen
    (fun p q => w.proc p = true ∧ w.proc q = true ∧ Joined w p q) r n
  cN : ∀ n, n ∈ c.nodes ↔ (n ∈ new ∧ w.nres n = none) ∨
    (w.proc n = false ∧ ∃ m ∈ new, Joined w m n)
  cE : ∀ e, e ∈ c.edges ↔ w.eres e = none ∧ ∃ x ∈ w.edges, x.id = e ∧ (x.a ∈ new ∨ x.b ∈ new)
  cI1 : ∀ n ∈ new, ∀ i, w.nres n = some i → i ∈ c.islands
  cI2 : ∀ i ∈ c.islands, ∃ n, w.nres n = some i ∧ (n ∈ new ∨ ∃ p ∈ new, Joined w p n)
  closed : ∀ x ∈ w.edges, w.eres x.id = none → ∀ n m, (x.a = n ∧ x.b = m) ∨ (x.a = m ∧ x.b = n) →
    n ∈ new → w.proc m = true → m ∈ new
  ok : CollOk w c

/-- Start state of `reach` at a body that is not visited: the traversal finds its component. -/
theorem comp_spec (env : Env T) (w : W T) (C : Core w) (vis visE : Nat → Bool) (r : Nat)
    (hr : r ∈ w.nodes) (hpr : w.proc r = true) (hpe : Pending w r) (hv : vis r = false)
    (hvis : ∀ n, vis n = true → ¬ Pending w n)
    (hvisE : ∀ e, visE e = true → w.eres e ≠ none) :
    ∃ t c0 c, loop (env.adj w.edges) w.proc (should env w) pushStack (w.nodes.length + 1)
        ⟨vis, visE, [r], []⟩ = some t ∧ collect w {} (.ask r) = some c0 ∧
      t.log.foldlM (collect w) c0 = some c ∧ Comp w r (nodesOf t.log) c ∧
      (∀ m, t.vis m = true ↔ vis m = true ∨ m ∈ nodesOf t.log) ∧
      (∀ e, t.visE e = true → visE e = true ∨ ∃ x ∈ w.edges, x.id = e ∧
        (x.a ∈ nodesOf t.log ∨ x.b ∈ nodesOf t.log)) := by
  have hU : ∀ n m, Adj (env.adj w.edges) n m → m ∈ w.nodes := by
    intro n m h
    rw [adj_iff] at h
    obtain ⟨x, hx, h⟩ := h
    have := C.gEnds x hx
    rcases h with ⟨_, rfl⟩ | ⟨rfl, _⟩
    · exact this.2
    · exact this.1
  obtain ⟨t, ht, V⟩ := loop_visited (adj := env.adj w.edges) (conn := w.proc)
    (should := should env w) (U := w.nodes) (vis0 := vis) (visE0 := visE) (r := r)
    pushStack_ok hU hv
  have hproc : ∀ n ∈ nodesOf t.log, w.proc n = true := by
    intro n hn
    rcases V.asked n hn with rfl | ⟨h, _⟩
    · exact hpr
    · exact ((should_iff env w n).1 h).1
  have hnode : ∀ n ∈ nodesOf t.log, n ∈ w.nodes := by
    intro n hn
    rcases V.asked n hn with rfl | ⟨_, h⟩
    · exact hr
    · obtain ⟨_, p, _, _, h⟩ := V.ask n h
      exact hU p n h
  -- the start node
  have hc0 : ∃ c0, collect w {} (.ask r) = some c0 ∧ c0.nodes = [] ∧ c0.edges = [] ∧
      c0.islands.Nodup ∧ ∀ i, i ∈ c0.islands ↔ w.nres r = some i := by
    simp only [collect, hpr, if_true]
    cases hn : w.nres r with
    | none => exact ⟨_, rfl, by simp⟩
    | some j =>
      refine ⟨_, rfl, rfl, rfl, ?_, ?_⟩
      · exact nodup_pushNew List.nodup_nil
      · intro i; simp [mem_pushNew]; exact eq_comm
  obtain ⟨c0, hc0, hc0N, hc0E, hc0I, hc0M⟩ := hc0
  obtain ⟨c, hc, h2, h3, h4, h5, h6⟩ := collect_spec w t.log c0
    (fun n hn => hproc n (mem_nodesOf.2 hn))
  refine ⟨t, c0, c, ht, hc0, hc, ?_, V.vis, ?_⟩
  · have hJ : ∀ x ∈ w.edges, ∀ i, w.eres x.id = some i → ∀ v, (v = x.a ∨ v = x.b) →
        w.proc v = true → w.nres v = some i := by
      intro x hx i hi v hvx hp
      obtain ⟨_, I, hI, _⟩ := C.eIn _ _ hi
      have := C.ends x hx i I hi hI
      rcases hvx with rfl | rfl
      · exact C.nOut i I _ hI this.1 hp
      · exact C.nOut i I _ hI this.2 hp
    have hcN : ∀ n, n ∈ c.nodes ↔ (n ∈ nodesOf t.log ∧ w.nres n = none) ∨
        (w.proc n = false ∧ ∃ m ∈ nodesOf t.log, Joined w m n) := by
      intro n
      rw [h3, hc0N, ← mem_nodesOf]
      simp only [List.not_mem_nil, false_or]
      refine or_congr_right ?_
      constructor
      · rintro ⟨ha, hp⟩
        obtain ⟨_, m, hm, _, h⟩ := V.ask n ha
        exact ⟨hp, m, hm, (adj_iff env w m n).1 h⟩
      · rintro ⟨hp, m, hm, h⟩
        refine ⟨?_, hp⟩
        rcases V.closed m hm (hproc m hm) n ((adj_iff env w m n).2 h) with h | h | h
        · -- bodies visited before are procedural
          exfalso
          have hnp := hvis n h
          have hns := V.vis n
          -- a non-procedural body is never pending-free unless it has an island of its own
          by_cases hres : w.nres n = none
          · exact hnp (Or.inl hres)
          · obtain ⟨i, hi⟩ := Option.ne_none_iff_exists'.1 hres
            rw [(C.nIn n i hi).2.1] at hp; cases hp
        · rw [hproc n h] at hp; cases hp
        · exact h.2
    have hmemE : ∀ e, e ∈ c.edges ↔ w.eres e = none ∧
        ∃ x ∈ w.edges, x.id = e ∧ (x.a ∈ nodesOf t.log ∨ x.b ∈ nodesOf t.log) := by
      intro e
      rw [h2, hc0E]
      simp only [List.nil_append, List.mem_filter, Option.isNone_iff_eq_none]
      rw [mem_edgesIn, V.edge]
      constructor
      · rintro ⟨⟨_, n, hn, _, h⟩, hnone⟩
        obtain ⟨x, hx, h1, h2⟩ := (inc_iff env w n e).1 h
        refine ⟨hnone, x, hx, h1, ?_⟩
        rcases h2 with rfl | rfl
        · exact Or.inl hn
        · exact Or.inr hn
      · rintro ⟨hnone, x, hx, h1, h2⟩
        refine ⟨⟨?_, ?_⟩, hnone⟩
        · cases hve : visE e with
          | false => rfl
          | true => exact absurd hnone (hvisE e hve)
        · rcases h2 with h | h
          · exact ⟨x.a, h, hproc _ h, (inc_iff env w _ e).2 ⟨x, hx, h1, Or.inl rfl⟩⟩
          · exact ⟨x.b, h, hproc _ h, (inc_iff env w _ e).2 ⟨x, hx, h1, Or.inr rfl⟩⟩
    have hI2 : ∀ i ∈ c.islands, ∃ n, w.nres n = some i ∧
        (n ∈ nodesOf t.log ∨ ∃ p ∈ nodesOf t.log, Joined w p n) := by
      intro i hi
      rw [h4, hc0M] at hi
      rcases hi with h | ⟨e, he, h⟩ | ⟨n, ha, hp, h⟩
      · exact ⟨r, h, Or.inl V.start⟩
      · obtain ⟨_, n, hn, hpn, hinc⟩ := (V.edge e).1 he
        obtain ⟨x, hx, rfl, hxn⟩ := (inc_iff env w n e).1 hinc
        refine ⟨n, hJ x hx i h n ?_ hpn, Or.inl hn⟩
        tauto
      · obtain ⟨_, p, hp', _, hadj⟩ := V.ask n ha
        exact ⟨n, h, Or.inr ⟨p, hp', (adj_iff env w p n).1 hadj⟩⟩
    constructor
    · exact V.start
    · exact fun n hn => ⟨hproc n hn, hnode n hn⟩
    · intro n hn
      have hpath := V.path n hn
      clear hn
      induction hpath with
      | refl => exact .refl
      | tail _ h ih =>
        obtain ⟨h1, h2, h3⟩ := h
        exact ih.tail ⟨h1, ((should_iff env w _).1 h3).1, (adj_iff env w _ _).1 h2⟩
    · exact hcN
    · exact hmemE
    · intro n hn i hi
      rw [h4, hc0M]
      rcases V.asked n hn with rfl | ⟨_, h⟩
      · exact Or.inl hi
      · exact Or.inr (Or.inr ⟨n, h, hproc n hn, hi⟩)
    · exact hI2
    · intro x hx hnone n m hnm hn hpm
      have hsh : should env w m = true := by
        rw [should_iff]
        refine ⟨hpm, Or.inr ⟨x, hx, ?_, hnone⟩⟩
        rcases hnm with ⟨_, rfl⟩ | ⟨rfl, _⟩ <;> simp
      rcases V.closed n hn (hproc n hn) m ((adj_iff env w n m).2 ⟨x, hx, hnm⟩) with h | h | h
      · exact absurd ((should_iff env w m).1 hsh).2 (hvis m h)
      · exact h
      · rw [hsh] at h; simp at h
    · constructor
      · refine h6 (by simp [hc0N]) V.nodup (by simp [hc0N])
      · rw [h2, hc0E, List.nil_append]
        exact V.edgesNodup.filter _
      · exact h5 hc0I
      · intro n hn hp
        rcases (hcN n).1 hn with h | h
        · exact h.2
        · rw [h.1] at hp; cases hp
      · exact fun e he => ((hmemE e).1 he).1
      · intro i hi
        obtain ⟨n, hn, _⟩ := hI2 i hi
        obtain ⟨_, h2, I, hI, h3⟩ := C.nIn n i hn
        exact ⟨I, hI, n, h3, h2⟩
  · intro e he
    rcases (V.visE e).1 he with h | h
    · exact Or.inl h
    · right
      obtain ⟨_, n, hn, _, hinc⟩ := (V.edge e).1 h
      obtain ⟨x, hx, h1, h2⟩ := (inc_iff env w n e).1 hinc
      refine ⟨x, hx, h1, ?_⟩
      rcases h2 with rfl | rfl
      · exact Or.inl hn
      · exact Or.inr hn

theorem edge_inj {w : W T} (C : Core w) {x y : Edge} (hx : x ∈ w.edges) (hy : y ∈ w.edges)
    (h : x.id = y.id) : x = y :=
  List.inj_on_of_nodup_map C.gIds hx hy h

/-- Facts about the state after a component has been given its island. -/
structure AfterComp (w w' : W T) (new : List Nat) : Prop where
  core : Core w'
  nodes : w'.nodes = w.nodes
  proc : w'.proc = w.proc
  edges : w'.edges = w.edges
  newNodes : w'.newNodes = w.newNodes
  newEdges : w'.newEdges = w.newEdges
  toSplit : w'.toSplit = w.toSplit
  toWake : w'.toWake = w.toWake
  done : ∀ n ∈ new, ¬ Pending w' n
  mono : ∀ n, Pending w' n → Pending w n
  keep : ∀ n, w.proc n = true → n ∉ new → Pending w n → Pending w' n
  eMono : ∀ e, w'.eres e = none → w.eres e = none
  eDone : ∀ x ∈ w.edges, (x.a ∈ new ∨ x.b ∈ new) → w'.eres x.id ≠ none

theorem Comp.after {w w' : W T} {t r : Nat} {new : List Nat} {c : Coll} (C : Core w)
    (K : Comp w r new c) (A : Assigned w w' t c.islands c.nodes c.edges) : AfterComp w w' new := by
  have hends : ∀ x ∈ w.edges, x.id ∈ c.edges → (w.proc x.a = true ∨ w.proc x.b = true) ∧
      ∀ v, v = x.a ∨ v = x.b → v ∈ c.nodes ∨ ∃ d ∈ c.islands, ∃ I, w.isl d = some I ∧ v ∈ I.nodes := by
    intro x hx hxc
    obtain ⟨hnone, y, hy, hyx, hnew⟩ := (K.cE x.id).1 hxc
    have : y = x := edge_inj C hy hx hyx
    subst this
    have hnewv : ∀ v ∈ new, v ∈ c.nodes ∨ ∃ d ∈ c.islands, ∃ I, w.isl d = some I ∧ v ∈ I.nodes := by
      intro v hv
      cases hres : w.nres v with
      | none => exact Or.inl ((K.cN v).2 (Or.inl ⟨hv, hres⟩))
      | some d =>
        obtain ⟨_, _, I, hI, h⟩ := C.nIn v d hres
        exact Or.inr ⟨d, K.cI1 v hv d hres, I, hI, h⟩
    have hoth : ∀ u v, (y.a = u ∧ y.b = v) ∨ (y.a = v ∧ y.b = u) → u ∈ new →
        v ∈ c.nodes ∨ ∃ d ∈ c.islands, ∃ I, w.isl d = some I ∧ v ∈ I.nodes := by
      intro u v huv hu
      cases hp : w.proc v with
      | true => exact hnewv v (K.closed y hy hnone u v huv hu hp)
      | false => exact Or.inl ((K.cN v).2 (Or.inr ⟨hp, u, hu, y, hy, huv⟩))
    rcases hnew with h | h
    · refine ⟨Or.inl (K.isProc _ h).1, ?_⟩
      rintro v (rfl | rfl)
      · exact hnewv _ h
      · exact hoth y.a y.b (Or.inl ⟨rfl, rfl⟩) h
    · refine ⟨Or.inr (K.isProc _ h).1, ?_⟩
      rintro v (rfl | rfl)
      · exact hoth y.b y.a (Or.inr ⟨rfl, rfl⟩) h
      · exact hnewv _ h
  have heMono : ∀ e, w'.eres e = none → w.eres e = none := by
    intro e h
    rw [A.eres] at h
    split at h
    · cases h
    · exact h
  have heDone : ∀ x ∈ w.edges, (x.a ∈ new ∨ x.b ∈ new) → w'.eres x.id ≠ none := by
    intro x hx h hnone
    have h1 := heMono _ hnone
    have : x.id ∈ c.edges := (K.cE x.id).2 ⟨h1, x, hx, rfl, h⟩
    rw [A.eres, if_pos (Or.inl this)] at hnone
    cases hnone
  have hnMono : ∀ n, w'.nres n = none → w.nres n = none := by
    intro n h
    rw [A.nres] at h
    split at h
    · cases h
    · exact h
  constructor
  · refine A.core C ?_ ?_ hends ?_
    · intro n hn
      refine ⟨?_, K.ok.new n hn⟩
      rcases (K.cN n).1 hn with h | ⟨_, m, _, x, hx, h⟩
      · exact (K.isProc n h.1).2
      · have := C.gEnds x hx
        rcases h with ⟨_, rfl⟩ | ⟨rfl, _⟩
        · exact this.2
        · exact this.1
    · intro e he
      obtain ⟨h1, x, hx, h2, _⟩ := (K.cE e).1 he
      exact ⟨⟨x, hx, h2⟩, h1⟩
    · intro d hd
      obtain ⟨I, hI, _⟩ := K.ok.isl d hd
      exact ⟨I, hI⟩
  · exact A.nodes
  · exact A.proc
  · exact A.edges
  · exact A.newNodes
  · exact A.newEdges
  · exact A.toSplit
  · exact A.toWake
  · rintro n hn (h | ⟨x, hx, hxn, h⟩)
    · have h1 := hnMono n h
      have : n ∈ c.nodes := (K.cN n).2 (Or.inl ⟨hn, h1⟩)
      rw [A.nres, if_pos (Or.inl ⟨this, (K.isProc n hn).1⟩)] at h
      cases h
    · rw [A.edges] at hx
      refine heDone x hx ?_ h
      rcases hxn with rfl | rfl
      · exact Or.inl hn
      · exact Or.inr hn
  · rintro n (h | ⟨x, hx, hxn, h⟩)
    · exact Or.inl (hnMono n h)
    · rw [A.edges] at hx
      exact Or.inr ⟨x, hx, hxn, heMono _ h⟩
  · rintro n hp hn (h | ⟨x, hx, hxn, h⟩)
    · left
      rw [A.nres, if_neg, h]
      rintro (⟨h1, _⟩ | ⟨d, _, h1⟩)
      · rcases (K.cN n).1 h1 with h2 | h2
        · exact hn h2.1
        · rw [h2.1] at hp; cases hp
      · rw [h] at h1; cases h1
    · right
      refine ⟨x, by rw [A.edges]; exact hx, hxn, ?_⟩
      rw [A.eres, if_neg, h]
      rintro (h1 | ⟨d, _, h1⟩)
      · obtain ⟨_, y, hy, hyx, hnew⟩ := (K.cE x.id).1 h1
        have : y = x := edge_inj C hy hx hyx
        subst this
        rcases hxn with rfl | rfl
        · rcases hnew with h2 | h2
          · exact hn h2
          · exact hn (K.closed y hy h y.b y.a (Or.inr ⟨rfl, rfl⟩) h2 hp)
        · rcases hnew with h2 | h2
          · exact hn (K.closed y hy h y.a y.b (Or.inl ⟨rfl, rfl⟩) h2 hp)
          · exact hn h2
      · rw [h] at h1; cases h1
  · exact heMono
  · exact heDone

/-- `reach` handles all pending bodies and edges; a property kept by each component is kept. -/
theorem reachLoop_spec (env : Env T) (P : W T → Prop)
    (hP : ∀ w w' t r new c, Core w → Comp w r new c →
      Assigned w w' t c.islands c.nodes c.edges → P w → P w') :
    ∀ (rs : List Nat) (vis visE : Nat → Bool) (w : W T), Core w → P w →
      (∀ r ∈ rs, r ∈ w.nodes ∧ w.proc r = true ∧ (vis r = false → Pending w r)) →
      (∀ n, vis n = true → ¬ Pending w n) →
      (∀ e, visE e = true → w.eres e ≠ none) →
      (∀ n ∈ w.nodes, w.proc n = true → Pending w n → n ∈ rs) →
      ∃ w', reachLoop env rs vis visE {} w = some w' ∧ Core w' ∧ P w' ∧
        w'.nodes = w.nodes ∧ w'.proc = w.proc ∧ w'.edges = w.edges ∧ w'.newNodes = w.newNodes ∧
        w'.newEdges = w.newEdges ∧ w'.toSplit = w.toSplit ∧ w'.toWake = w.toWake ∧
        ∀ n ∈ w.nodes, w.proc n = true → ¬ Pending w' n := by
  intro rs
  induction rs with
  | nil =>
    intro vis visE w C hPw _ _ _ hcov
    exact ⟨w, rfl, C, hPw, rfl, rfl, rfl, rfl, rfl, rfl, rfl, fun n hn hp h => by
      simpa using hcov n hn hp h⟩
  | cons r rs ih =>
    intro vis visE w C hPw hrs hvis hvisE hcov
    simp only [reachLoop]
    cases hv : vis r with
    | true =>
      simp only [if_true]
      refine ih vis visE w C hPw (fun x hx => hrs x (by simp [hx])) hvis hvisE ?_
      intro n hn hp hpe
      rcases List.mem_cons.1 (hcov n hn hp hpe) with rfl | h
      · exact absurd hpe (hvis _ hv)
      · exact h
    | false =>
      obtain ⟨hr1, hr2, hr3⟩ := hrs r (by simp)
      have hpe := hr3 hv
      obtain ⟨t, c0, c, hloop, hc0, hc, K, hvis', hvisE'⟩ :=
        comp_spec env w C vis visE r hr1 hr2 hpe hv hvis hvisE
      have hsh : should env w r = true := (should_iff env w r).2 ⟨hr2, hpe⟩
      obtain ⟨k, w1, hw1, A⟩ := assign_spec C K.ok
      have F := K.after C A
      simp only [Bool.false_eq_true, if_false, hc0, hsh, if_true, hloop, hc, hw1]
      have hstep : ∃ w', reachLoop env rs t.vis t.visE {} w1 = some w' ∧ Core w' ∧ P w' ∧
          w'.nodes = w1.nodes ∧ w'.proc = w1.proc ∧ w'.edges = w1.edges ∧
          w'.newNodes = w1.newNodes ∧ w'.newEdges = w1.newEdges ∧ w'.toSplit = w1.toSplit ∧
          w'.toWake = w1.toWake ∧
          ∀ n ∈ w1.nodes, w1.proc n = true → ¬ Pending w' n := by
        refine ih t.vis t.visE w1 F.core (hP w w1 k r _ c C K A hPw) ?_ ?_ ?_ ?_
        · intro x hx
          obtain ⟨h1, h2, h3⟩ := hrs x (by simp [hx])
          rw [F.nodes, F.proc]
          refine ⟨h1, h2, fun hvx => ?_⟩
          have hnv : vis x = false ∧ x ∉ nodesOf t.log := by
            constructor
            · cases h : vis x with
              | false => rfl
              | true => rw [(hvis' x).2 (Or.inl h)] at hvx; cases hvx
            · intro h; rw [(hvis' x).2 (Or.inr h)] at hvx; cases hvx
          exact F.keep x h2 hnv.2 (h3 hnv.1)
        · intro n hn hpn
          rcases (hvis' n).1 hn with h | h
          · exact hvis n h (F.mono n hpn)
          · exact F.done n h hpn
        · intro e he
          rcases hvisE' e he with h | ⟨x, hx, rfl, h⟩
          · exact fun hnone => hvisE e h (F.eMono e hnone)
          · exact F.eDone x hx h
        · intro n hn hp hpn
          rw [F.nodes] at hn
          rw [F.proc] at hp
          rcases List.mem_cons.1 (hcov n hn hp (F.mono n hpn)) with rfl | h
          · exact absurd hpn (F.done _ K.start)
          · exact h
      obtain ⟨w', h1, h2, h3, h4, h5, h6, h7, h8, h9, h10, h11⟩ := hstep
      exact ⟨w', h1, h2, h3, h4.trans F.nodes, h5.trans F.proc, h6.trans F.edges,
        h7.trans F.newNodes, h8.trans F.newEdges, h9.trans F.toSplit, h10.trans F.toWake,
        by rw [← F.nodes, ← F.proc]; exact h11⟩

/-! ### All new bodies and edges -/

/-- Which bodies and edges may not be in an island yet, between updates. -/
structure Track (w : W T) : Prop where
  newE : ∀ e ∈ w.newEdges, w.eres e = none
  newN : ∀ n ∈ w.newNodes, n ∈ w.nodes → w.nres n = none
  edge : ∀ x ∈ w.edges, w.eres x.id = none →
    x.id ∈ w.newEdges ∨ (w.proc x.a = false ∧ w.proc x.b = false)
  node : ∀ n ∈ w.nodes, w.proc n = true → w.nres n = none → n ∈ w.newNodes

/-- All bodies that move and their edges are in islands. -/
def Settled (w : W T) : Prop := ∀ n ∈ w.nodes, w.proc n = true → ¬ Pending w n

theorem endsOf_some {w : W T} (C : Core w) {x : Edge} (hx : x ∈ w.edges) :
    endsOf w x.id = some (x.a, x.b) := by
  unfold endsOf
  cases hf : w.edges.find? fun y => decide (y.id = x.id) with
  | none =>
    rw [List.find?_eq_none] at hf
    have := hf x hx
    simp at this
  | some y =>
    have h1 := List.mem_of_find?_eq_some hf
    have h2 := List.find?_some hf
    simp only [decide_eq_true_eq] at h2
    rw [edge_inj C h1 hx h2]; rfl

theorem endsOf_eq {w : W T} {e : Nat} {p : Nat × Nat} (h : endsOf w e = some p) :
    ∃ x ∈ w.edges, x.id = e ∧ p = (x.a, x.b) := by
  unfold endsOf at h
  rw [Option.map_eq_some_iff] at h
  obtain ⟨x, hx, rfl⟩ := h
  have h1 := List.mem_of_find?_eq_some hx
  have h2 := List.find?_some hx
  simp only [decide_eq_true_eq] at h2
  exact ⟨x, h1, h2, rfl⟩

theorem mapM_some {α β : Type} {f : α → Option β} {l : List α} (h : ∀ x ∈ l, (f x).isSome = true) :
    ∃ r, l.mapM f = some r := by
  induction l with
  | nil => exact ⟨[], rfl⟩
  | cons a l ih =>
    obtain ⟨r, hr⟩ := ih fun x hx => h x (by simp [hx])
    obtain ⟨b, hb⟩ := Option.isSome_iff_exists.1 (h a (by simp))
    exact ⟨b :: r, by simp [List.mapM_cons, hb, hr]⟩

theorem mem_mapM {α β : Type} {f : α → Option β} {l : List α} {r : List β} (h : l.mapM f = some r) :
    ∀ y, y ∈ r ↔ ∃ x ∈ l, f x = some y := by
  induction l generalizing r with
  | nil => simp at h; subst h; simp
  | cons a l ih =>
    rw [List.mapM_cons] at h
    cases ha : f a with
    | none => simp [ha] at h
    | some b =>
      cases hl : l.mapM f with
      | none => simp [ha, hl] at h
      | some r' =>
        simp [ha, hl] at h
        subst h
        intro y
        rw [List.mem_cons, ih hl]
        simp only [List.mem_cons, exists_eq_or_imp, ha, Option.some.injEq]
        exact or_congr_left eq_comm

theorem initNew_spec (env : Env T) (P : W T → Prop)
    (hP : ∀ w w' t r new c, Core w → Comp w r new c →
      Assigned w w' t c.islands c.nodes c.edges → P w → P w')
    (w : W T) (C : Core w) (R : Track w) (hPw : P { w with newNodes := [], newEdges := [] })
    (hdef : ∀ e ∈ w.newEdges, ∃ x ∈ w.edges, x.id = e) :
    ∃ w', initNew env w = some w' ∧ Core w' ∧ P w' ∧
        w'.nodes = w.nodes ∧ w'.proc = w.proc ∧ w'.edges = w.edges ∧ w'.newNodes = [] ∧
        w'.newEdges = [] ∧ w'.toSplit = w.toSplit ∧ w'.toWake = w.toWake ∧ Settled w' := by
  unfold initNew
  have hst : ∃ l, startNodes w = some l ∧ ∀ n, n ∈ l ↔ w.proc n = true ∧
      ((n ∈ w.newNodes ∧ n ∈ w.nodes) ∨
        ∃ x ∈ w.edges, x.id ∈ w.newEdges ∧ (n = x.a ∨ n = x.b)) := by
    obtain ⟨ends, hends⟩ := mapM_some (f := endsOf w) (l := w.newEdges) (by
      intro e he
      obtain ⟨x, hx, rfl⟩ := hdef e he
      simp [endsOf_some C hx])
    refine ⟨_, by unfold startNodes; rw [hends]; rfl, ?_⟩
    intro n
    have hm := mem_mapM hends
    simp only [List.mem_append, List.mem_filter, List.mem_flatMap, List.mem_cons,
      List.not_mem_nil, or_false, decide_eq_true_eq]
    constructor
    · rintro (⟨⟨h1, h2⟩, h3⟩ | ⟨⟨p, hp, h⟩, h3⟩)
      · exact ⟨h3, Or.inl ⟨h1, h2⟩⟩
      · obtain ⟨e, he, hpe⟩ := (hm p).1 hp
        obtain ⟨x, hx, rfl, rfl⟩ := endsOf_eq hpe
        exact ⟨h3, Or.inr ⟨x, hx, he, h⟩⟩
    · rintro ⟨h3, ⟨h1, h2⟩ | ⟨x, hx, he, h⟩⟩
      · exact Or.inl ⟨⟨h1, h2⟩, h3⟩
      · exact Or.inr ⟨⟨(x.a, x.b), (hm _).2 ⟨x.id, he, endsOf_some C hx⟩, h⟩, h3⟩
  obtain ⟨l, hl, hmem⟩ := hst
  rw [hl]
  simp only
  have hmem' : ∀ n, n ∈ env.ord (l.foldl pushNew []) ↔ n ∈ l := by
    intro n
    rw [(env.ordOk _).mem_iff, mem_foldl_pushNew]; simp
  have C0 : Core { w with newNodes := [], newEdges := [] } := by
    obtain ⟨h1, h2, h3, h4, h5, h6, h7, h8, h9, h10, h11, h12, h13, h14, h15, h16, h17, h18⟩ := C
    exact ⟨h1, h2, h3, h4, h5, h6, h7, h8, h9, h10, h11, h12, h13, h14, h15, h16, h17, h18⟩
  have hspec := reachLoop_spec env P hP (env.ord (l.foldl pushNew [])) (fun _ => false)
    (fun _ => false) { w with newNodes := [], newEdges := [] } C0 hPw ?_ (by simp) (by simp) ?_
  · obtain ⟨w', a1, a2, a3, a4, a5, a6, a7, a8, a9, a10, a11⟩ := hspec
    refine ⟨w', a1, a2, a3, a4, a5, a6, a7, a8, a9, a10, ?_⟩
    intro n hn hp
    rw [a4] at hn; rw [a5] at hp
    exact a11 n hn hp
  · intro r hr
    rw [hmem', hmem] at hr
    obtain ⟨hp, ⟨h1, h2⟩ | ⟨x, hx, he, h⟩⟩ := hr
    · exact ⟨h2, hp, fun _ => Or.inl (R.newN r h1 h2)⟩
    · have := C.gEnds x hx
      refine ⟨?_, hp, fun _ => Or.inr ⟨x, hx, ?_, R.newE _ he⟩⟩
      · rcases h with rfl | rfl
        · exact this.1
        · exact this.2
      · rcases h with rfl | rfl <;> simp
  · intro n hn hp hpe
    rw [hmem', hmem]
    refine ⟨hp, ?_⟩
    rcases hpe with h | ⟨x, hx, hxn, h⟩
    · exact Or.inl ⟨R.node n hn hp h, hn⟩
    · rcases R.edge x hx h with h' | h'
      · exact Or.inr ⟨x, hx, h', by tauto⟩
      · rcases hxn with rfl | rfl
        · have := hp.symm.trans h'.1; cases this
        · have := hp.symm.trans h'.2; cases this

end Edyn.Islands
