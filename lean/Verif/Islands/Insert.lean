import Verif.Islands.Traverse

/-! # Islands: what inserting into an island and merging islands do -/

namespace Edyn.Islands

variable {T : Type}

theorem mem_pushNew {l : List Nat} {x y : Nat} : y ∈ pushNew l x ↔ y ∈ l ∨ y = x := by
  unfold pushNew; split <;> grind

theorem nodup_pushNew {l : List Nat} {x : Nat} (h : l.Nodup) : (pushNew l x).Nodup := by
  unfold pushNew; split
  · exact h
  · rw [List.nodup_append]; simp [h]; grind

theorem mem_foldl_pushNew {ns l : List Nat} {y : Nat} :
    y ∈ ns.foldl pushNew l ↔ y ∈ l ∨ y ∈ ns := by
  induction ns generalizing l with
  | nil => simp
  | cons n ns ih => simp only [List.foldl_cons, ih, mem_pushNew, List.mem_cons]; tauto

theorem nodup_foldl_pushNew {ns l : List Nat} (h : l.Nodup) : (ns.foldl pushNew l).Nodup := by
  induction ns generalizing l with
  | nil => simpa
  | cons n ns ih => exact ih (nodup_pushNew h)

theorem setAll_cons {β : Type} (f : Nat → β) (n : Nat) (ns : List Nat) (v : β) :
    setAll (Function.update f n v) ns v = setAll f (n :: ns) v := by
  funext x; unfold setAll
  by_cases h1 : x = n
  · subst h1; simp
  · simp [h1, Function.update_of_ne h1]

theorem setAll_nil {β : Type} (f : Nat → β) (v : β) : setAll f [] v = f := by
  funext x; simp [setAll]

/-- `insertNodes` in one step. -/
theorem insertNodes_eq (i : Nat) (ns : List Nat) (w : W T) (I : Island) (hi : w.isl i = some I)
    (hnd : ns.Nodup) (hd : ∀ n ∈ ns, w.proc n = true → n ∉ I.nodes) :
    insertNodes i ns w = some { w with
      isl := Function.update w.isl i (some { I with nodes := ns.foldl pushNew I.nodes })
      nres := fun n => if n ∈ ns ∧ w.proc n = true then some i else w.nres n
      mres := fun n => if n ∈ ns ∧ w.proc n = false then pushNew (w.mres n) i else w.mres n
      slN := setAll w.slN ns false } := by
  induction ns generalizing w I with
  | nil =>
    have : Function.update w.isl i (some I) = w.isl := by rw [← hi]; simp
    simp [insertNodes, setAll_nil, this]
  | cons n ns ih =>
    rw [List.nodup_cons] at hnd
    simp only [insertNodes, hi]
    cases hp : w.proc n with
    | true =>
      have hn : n ∉ I.nodes := hd n (by simp) hp
      simp only [if_true, hn, if_false]
      rw [ih _ { I with nodes := I.nodes ++ [n] } (by simp) hnd.2 ?_]
      · congr 1
        simp only [Function.update_idem, W.mk.injEq, true_and, List.foldl_cons, setAll_cons, and_true]
        refine ⟨?_, ?_, ?_⟩
        · funext x
          by_cases hx : x = n
          · subst hx; simp [hp, hnd.1]
          · simp [Function.update_of_ne hx, hx]
        · funext x
          by_cases hx : x = n
          · subst hx; simp [hp]
          · simp [hx]
        · simp [pushNew, hn]
      · intro m hm hpm hmn
        simp only [List.mem_append, List.mem_singleton] at hmn
        rcases hmn with h | h
        · exact hd m (by simp [hm]) hpm h
        · exact hnd.1 (h ▸ hm)
    | false =>
      simp only [Bool.false_eq_true, if_false]
      rw [ih _ { I with nodes := pushNew I.nodes n } (by simp) hnd.2 ?_]
      · congr 1
        simp only [Function.update_idem, W.mk.injEq, true_and, List.foldl_cons, setAll_cons, and_true]
        refine ⟨?_, ?_⟩
        · funext x
          by_cases hx : x = n
          · subst hx; simp [hp]
          · simp [hx]
        · funext x
          by_cases hx : x = n
          · subst hx; simp [hp, hnd.1]
          · simp [Function.update_of_ne hx, hx]
      · intro m hm hpm hmn
        rw [mem_pushNew] at hmn
        rcases hmn with h | h
        · exact hd m (by simp [hm]) hpm h
        · exact hnd.1 (h ▸ hm)

/-- `insertEdges` in one step. -/
theorem insertEdges_eq (i : Nat) (es : List Nat) (w : W T) (I : Island) (hi : w.isl i = some I)
    (hnd : es.Nodup) (hd : ∀ n ∈ es, n ∉ I.edges) :
    insertEdges i es w = some { w with
      isl := Function.update w.isl i (some { I with edges := I.edges ++ es })
      eres := setAll w.eres es (some i)
      slE := setAll w.slE es false } := by
  induction es generalizing w I with
  | nil =>
    have : Function.update w.isl i (some I) = w.isl := by rw [← hi]; simp
    simp [insertEdges, setAll_nil, this]
  | cons n ns ih =>
    rw [List.nodup_cons] at hnd
    simp only [insertEdges, hi]
    have hn : n ∉ I.edges := hd n (by simp)
    simp only [hn, if_false]
    rw [ih _ { I with edges := I.edges ++ [n] } (by simp) hnd.2 ?_]
    · congr 1
      simp only [Function.update_idem, W.mk.injEq, true_and, setAll_cons, and_true]
      simp
    · intro m hm hmn
      simp only [List.mem_append, List.mem_singleton] at hmn
      rcases hmn with h | h
      · exact hd m (by simp [hm]) h
      · exact hnd.1 (h ▸ hm)

theorem insertTo_eq (w : W T) (i : Nat) (ns es : List Nat) (I : Island) (hi : w.isl i = some I)
    (hnd : ns.Nodup) (hd : ∀ n ∈ ns, w.proc n = true → n ∉ I.nodes)
    (hed : es.Nodup) (he : ∀ n ∈ es, n ∉ I.edges) :
    insertTo w i ns es = some { w with
      isl := Function.update w.isl i (some ⟨ns.foldl pushNew I.nodes, I.edges ++ es⟩)
      nres := fun n => if n ∈ ns ∧ w.proc n = true then some i else w.nres n
      mres := fun n => if n ∈ ns ∧ w.proc n = false then pushNew (w.mres n) i else w.mres n
      eres := setAll w.eres es (some i)
      slN := fun n => if n ∈ ns ∨ (w.slI i = true ∧ n ∈ I.nodes) then false else w.slN n
      slE := fun e => if e ∈ es ∨ (w.slI i = true ∧ e ∈ I.edges) then false else w.slE e
      slI := Function.update w.slI i false } := by
  unfold insertTo
  rw [insertNodes_eq i ns w I hi hnd hd]
  simp only [Option.bind_some]
  rw [insertEdges_eq i es _ _ (by simp; rfl) hed (by simpa using he)]
  simp only [Option.bind_some, wakeUp, Function.update_idem, Function.update_self]
  cases hs : w.slI i with
  | true =>
    simp only [if_true, Option.some.injEq, W.mk.injEq, true_and, and_true]
    refine ⟨?_, ?_⟩
    · funext x
      simp only [setAll, mem_foldl_pushNew]
      by_cases h1 : x ∈ ns <;> by_cases h2 : x ∈ I.nodes <;> simp [h1, h2]
    · funext x
      simp only [setAll, List.mem_append]
      by_cases h1 : x ∈ es <;> by_cases h2 : x ∈ I.edges <;> simp [h1, h2]
  | false =>
    have hu : Function.update w.slI i false = w.slI := by rw [← hs]; simp
    simp only [hu, Bool.false_eq_true, if_false, false_and, or_false, Option.some.injEq, W.mk.injEq,
      true_and, and_true]
    exact ⟨rfl, rfl⟩

/-! ### The state invariant -/

/-- What holds of the registry at all times, as long as no body changes its kind. -/
structure Core (w : W T) : Prop where
  gEnds : ∀ x ∈ w.edges, x.a ∈ w.nodes ∧ x.b ∈ w.nodes
  gIds : (w.edges.map (·.id)).Nodup
  nIn : ∀ n i, w.nres n = some i →
    n ∈ w.nodes ∧ w.proc n = true ∧ ∃ I, w.isl i = some I ∧ n ∈ I.nodes
  nOut : ∀ i I n, w.isl i = some I → n ∈ I.nodes → w.proc n = true → w.nres n = some i
  nNode : ∀ i I n, w.isl i = some I → n ∈ I.nodes → n ∈ w.nodes
  mOut : ∀ i I n, w.isl i = some I → n ∈ I.nodes → w.proc n = false → i ∈ w.mres n
  eIn : ∀ e i, w.eres e = some i →
    (∃ x ∈ w.edges, x.id = e) ∧ ∃ I, w.isl i = some I ∧ e ∈ I.edges
  eOut : ∀ i I e, w.isl i = some I → e ∈ I.edges → w.eres e = some i
  nd : ∀ i I, w.isl i = some I → I.nodes.Nodup ∧ I.edges.Nodup
  ends : ∀ x ∈ w.edges, ∀ i I, w.eres x.id = some i → w.isl i = some I →
    x.a ∈ I.nodes ∧ x.b ∈ I.nodes
  endp : ∀ x ∈ w.edges, ∀ i, w.eres x.id = some i → w.proc x.a = true ∨ w.proc x.b = true
  fresh : ∀ i I, w.isl i = some I → i < w.next
  mFresh : ∀ n, ∀ i ∈ w.mres n, i < w.next
  s1 : ∀ i I, w.isl i = some I → w.slI i = true →
    (∀ n ∈ I.nodes, w.proc n = true → w.slN n = true) ∧ ∀ e ∈ I.edges, w.slE e = true
  s2 : ∀ i I, w.isl i = some I → w.slI i = false →
    (∀ n ∈ I.nodes, w.slN n = false) ∧ ∀ e ∈ I.edges, w.slE e = false
  s3 : ∀ n, w.proc n = false → w.slN n = false
  s4 : ∀ n, w.nres n = none → w.slN n = false
  s5 : ∀ e, w.eres e = none → w.slE e = false

/-- The effect of giving `ns`, `es` and the members of the islands `D` the island `t`. -/
structure Assigned (w w' : W T) (t : Nat) (D ns es : List Nat) : Prop where
  nodes : w'.nodes = w.nodes
  proc : w'.proc = w.proc
  edges : w'.edges = w.edges
  newNodes : w'.newNodes = w.newNodes
  newEdges : w'.newEdges = w.newEdges
  toSplit : w'.toSplit = w.toSplit
  toWake : w'.toWake = w.toWake
  nosleep : w'.nosleep = w.nosleep
  lastTime : w'.lastTime = w.lastTime
  tIn : t ∈ D ∨ (D = [] ∧ t = w.next ∧ w'.stamp t = none)
  next : w.next ≤ w'.next ∧ t < w'.next
  nres : ∀ n, w'.nres n =
    if (n ∈ ns ∧ w.proc n = true) ∨ (∃ d ∈ D, w.nres n = some d) then some t else w.nres n
  eres : ∀ e, w'.eres e = if e ∈ es ∨ (∃ d ∈ D, w.eres e = some d) then some t else w.eres e
  isl : ∃ J, w'.isl t = some J ∧ J.nodes.Nodup ∧ J.edges.Nodup ∧
    (∀ n, n ∈ J.nodes ↔ n ∈ ns ∨ ∃ d ∈ D, ∃ I, w.isl d = some I ∧ n ∈ I.nodes) ∧
    (∀ e, e ∈ J.edges ↔ e ∈ es ∨ ∃ d ∈ D, ∃ I, w.isl d = some I ∧ e ∈ I.edges) ∧
    (∀ n ∈ J.nodes, w'.slN n = false) ∧ (∀ e ∈ J.edges, w'.slE e = false) ∧
    (∀ n, n ∉ J.nodes → w'.slN n = w.slN n) ∧ (∀ e, e ∉ J.edges → w'.slE e = w.slE e) ∧
    (∀ n ∈ J.nodes, w.proc n = false → t ∈ w'.mres n)
  gone : ∀ d ∈ D, d ≠ t → w'.isl d = none
  kept : ∀ j, j ∉ D → j ≠ t → w'.isl j = w.isl j ∧ w'.slI j = w.slI j ∧ w'.stamp j = w.stamp j
  slI : w'.slI t = false
  mOld : ∀ n j, j ∉ D → j ≠ t → (j ∈ w'.mres n ↔ j ∈ w.mres n)
  mT : ∀ n, t ∈ w'.mres n → t ∈ w.mres n ∨ (n ∈ ns ∨ ∃ d ∈ D, ∃ I, w.isl d = some I ∧ n ∈ I.nodes)
  mGone : ∀ n, ∀ d ∈ D, d ≠ t → 2 ≤ D.length → d ∉ w'.mres n

theorem biggest_mem {size : Nat → Nat} {is : List Nat} {best : Option Nat} {n i : Nat}
    (h : biggest size is best n = some i) : i ∈ is ∨ best = some i := by
  induction is generalizing best n with
  | nil => simp [biggest] at h; exact Or.inr h
  | cons j js ih =>
    simp only [biggest] at h
    split at h
    · rcases ih h with h | h
      · left; simp [h]
      · left; simp at h; simp [h]
    · rcases ih h with h | h
      · left; simp [h]
      · exact Or.inr h

theorem biggest_isSome {size : Nat → Nat} {is : List Nat} {best : Option Nat} {n : Nat}
    (h : best.isSome = true ∨ (∃ i ∈ is, size i > n)) : (biggest size is best n).isSome = true := by
  induction is generalizing best n with
  | nil => rcases h with h | ⟨i, h, _⟩
           · simpa [biggest]
           · simp at h
  | cons j js ih =>
    simp only [biggest]
    split
    · exact ih (Or.inl rfl)
    · rename_i hj
      apply ih
      rcases h with h | ⟨i, hi, h⟩
      · exact Or.inl h
      · rcases List.mem_cons.1 hi with rfl | hi
        · exact absurd h hj
        · exact Or.inr ⟨i, hi, h⟩

/-- What the collections passed to `connected_component_func` satisfy. -/
structure CollOk (w : W T) (c : Coll) : Prop where
  nodesNd : c.nodes.Nodup
  edgesNd : c.edges.Nodup
  islNd : c.islands.Nodup
  new : ∀ n ∈ c.nodes, w.proc n = true → w.nres n = none
  newE : ∀ e ∈ c.edges, w.eres e = none
  isl : ∀ i ∈ c.islands, ∃ I, w.isl i = some I ∧ ∃ n ∈ I.nodes, w.proc n = true

theorem Core.ne_of_none {w : W T} (C : Core w) {n i : Nat} {I : Island} (h : w.nres n = none)
    (hp : w.proc n = true) (hi : w.isl i = some I) : n ∉ I.nodes := fun hn => by
  have := C.nOut i I n hi hn hp; rw [h] at this; cases this

theorem Core.e_ne_of_none {w : W T} (C : Core w) {e i : Nat} {I : Island} (h : w.eres e = none)
    (hi : w.isl i = some I) : e ∉ I.edges := fun hn => by
  have := C.eOut i I e hi hn; rw [h] at this; cases this

theorem assign_spec {w : W T} {c : Coll} (C : Core w) (H : CollOk w c) :
    ∃ t w', assign w c = some w' ∧ Assigned w w' t c.islands c.nodes c.edges := by
  obtain ⟨ns, es, is⟩ := c
  obtain ⟨h1, h2, h3, h4, h5, h6⟩ := H
  simp only at h1 h2 h3 h4 h5 h6
  unfold assign
  match is, h3, h6 with
  | [], h3, h6 =>
    simp only
    refine ⟨w.next, _, insertTo_eq (createIsland w) w.next ns es {} (by simp [createIsland]) h1
      (by simp) h2 (by simp), ?_⟩
    have hnx : ∀ n, w.next ∉ w.mres n := fun n h => absurd (C.mFresh n _ h) (by omega)
    constructor
    all_goals try rfl
    · right; simp [createIsland]
    · simp [createIsland]
    · intro n
      by_cases h : n ∈ ns ∧ w.proc n = true <;> simp [createIsland, h]
    · intro e; simp [createIsland, setAll]
    · refine ⟨⟨ns.foldl pushNew [], [] ++ es⟩, by simp, nodup_foldl_pushNew List.nodup_nil, by simpa,
        ?_, ?_, ?_, ?_, ?_, ?_, ?_⟩
      · intro n; simp [mem_foldl_pushNew]
      · intro e; simp
      · intro n hn; simp only [mem_foldl_pushNew, List.not_mem_nil, false_or] at hn; simp [hn]
      · intro e he; simp only [List.nil_append] at he; simp [he]
      · intro n hn; simp only [mem_foldl_pushNew, List.not_mem_nil, false_or] at hn
        simp [hn, createIsland]
      · intro e he; simp only [List.nil_append] at he; simp [he, createIsland]
      · intro n hn hp; simp only [mem_foldl_pushNew, List.not_mem_nil, false_or] at hn
        simp [hn, hp, createIsland, mem_pushNew]
    · simp
    · intro j _ hj; simp [createIsland, Function.update_of_ne hj]
    · simp
    · intro n j _ hj
      by_cases h : n ∈ ns ∧ w.proc n = false <;> simp [createIsland, h, mem_pushNew, hj]
    · intro n hn
      by_cases h : n ∈ ns ∧ w.proc n = false
      · right; left; exact h.1
      · left; simpa [createIsland, h] using hn
    · simp
  | [i], h3, h6 =>
    simp only
    obtain ⟨I, hI, -⟩ := h6 i (by simp)
    refine ⟨i, _, insertTo_eq w i ns es I hI h1 (fun n hn hp => C.ne_of_none (h4 n hn hp) hp hI) h2
      (fun e he => C.e_ne_of_none (h5 e he) hI), ?_⟩
    have hnd := C.nd i I hI
    constructor
    all_goals try rfl
    · left; simp
    · exact ⟨le_refl _, C.fresh i I hI⟩
    · intro n
      by_cases h : n ∈ ns ∧ w.proc n = true
      · simp [h]
      · by_cases h' : w.nres n = some i
        · simp [h']
        · simp [h, h']
    · intro e
      by_cases h : e ∈ es
      · simp [h, setAll]
      · by_cases h' : w.eres e = some i
        · simp [h', setAll]
        · simp [h, h', setAll]
    · refine ⟨⟨ns.foldl pushNew I.nodes, I.edges ++ es⟩, by simp, nodup_foldl_pushNew hnd.1, ?_,
        ?_, ?_, ?_, ?_, ?_, ?_, ?_⟩
      · rw [List.nodup_append]
        refine ⟨hnd.2, h2, ?_⟩
        rintro a ha b hb rfl
        exact C.e_ne_of_none (h5 a hb) hI ha
      · intro n; simp [mem_foldl_pushNew, hI]; tauto
      · intro e; simp [hI]; tauto
      · intro n hn
        simp only [mem_foldl_pushNew] at hn
        cases hs : w.slI i with
        | true => simp; tauto
        | false =>
          have := C.s2 i I hI hs
          rcases hn with hn | hn
          · simp [this.1 n hn]
          · simp [hn]
      · intro e he
        simp only [List.mem_append] at he
        cases hs : w.slI i with
        | true => simp; tauto
        | false =>
          have := C.s2 i I hI hs
          rcases he with hn | hn
          · simp [this.2 e hn]
          · simp [hn]
      · intro n hn; simp only [mem_foldl_pushNew, not_or] at hn
        simp [hn]
      · intro e he; simp only [List.mem_append, not_or] at he; simp [he]
      · intro n hn hp; simp only [mem_foldl_pushNew] at hn
        by_cases h : n ∈ ns
        · simp [h, hp, mem_pushNew]
        · simp only [h, false_and, if_false]
          exact C.mOut i I n hI (by tauto) hp
    · simp
    · intro j _ hj; simp [Function.update_of_ne hj]
    · simp
    · intro n j _ hj
      simp only
      split
      · simp [mem_pushNew, hj]
      · rfl
    · intro n hn
      simp only at hn
      split at hn
      · rename_i h; right; left; exact h.1
      · left; exact hn
    · simp
  | i₀ :: i₁ :: is', h3, h6 =>
    simp only
    generalize hD : i₀ :: i₁ :: is' = D at *
    have hlen : 2 ≤ D.length := by rw [← hD]; simp
    have hi₀ : i₀ ∈ D := by rw [← hD]; simp
    unfold mergeIslands
    obtain ⟨I₀, hI₀, n₀, hn₀, -⟩ := h6 i₀ hi₀
    have hsome : (biggest (islandSize w) D none 0).isSome = true := by
      apply biggest_isSome
      right
      refine ⟨i₀, hi₀, ?_⟩
      simp only [islandSize, hI₀]
      have := List.length_pos_of_mem hn₀
      omega
    obtain ⟨t, ht⟩ := Option.isSome_iff_exists.1 hsome
    have htD : t ∈ D := by simpa using biggest_mem ht
    obtain ⟨I, hI, -⟩ := h6 t htD
    simp only [ht]
    have hget : ∀ d ∈ D, ∃ I, w.isl d = some I := fun d hd => by
      obtain ⟨I, h, -⟩ := h6 d hd; exact ⟨I, h⟩
    generalize hO : (D.filter fun j => decide (j ≠ t)) = others at *
    have hOmem : ∀ j, j ∈ others ↔ j ∈ D ∧ j ≠ t := by intro j; rw [← hO]; simp
    have hOnd : others.Nodup := by rw [← hO]; exact h3.filter _
    -- all edges
    have hAE : ∀ (os : List Nat), os.Nodup → (∀ j ∈ os, j ∈ D ∧ j ≠ t) → ∀ l : List Nat, l.Nodup →
        (∀ e ∈ l, ∀ j ∈ os, w.eres e ≠ some j) →
        (os.foldl (fun l j => l ++ ((w.isl j).getD {}).edges) l).Nodup ∧
        ∀ e, e ∈ os.foldl (fun l j => l ++ ((w.isl j).getD {}).edges) l ↔
          e ∈ l ∨ ∃ d ∈ os, w.eres e = some d := by
      intro os
      induction os with
      | nil => intro _ _ l hl _; simp [hl]
      | cons j os ih =>
        intro hnd hos l hl hdis
        rw [List.nodup_cons] at hnd
        obtain ⟨J, hJ⟩ := hget j (hos j (by simp)).1
        simp only [List.foldl_cons, hJ, Option.getD_some]
        have hmem : ∀ e, e ∈ J.edges ↔ w.eres e = some j := by
          intro e
          constructor
          · exact C.eOut j J e hJ
          · intro h
            obtain ⟨-, J', h1', h2'⟩ := C.eIn e j h
            rw [hJ] at h1'; cases h1'; exact h2'
        have := ih hnd.2 (fun k hk => hos k (by simp [hk])) (l ++ J.edges) ?_ ?_
        · refine ⟨this.1, ?_⟩
          intro e
          rw [this.2, List.mem_append, hmem]
          simp only [List.mem_cons, exists_eq_or_imp]
          tauto
        · rw [List.nodup_append]
          refine ⟨hl, (C.nd j J hJ).2, ?_⟩
          rintro a ha b hb rfl
          exact hdis a ha j (by simp) ((hmem a).1 hb)
        · intro e he k hk
          rcases List.mem_append.1 he with he | he
          · exact hdis e he k (by simp [hk])
          · rw [(hmem e).1 he]
            intro hcon; simp at hcon; exact hnd.1 (hcon ▸ hk)
    have hAEs := hAE others hOnd (fun j hj => (hOmem j).1 hj) es h2
      (fun e he j _ => by rw [h5 e he]; simp)
    generalize hae : others.foldl (fun l j => l ++ ((w.isl j).getD {}).edges) es = allE at *
    -- all nodes
    have hAN : ∀ (os : List Nat) (l : List Nat), l.Nodup →
        (os.foldl (fun l j => ((w.isl j).getD {}).nodes.foldl pushNew l) l).Nodup ∧
        ∀ n, n ∈ os.foldl (fun l j => ((w.isl j).getD {}).nodes.foldl pushNew l) l ↔
          n ∈ l ∨ ∃ d ∈ os, ∃ J, w.isl d = some J ∧ n ∈ J.nodes := by
      intro os
      induction os with
      | nil => intro l hl; simp [hl]
      | cons j os ih =>
        intro l hl
        simp only [List.foldl_cons]
        have := ih (((w.isl j).getD {}).nodes.foldl pushNew l) (nodup_foldl_pushNew hl)
        refine ⟨this.1, ?_⟩
        intro n
        rw [this.2, mem_foldl_pushNew]
        simp only [List.mem_cons, exists_eq_or_imp]
        have : n ∈ ((w.isl j).getD {}).nodes ↔ ∃ J, w.isl j = some J ∧ n ∈ J.nodes := by
          cases w.isl j <;> simp
        rw [this]; exact or_assoc
    have hANs := hAN others ns h1
    generalize han : others.foldl (fun l j => ((w.isl j).getD {}).nodes.foldl pushNew l) ns = allN at *
    have hdisN : ∀ n ∈ allN, w.proc n = true → n ∉ I.nodes := by
      intro n hn hp hin
      have hres := C.nOut t I n hI hin hp
      rcases (hANs.2 n).1 hn with h | ⟨d, hd, J, hJ, h⟩
      · rw [h4 n h hp] at hres; cases hres
      · rw [C.nOut d J n hJ h hp] at hres
        have := ((hOmem d).1 hd).2
        simp at hres; exact this hres
    have hdisE : ∀ e ∈ allE, e ∉ I.edges := by
      intro e he hin
      have hres := C.eOut t I e hI hin
      rcases (hAEs.2 e).1 he with h | ⟨d, hd, h⟩
      · rw [h5 e h] at hres; cases hres
      · rw [h] at hres
        have := ((hOmem d).1 hd).2
        simp at hres; exact this hres
    rw [insertTo_eq w t allN allE I hI hANs.1 hdisN hAEs.1 hdisE]
    refine ⟨t, _, rfl, ?_⟩
    have hnd := C.nd t I hI
    have hnres : ∀ n d, d ∈ D → (w.nres n = some d ↔ w.proc n = true ∧ ∃ J, w.isl d = some J ∧ n ∈ J.nodes) := by
      intro n d hd
      constructor
      · intro h
        obtain ⟨_, h2, h3⟩ := C.nIn n d h
        exact ⟨h2, h3⟩
      · rintro ⟨hp, J, hJ, hn⟩
        exact C.nOut d J n hJ hn hp
    have hmemE : ∀ e d, w.eres e = some d ↔ ∃ J, w.isl d = some J ∧ e ∈ J.edges := by
      intro e d
      constructor
      · intro h; exact (C.eIn e d h).2
      · rintro ⟨J, hJ, h⟩; exact C.eOut d J e hJ h
    constructor
    all_goals try rfl
    · exact Or.inl htD
    · exact ⟨le_refl _, C.fresh t I hI⟩
    · intro n
      simp only [hANs.2]
      by_cases hp : w.proc n = true
      · simp only [hp, and_true]
        have : (∃ d ∈ D, w.nres n = some d) ↔
            (∃ d ∈ others, ∃ J, w.isl d = some J ∧ n ∈ J.nodes) ∨ w.nres n = some t := by
          constructor
          · rintro ⟨d, hd, h⟩
            by_cases hdt : d = t
            · subst hdt; exact Or.inr h
            · exact Or.inl ⟨d, (hOmem d).2 ⟨hd, hdt⟩, ((hnres n d hd).1 h).2⟩
          · rintro (⟨d, hd, h⟩ | h)
            · have hdD := ((hOmem d).1 hd).1
              exact ⟨d, hdD, (hnres n d hdD).2 ⟨hp, h⟩⟩
            · exact ⟨t, htD, h⟩
        simp only [this]
        by_cases ha : n ∈ ns <;> by_cases hb : ∃ d ∈ others, ∃ J, w.isl d = some J ∧ n ∈ J.nodes <;>
          by_cases hc : w.nres n = some t <;> simp [ha, hb, hc]
      · have : ¬ ∃ d ∈ D, w.nres n = some d := by
          rintro ⟨d, hd, h⟩; exact hp ((hnres n d hd).1 h).1
        simp [hp, this]
    · intro e
      simp only [setAll, hAEs.2]
      have : (∃ d ∈ D, w.eres e = some d) ↔ (∃ d ∈ others, w.eres e = some d) ∨ w.eres e = some t := by
        constructor
        · rintro ⟨d, hd, h⟩
          by_cases hdt : d = t
          · subst hdt; exact Or.inr h
          · exact Or.inl ⟨d, (hOmem d).2 ⟨hd, hdt⟩, h⟩
        · rintro (⟨d, hd, h⟩ | h)
          · exact ⟨d, ((hOmem d).1 hd).1, h⟩
          · exact ⟨t, htD, h⟩
      simp only [this]
      by_cases ha : e ∈ es <;> by_cases hb : ∃ d ∈ others, w.eres e = some d <;>
          by_cases hc : w.eres e = some t <;> simp [ha, hb, hc]
    · have htO : t ∉ others := fun h => ((hOmem t).1 h).2 rfl
      refine ⟨⟨allN.foldl pushNew I.nodes, I.edges ++ allE⟩, by simp [setAll, htO],
        nodup_foldl_pushNew hnd.1, ?_, ?_, ?_, ?_, ?_, ?_, ?_, ?_⟩
      · rw [List.nodup_append]
        refine ⟨hnd.2, hAEs.1, ?_⟩
        rintro a ha b hb rfl
        exact hdisE a hb ha
      · intro n
        simp only [mem_foldl_pushNew, hANs.2]
        constructor
        · rintro (h | h | ⟨d, hd, h⟩)
          · exact Or.inr ⟨t, htD, I, hI, h⟩
          · exact Or.inl h
          · exact Or.inr ⟨d, ((hOmem d).1 hd).1, h⟩
        · rintro (h | ⟨d, hd, J, hJ, h⟩)
          · exact Or.inr (Or.inl h)
          · by_cases hdt : d = t
            · subst hdt; rw [hI] at hJ; cases hJ; exact Or.inl h
            · exact Or.inr (Or.inr ⟨d, (hOmem d).2 ⟨hd, hdt⟩, J, hJ, h⟩)
      · intro e
        simp only [List.mem_append, hAEs.2]
        constructor
        · rintro (h | h | ⟨d, hd, h⟩)
          · exact Or.inr ⟨t, htD, I, hI, h⟩
          · exact Or.inl h
          · exact Or.inr ⟨d, ((hOmem d).1 hd).1, (hmemE e d).1 h⟩
        · rintro (h | ⟨d, hd, J, hJ, h⟩)
          · exact Or.inr (Or.inl h)
          · by_cases hdt : d = t
            · subst hdt; rw [hI] at hJ; cases hJ; exact Or.inl h
            · exact Or.inr (Or.inr ⟨d, (hOmem d).2 ⟨hd, hdt⟩, (hmemE e d).2 ⟨J, hJ, h⟩⟩)
      · intro n hn
        simp only [mem_foldl_pushNew] at hn
        cases hs : w.slI t with
        | true => simp; tauto
        | false =>
          have := C.s2 t I hI hs
          rcases hn with hn | hn
          · simp [this.1 n hn]
          · simp [hn]
      · intro e he
        simp only [List.mem_append] at he
        cases hs : w.slI t with
        | true => simp; tauto
        | false =>
          have := C.s2 t I hI hs
          rcases he with hn | hn
          · simp [this.2 e hn]
          · simp [hn]
      · intro n hn; simp only [mem_foldl_pushNew, not_or] at hn
        simp [hn]
      · intro e he; simp only [List.mem_append, not_or] at he; simp [he]
      · intro n hn hp
        simp only [List.mem_filter, decide_eq_true_eq]
        refine ⟨?_, htO⟩
        simp only [mem_foldl_pushNew] at hn
        by_cases h : n ∈ allN
        · simp [h, hp, mem_pushNew]
        · simp only [h, false_and, if_false]
          exact C.mOut t I n hI (by tauto) hp
    · intro d hd hdt
      simp [setAll, (hOmem d).2 ⟨hd, hdt⟩]
    · intro j hj hjt
      have : j ∉ others := fun h => hj ((hOmem j).1 h).1
      simp [Function.update_of_ne hjt, setAll, this]
    · simp [setAll]
    · intro n j hj hjt
      have : j ∉ others := fun h => hj ((hOmem j).1 h).1
      simp only [List.mem_filter, decide_eq_true_eq, this, not_false_eq_true, and_true]
      split
      · simp [mem_pushNew, hjt]
      · rfl
    · intro n hn
      simp only [List.mem_filter, decide_eq_true_eq] at hn
      have hn := hn.1
      split at hn
      · rename_i h
        right
        rcases (hANs.2 n).1 h.1 with h | ⟨d, hd, h⟩
        · exact Or.inl h
        · exact Or.inr ⟨d, ((hOmem d).1 hd).1, h⟩
      · left; exact hn
    · intro n d hd hdt _
      simp [(hOmem d).2 ⟨hd, hdt⟩]

end Edyn.Islands
