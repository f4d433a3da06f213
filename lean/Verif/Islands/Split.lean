import Verif.Islands.Reach

/-! # Islands: splitting -/

namespace Edyn.Islands

variable {T : Type}

/-- A step of `traverse`: from a procedural body to a neighbour. -/
def TStep (w : W T) (p q : Nat) : Prop := w.proc p = true ∧ Joined w p q

/-- A step between procedural bodies. -/
def Link (w : W T) (p q : Nat) : Prop := w.proc p = true ∧ w.proc q = true ∧ Joined w p q

/-- Connected through procedural bodies. -/
def Linked (w : W T) : Nat → Nat → Prop := Relation.ReflTransGen (Link w)

theorem Joined.symm {w : W T} {n m : Nat} (h : Joined w n m) : Joined w m n := by
  obtain ⟨x, hx, h⟩ := h; exact ⟨x, hx, by tauto⟩

theorem Linked.symm {w : W T} {n m : Nat} (h : Linked w n m) : Linked w m n := by
  induction h with
  | refl => exact .refl
  | tail _ h ih => exact Relation.ReflTransGen.head ⟨h.2.1, h.1, h.2.2.symm⟩ ih

theorem linked_of_tstep {w : W T} {n m : Nat} (h : Relation.ReflTransGen (TStep w) n m)
    (hm : w.proc m = true) : Linked w n m := by
  induction h with
  | refl => exact .refl
  | tail _ h ih => exact (ih h.1).tail ⟨h.1, hm, h.2⟩

/-- The component found from `n`. -/
structure TComp (w : W T) (n : Nat) (K : Island) : Prop where
  start : n ∈ K.nodes
  nd : K.nodes.Nodup ∧ K.edges.Nodup
  path : ∀ m ∈ K.nodes, Relation.ReflTransGen (TStep w) n m
  closed : ∀ p ∈ K.nodes, ∀ q, TStep w p q → q ∈ K.nodes
  edges : ∀ e, e ∈ K.edges ↔ ∃ x ∈ w.edges, x.id = e ∧
    ((x.a ∈ K.nodes ∧ w.proc x.a = true) ∨ (x.b ∈ K.nodes ∧ w.proc x.b = true))

theorem traverse_spec (env : Env T) (w : W T) (C : Core w) (n : Nat) :
    ∃ K, traverse env w n = some K ∧ TComp w n K := by
  have hU : ∀ n m, Adj (env.adj w.edges) n m → m ∈ w.nodes := by
    intro n m h
    rw [adj_iff] at h
    obtain ⟨x, hx, h⟩ := h
    have := C.gEnds x hx
    rcases h with ⟨_, rfl⟩ | ⟨rfl, _⟩
    · exact this.2
    · exact this.1
  obtain ⟨t, ht, V⟩ := loop_visited (adj := env.adj w.edges) (conn := w.proc)
    (should := fun _ => true) (U := w.nodes) (vis0 := fun _ => false) (visE0 := fun _ => false)
    (r := n) pushQueue_ok hU rfl
  refine ⟨⟨nodesOf t.log, edgesIn t.log⟩, by unfold traverse; rw [ht]; rfl, ?_⟩
  constructor
  · exact V.start
  · exact ⟨V.nodup, V.edgesNodup⟩
  · intro m hm
    have := V.path m hm
    clear hm
    induction this with
    | refl => exact .refl
    | tail _ h ih => exact ih.tail ⟨h.1, (adj_iff env w _ _).1 h.2.1⟩
  · rintro p hp q ⟨h1, h2⟩
    rcases V.closed p hp h1 q ((adj_iff env w p q).2 h2) with h | h | h
    · cases h
    · exact h
    · simp at h
  · intro e
    rw [mem_edgesIn, V.edge]
    constructor
    · rintro ⟨_, m, hm, hp, h⟩
      obtain ⟨x, hx, h1, h2⟩ := (inc_iff env w m e).1 h
      refine ⟨x, hx, h1, ?_⟩
      rcases h2 with rfl | rfl
      · exact Or.inl ⟨hm, hp⟩
      · exact Or.inr ⟨hm, hp⟩
    · rintro ⟨x, hx, h1, h2⟩
      refine ⟨rfl, ?_⟩
      rcases h2 with ⟨h, hp⟩ | ⟨h, hp⟩
      · exact ⟨_, h, hp, (inc_iff env w _ e).2 ⟨x, hx, h1, Or.inl rfl⟩⟩
      · exact ⟨_, h, hp, (inc_iff env w _ e).2 ⟨x, hx, h1, Or.inr rfl⟩⟩

/-- No procedural body and no edge in common. -/
def Apart (w : W T) (K K' : Island) : Prop :=
  (∀ m ∈ K.nodes, w.proc m = true → m ∉ K'.nodes) ∧ ∀ e ∈ K.edges, e ∉ K'.edges

theorem TComp.linked_mem {w : W T} {n m q : Nat} {K : Island} (h : TComp w n K) (hm : m ∈ K.nodes)
    (hl : Linked w m q) : q ∈ K.nodes := by
  induction hl with
  | refl => exact hm
  | tail _ hs ih => exact h.closed _ ih _ ⟨hs.1, hs.2.2⟩

theorem TComp.apart {w : W T} (C : Core w) {n n' : Nat} {K K' : Island} (h : TComp w n K)
    (h' : TComp w n' K') (hn : w.proc n' = true) (hnot : n' ∉ K.nodes) : Apart w K K' := by
  have h1 : ∀ m ∈ K.nodes, w.proc m = true → m ∉ K'.nodes := by
    intro m hm hp hm'
    have hl := (linked_of_tstep (h'.path m hm') hp).symm
    exact hnot (h.linked_mem hm hl)
  refine ⟨h1, ?_⟩
  intro e he he'
  obtain ⟨x, hx, hxe, hx1⟩ := (h.edges e).1 he
  obtain ⟨y, hy, hye, hy1⟩ := (h'.edges e).1 he'
  have : y = x := edge_inj C hy hx (by rw [hye, hxe])
  subst this
  rcases hx1 with ⟨ha, hpa⟩ | ⟨ha, hpa⟩ <;> rcases hy1 with ⟨hb, hpb⟩ | ⟨hb, hpb⟩
  · exact h1 _ ha hpa hb
  · exact h1 _ (h.closed _ ha _ ⟨hpa, y, hx, Or.inl ⟨rfl, rfl⟩⟩) hpb hb
  · exact h1 _ (h.closed _ ha _ ⟨hpa, y, hx, Or.inr ⟨rfl, rfl⟩⟩) hpb hb
  · exact h1 _ ha hpa hb

theorem components_spec (env : Env T) (w : W T) (C : Core w) (fuel : Nat) (l : List Nat)
    (hf : l.length ≤ fuel) :
    ∃ is, components env w fuel l = some is ∧
      (∀ K ∈ is, ∃ n ∈ l, w.proc n = true ∧ TComp w n K) ∧ is.Pairwise (Apart w) ∧
      ∀ n ∈ l, w.proc n = true → ∃ K ∈ is, n ∈ K.nodes := by
  induction fuel generalizing l with
  | zero =>
    have : l = [] := by simpa using hf
    subst this
    exact ⟨[], by simp [components], by simp⟩
  | succ fuel ih =>
    cases l with
    | nil => exact ⟨[], by simp [components], by simp⟩
    | cons n ns =>
      simp only [components]
      simp only [List.length_cons] at hf
      cases hp : w.proc n with
      | false =>
        simp only [Bool.false_eq_true, if_false]
        obtain ⟨is, h1, h2, h3, h4⟩ := ih ns (by omega)
        refine ⟨is, h1, ?_, h3, ?_⟩
        · intro K hK
          obtain ⟨m, hm, h⟩ := h2 K hK
          exact ⟨m, by simp [hm], h⟩
        · intro m hm hpm
          rcases List.mem_cons.1 hm with rfl | hm
          · rw [hp] at hpm; cases hpm
          · exact h4 m hm hpm
      | true =>
        simp only [if_true]
        obtain ⟨K, hK, hT⟩ := traverse_spec env w C n
        rw [hK]
        simp only
        obtain ⟨is, h1, h2, h3, h4⟩ := ih (ns.filter fun x => decide (x ∉ K.nodes))
          (le_trans (List.length_filter_le _ _) (by omega))
        rw [h1]
        simp only
        refine ⟨K :: is, rfl, ?_, ?_, ?_⟩
        · intro K' hK'
          rcases List.mem_cons.1 hK' with rfl | hK'
          · exact ⟨n, by simp, hp, hT⟩
          · obtain ⟨m, hm, h⟩ := h2 K' hK'
            exact ⟨m, by simp at hm; simp [hm], h⟩
        · rw [List.pairwise_cons]
          refine ⟨?_, h3⟩
          intro K' hK'
          obtain ⟨m, hm, hpm, h⟩ := h2 K' hK'
          refine hT.apart C h hpm ?_
          simp at hm; exact hm.2
        · intro m hm hpm
          by_cases hmK : m ∈ K.nodes
          · exact ⟨K, by simp, hmK⟩
          · rcases List.mem_cons.1 hm with rfl | hm
            · exact absurd hT.start hmK
            · obtain ⟨K', hK', h⟩ := h4 m (by simp [hm, hmK]) hpm
              exact ⟨K', by simp [hK'], h⟩

/-- While the components `rest` of the former island `i` wait to be given islands. -/
structure Mid (w : W T) (i : Nat) (S : Island) (rest : List Island) : Prop where
  gEnds : ∀ x ∈ w.edges, x.a ∈ w.nodes ∧ x.b ∈ w.nodes
  gIds : (w.edges.map (·.id)).Nodup
  src : w.isl i = some S
  nIn : ∀ n j, w.nres n = some j → n ∈ w.nodes ∧ w.proc n = true ∧
    ((∃ I, w.isl j = some I ∧ n ∈ I.nodes) ∨ (j = i ∧ ∃ K ∈ rest, n ∈ K.nodes))
  nOut : ∀ i I n, w.isl i = some I → n ∈ I.nodes → w.proc n = true → w.nres n = some i
  nNode : ∀ i I n, w.isl i = some I → n ∈ I.nodes → n ∈ w.nodes
  mOut : ∀ i I n, w.isl i = some I → n ∈ I.nodes → w.proc n = false → i ∈ w.mres n
  eIn : ∀ e j, w.eres e = some j → (∃ x ∈ w.edges, x.id = e) ∧
    ((∃ I, w.isl j = some I ∧ e ∈ I.edges) ∨ (j = i ∧ ∃ K ∈ rest, e ∈ K.edges))
  eOut : ∀ i I e, w.isl i = some I → e ∈ I.edges → w.eres e = some i
  nd : ∀ i I, w.isl i = some I → I.nodes.Nodup ∧ I.edges.Nodup
  ends : ∀ x ∈ w.edges, ∀ j I, w.isl j = some I → x.id ∈ I.edges → x.a ∈ I.nodes ∧ x.b ∈ I.nodes
  endp : ∀ x ∈ w.edges, ∀ i, w.eres x.id = some i → w.proc x.a = true ∨ w.proc x.b = true
  fresh : ∀ i I, w.isl i = some I → i < w.next
  mFresh : ∀ n, ∀ i ∈ w.mres n, i < w.next
  s1 : ∀ i I, w.isl i = some I → w.slI i = true →
    (∀ n ∈ I.nodes, w.proc n = true → w.slN n = true) ∧ ∀ e ∈ I.edges, w.slE e = true
  s2 : ∀ i I, w.isl i = some I → w.slI i = false →
    (∀ n ∈ I.nodes, w.slN n = false) ∧ ∀ e ∈ I.edges, w.slE e = false
  s3 : ∀ n, w.proc n = false → w.slN n = false
  s4 : ∀ n, w.nres n = none → w.slN n = false
  s5 : ∀ e, w.eres e = none → w.slE e = false
  rNd : ∀ K ∈ rest, K.nodes.Nodup ∧ K.edges.Nodup
  rN : ∀ K ∈ rest, ∀ n ∈ K.nodes, n ∈ w.nodes ∧ (w.proc n = true → w.nres n = some i)
  rE : ∀ K ∈ rest, ∀ e ∈ K.edges, w.eres e = some i
  rEnds : ∀ x ∈ w.edges, ∀ K ∈ rest, x.id ∈ K.edges → x.a ∈ K.nodes ∧ x.b ∈ K.nodes
  rApart : (S :: rest).Pairwise (Apart w)

theorem Mid.core {w : W T} {i : Nat} {S : Island} (M : Mid w i S []) : Core w := by
  constructor
  · exact M.gEnds
  · exact M.gIds
  · intro n j h
    obtain ⟨h1, h2, h3⟩ := M.nIn n j h
    exact ⟨h1, h2, by simpa using h3⟩
  · exact M.nOut
  · exact M.nNode
  · exact M.mOut
  · intro e j h
    obtain ⟨h1, h2⟩ := M.eIn e j h
    exact ⟨h1, by simpa using h2⟩
  · exact M.eOut
  · exact M.nd
  · intro x hx j I h hj
    obtain ⟨_, h2⟩ := M.eIn _ j h
    obtain ⟨I', h1, h2⟩ : ∃ I, w.isl j = some I ∧ x.id ∈ I.edges := by simpa using h2
    rw [hj] at h1; cases h1
    exact M.ends x hx j I hj h2
  · exact M.endp
  · exact M.fresh
  · exact M.mFresh
  · exact M.s1
  · exact M.s2
  · exact M.s3
  · exact M.s4
  · exact M.s5

theorem moveNodes_eq (source k : Nat) (S : Island) (ns : List Nat) (w : W T) (hnd : ns.Nodup)
    (hk : ∀ n ∈ ns, k ∉ w.mres n) :
    moveNodes source k S ns w = some { w with
      nres := fun n => if n ∈ ns ∧ w.proc n = true then some k else w.nres n
      mres := fun n => if n ∈ ns ∧ w.proc n = false then
        (if n ∈ S.nodes then w.mres n ++ [k] else (w.mres n ++ [k]).filter fun j => decide (j ≠ source))
        else w.mres n } := by
  induction ns generalizing w with
  | nil => simp [moveNodes]
  | cons n ns ih =>
    rw [List.nodup_cons] at hnd
    simp only [moveNodes]
    cases hp : w.proc n with
    | true =>
      simp only [if_true]
      rw [ih _ hnd.2 ?_]
      · simp only [Option.some.injEq, W.mk.injEq, true_and, and_true]
        refine ⟨?_, ?_⟩
        · funext x
          by_cases hx : x = n
          · subst hx; simp [hp, hnd.1]
          · simp [Function.update_of_ne hx, hx]
        · funext x
          by_cases hx : x = n
          · subst hx; simp [hp]
          · simp [hx]
      · exact fun m hm => hk m (by simp [hm])
    | false =>
      have := hk n (by simp)
      simp only [Bool.false_eq_true, if_false, this]
      rw [ih _ hnd.2 ?_]
      · simp only [Option.some.injEq, W.mk.injEq, true_and, and_true]
        refine ⟨?_, ?_⟩
        · funext x
          by_cases hx : x = n
          · subst hx; simp [hp]
          · simp [hx]
        · funext x
          by_cases hx : x = n
          · subst hx; simp [hp, hnd.1]
          · simp [Function.update_of_ne hx, hx]
      · intro m hm
        have hmn : m ≠ n := fun h => hnd.1 (h ▸ hm)
        simp only [Function.update_of_ne hmn]
        exact hk m (by simp [hm])

/-- What does not change while islands are split. -/
structure SameGraph (w w' : W T) : Prop where
  nodes : w'.nodes = w.nodes
  proc : w'.proc = w.proc
  edges : w'.edges = w.edges
  newNodes : w'.newNodes = w.newNodes
  newEdges : w'.newEdges = w.newEdges
  toSplit : w'.toSplit = w.toSplit
  toWake : w'.toWake = w.toWake
  nosleep : w'.nosleep = w.nosleep

theorem SameGraph.refl (w : W T) : SameGraph w w := ⟨rfl, rfl, rfl, rfl, rfl, rfl, rfl, rfl⟩
theorem SameGraph.trans {w w' w'' : W T} (h : SameGraph w w') (h' : SameGraph w' w'') :
    SameGraph w w'' :=
  ⟨h'.1.trans h.1, h'.2.trans h.2, h'.3.trans h.3, h'.4.trans h.4, h'.5.trans h.5, h'.6.trans h.6,
    h'.7.trans h.7, h'.8.trans h.8⟩

theorem makeIslands_spec {i : Nat} {S : Island} (rest : List Island) (w : W T)
    (M : Mid w i S rest) :
    ∃ w', makeIslands i S rest w = some w' ∧ Core w' ∧ SameGraph w w' ∧ w.next ≤ w'.next ∧
      (∀ j, j < w.next → w'.isl j = w.isl j) ∧
      (∀ n, (∀ K ∈ rest, n ∈ K.nodes → w.proc n = false) → w'.nres n = w.nres n) ∧
      (∀ K ∈ rest, ∃ k, w.next ≤ k ∧ w'.isl k = some K ∧
        ∀ n ∈ K.nodes, w.proc n = true → w'.nres n = some k) ∧
      (∀ e, (∀ K ∈ rest, e ∉ K.edges) → w'.eres e = w.eres e) ∧
      (∀ K ∈ rest, ∀ e ∈ K.edges, w'.eres e ≠ none) := by
  induction rest generalizing w with
  | nil =>
    exact ⟨w, rfl, M.core, SameGraph.refl w, le_refl _, fun _ _ => rfl, fun _ _ => rfl, by simp,
      fun _ _ => rfl, by simp⟩
  | cons K rest ih =>
    simp only [makeIslands]
    have hknew : ∀ n, w.next ∉ w.mres n := fun n h => absurd (M.mFresh n _ h) (by omega)
    rw [moveNodes_eq i w.next S K.nodes { w with
      isl := Function.update w.isl w.next (some K)
      stamp := Function.update w.stamp w.next none
      slI := Function.update w.slI w.next false
      next := w.next + 1 } (M.rNd K (by simp)).1 (fun n _ => hknew n)]
    simp only
    have hisl : w.isl w.next = none := by
      cases h : w.isl w.next with
      | none => rfl
      | some I => exact absurd (M.fresh _ I h) (by omega)
    have hine : i ≠ w.next := by rintro h; have := M.fresh i S M.src; omega
    have hap := M.rApart
    rw [List.pairwise_cons, List.pairwise_cons] at hap
    obtain ⟨hapS, hapK, haprest⟩ := hap
    have hSK : Apart w S K := hapS K (by simp)
    generalize hw1 : ({ w with
      isl := Function.update w.isl w.next (some K)
      stamp := Function.update w.stamp w.next none
      slI := Function.update w.slI w.next false
      next := w.next + 1
      nres := fun n => if n ∈ K.nodes ∧ w.proc n = true then some w.next else w.nres n
      mres := fun n => if n ∈ K.nodes ∧ w.proc n = false then
        (if n ∈ S.nodes then w.mres n ++ [w.next]
          else (w.mres n ++ [w.next]).filter fun j => decide (j ≠ i)) else w.mres n
      eres := setAll w.eres K.edges (some w.next)
      slN := setAll w.slN K.nodes false
      slE := setAll w.slE K.edges false } : W T) = w1
    have e_isl : w1.isl = Function.update w.isl w.next (some K) := by rw [← hw1]
    have e_slI : w1.slI = Function.update w.slI w.next false := by rw [← hw1]
    have e_next : w1.next = w.next + 1 := by rw [← hw1]
    have e_nres : ∀ n, w1.nres n = if n ∈ K.nodes ∧ w.proc n = true then some w.next else w.nres n := by
      rw [← hw1]; intro n; rfl
    have e_eres : ∀ e, w1.eres e = if e ∈ K.edges then some w.next else w.eres e := by
      rw [← hw1]; intro e; rfl
    have e_slN : ∀ n, w1.slN n = if n ∈ K.nodes then false else w.slN n := by
      rw [← hw1]; intro e; rfl
    have e_slE : ∀ n, w1.slE n = if n ∈ K.edges then false else w.slE n := by
      rw [← hw1]; intro e; rfl
    have e_m : ∀ n j, j ∈ w1.mres n ↔ (j ∈ w.mres n ∧
          (n ∈ K.nodes → w.proc n = false → n ∈ S.nodes ∨ j ≠ i)) ∨
        (j = w.next ∧ n ∈ K.nodes ∧ w.proc n = false) := by
      intro n j
      have : w1.mres n = if n ∈ K.nodes ∧ w.proc n = false then
        (if n ∈ S.nodes then w.mres n ++ [w.next]
          else (w.mres n ++ [w.next]).filter fun j => decide (j ≠ i)) else w.mres n := by
        rw [← hw1]
      rw [this]
      split
      · rename_i h
        split
        · rename_i hS; simp [h, hS]
        · rename_i hS
          simp only [List.mem_filter, List.mem_append, List.mem_singleton, decide_eq_true_eq, h, hS,
            false_or, true_implies, and_true]
          constructor
          · rintro ⟨h1 | h1, h2⟩
            · exact Or.inl ⟨h1, h2⟩
            · exact Or.inr h1
          · rintro (h1 | h1)
            · exact ⟨Or.inl h1.1, h1.2⟩
            · exact ⟨Or.inr h1, h1 ▸ hine.symm⟩
      · rename_i h
        constructor
        · intro hj; exact Or.inl ⟨hj, fun h1 h2 => absurd ⟨h1, h2⟩ h⟩
        · rintro (h1 | h1)
          · exact h1.1
          · exact absurd h1.2 h
    have G : SameGraph w w1 := by rw [← hw1]; exact ⟨rfl, rfl, rfl, rfl, rfl, rfl, rfl, rfl⟩
    have gp := G.proc
    have ge := G.edges
    have gn := G.nodes
    clear hw1
    have hcase : ∀ j I, w1.isl j = some I → (j = w.next ∧ I = K) ∨ (j ≠ w.next ∧ w.isl j = some I) := by
      intro j I h
      rw [e_isl] at h
      by_cases hj : j = w.next
      · subst hj; simp at h; exact Or.inl ⟨rfl, h.symm⟩
      · rw [Function.update_of_ne hj] at h; exact Or.inr ⟨hj, h⟩
    -- members of the other islands are not in the component
    have hnotK : ∀ j I n, w.isl j = some I → n ∈ I.nodes → w.proc n = true → n ∉ K.nodes := by
      intro j I n hj hn hp hnK
      have h1 := M.nOut j I n hj hn hp
      have h2 := (M.rN K (by simp) n hnK).2 hp
      rw [h1] at h2; simp at h2; subst h2
      rw [M.src] at hj; cases hj
      exact hSK.1 n hn hp hnK
    have hnotKE : ∀ j I e, w.isl j = some I → e ∈ I.edges → e ∉ K.edges := by
      intro j I e hj hn hnK
      have h1 := M.eOut j I e hj hn
      have h2 := M.rE K (by simp) e hnK
      rw [h1] at h2; simp at h2; subst h2
      rw [M.src] at hj; cases hj
      exact hSK.2 e hn hnK
    have M1 : Mid w1 i S rest := by
      constructor
      · rw [ge, gn]; exact M.gEnds
      · rw [ge]; exact M.gIds
      · rw [e_isl, Function.update_of_ne hine]; exact M.src
      · intro n j h
        rw [gn, gp]
        rw [e_nres] at h
        split at h
        · rename_i hc
          simp at h; subst h
          refine ⟨(M.rN K (by simp) n hc.1).1, hc.2, Or.inl ⟨K, by rw [e_isl]; simp, hc.1⟩⟩
        · rename_i hc
          obtain ⟨h1, h2, h3⟩ := M.nIn n j h
          refine ⟨h1, h2, ?_⟩
          rcases h3 with ⟨I, hI, h4⟩ | ⟨h4, K', hK', h5⟩
          · left
            refine ⟨I, ?_, h4⟩
            rw [e_isl, Function.update_of_ne, hI]
            rintro rfl; rw [hisl] at hI; cases hI
          · right
            refine ⟨h4, K', ?_, h5⟩
            rcases List.mem_cons.1 hK' with rfl | h
            · exact absurd ⟨h5, h2⟩ hc
            · exact h
      · intro j I n hj hn hp
        rw [gp] at hp
        rw [e_nres]
        rcases hcase j I hj with ⟨rfl, rfl⟩ | ⟨hj', hI⟩
        · rw [if_pos ⟨hn, hp⟩]
        · rw [if_neg (fun h => hnotK j I n hI hn hp h.1)]
          exact M.nOut j I n hI hn hp
      · intro j I n hj hn
        rw [gn]
        rcases hcase j I hj with ⟨rfl, rfl⟩ | ⟨hj', hI⟩
        · exact (M.rN _ (by simp) n hn).1
        · exact M.nNode j I n hI hn
      · intro j I n hj hn hp
        rw [gp] at hp
        rw [e_m]
        rcases hcase j I hj with ⟨rfl, rfl⟩ | ⟨hj', hI⟩
        · exact Or.inr ⟨rfl, hn, hp⟩
        · left
          refine ⟨M.mOut j I n hI hn hp, fun _ _ => ?_⟩
          by_cases hji : j = i
          · subst hji; rw [M.src] at hI; cases hI; exact Or.inl hn
          · exact Or.inr hji
      · intro e j h
        rw [ge]
        rw [e_eres] at h
        split at h
        · rename_i hc
          simp at h; subst h
          refine ⟨(M.eIn e i (M.rE K (by simp) e hc)).1, Or.inl ⟨K, by rw [e_isl]; simp, hc⟩⟩
        · rename_i hc
          obtain ⟨h1, h3⟩ := M.eIn e j h
          refine ⟨h1, ?_⟩
          rcases h3 with ⟨I, hI, h4⟩ | ⟨h4, K', hK', h5⟩
          · left
            refine ⟨I, ?_, h4⟩
            rw [e_isl, Function.update_of_ne, hI]
            rintro rfl; rw [hisl] at hI; cases hI
          · right
            refine ⟨h4, K', ?_, h5⟩
            rcases List.mem_cons.1 hK' with rfl | h
            · exact absurd h5 hc
            · exact h
      · intro j I e hj hn
        rw [e_eres]
        rcases hcase j I hj with ⟨rfl, rfl⟩ | ⟨hj', hI⟩
        · rw [if_pos hn]
        · rw [if_neg (hnotKE j I e hI hn)]
          exact M.eOut j I e hI hn
      · intro j I hj
        rcases hcase j I hj with ⟨rfl, rfl⟩ | ⟨hj', hI⟩
        · exact M.rNd _ (by simp)
        · exact M.nd j I hI
      · intro x hx j I hj hxI
        rw [ge] at hx
        rcases hcase j I hj with ⟨rfl, rfl⟩ | ⟨hj', hI⟩
        · exact M.rEnds x hx _ (by simp) hxI
        · exact M.ends x hx j I hI hxI
      · intro x hx j h
        rw [ge] at hx
        rw [gp]
        rw [e_eres] at h
        split at h
        · rename_i hc
          exact M.endp x hx i (M.rE K (by simp) _ hc)
        · exact M.endp x hx j h
      · intro j I hj
        rw [e_next]
        rcases hcase j I hj with ⟨rfl, rfl⟩ | ⟨hj', hI⟩
        · omega
        · have := M.fresh j I hI; omega
      · intro n j hj
        rw [e_next]
        rcases (e_m n j).1 hj with h | h
        · have := M.mFresh n j h.1; omega
        · omega
      · intro j I hj hs
        rw [gp]
        rcases hcase j I hj with ⟨rfl, rfl⟩ | ⟨hj', hI⟩
        · rw [e_slI] at hs; simp at hs
        · rw [e_slI, Function.update_of_ne hj'] at hs
          have := M.s1 j I hI hs
          refine ⟨fun n hn hp => ?_, fun e he => ?_⟩
          · rw [e_slN, if_neg (hnotK j I n hI hn hp)]; exact this.1 n hn hp
          · rw [e_slE, if_neg (hnotKE j I e hI he)]; exact this.2 e he
      · intro j I hj hs
        rcases hcase j I hj with ⟨rfl, rfl⟩ | ⟨hj', hI⟩
        · refine ⟨fun n hn => ?_, fun e he => ?_⟩
          · rw [e_slN, if_pos hn]
          · rw [e_slE, if_pos he]
        · rw [e_slI, Function.update_of_ne hj'] at hs
          have := M.s2 j I hI hs
          refine ⟨fun n hn => ?_, fun e he => ?_⟩
          · rw [e_slN]; split
            · rfl
            · exact this.1 n hn
          · rw [e_slE]; split
            · rfl
            · exact this.2 e he
      · intro n hp
        rw [gp] at hp
        rw [e_slN]; split
        · rfl
        · exact M.s3 n hp
      · intro n h
        rw [e_nres] at h
        rw [e_slN]; split
        · rfl
        · split at h
          · cases h
          · exact M.s4 n h
      · intro e h
        rw [e_eres] at h
        rw [e_slE]; split
        · rfl
        · split at h
          · cases h
          · exact M.s5 e h
      · exact fun K' hK' => M.rNd K' (by simp [hK'])
      · intro K' hK' n hn
        rw [gn, gp, e_nres]
        obtain ⟨h1, h2⟩ := M.rN K' (by simp [hK']) n hn
        refine ⟨h1, fun hp => ?_⟩
        rw [if_neg]
        · exact h2 hp
        · rintro ⟨h, _⟩
          exact (hapK K' hK').1 n h hp hn
      · intro K' hK' e he
        rw [e_eres, if_neg]
        · exact M.rE K' (by simp [hK']) e he
        · intro h; exact (hapK K' hK').2 e h he
      · intro x hx K' hK' h
        rw [ge] at hx
        exact M.rEnds x hx K' (by simp [hK']) h
      · have : ∀ A B, Apart w1 A B ↔ Apart w A B := by intro A B; unfold Apart; rw [gp]
        rw [List.pairwise_cons]
        refine ⟨fun K' hK' => (this _ _).2 (hapS K' (by simp [hK'])), ?_⟩
        exact haprest.imp (fun h => (this _ _).2 h)
    obtain ⟨w', h1, h2, h3, h4, h5, h6, h7, h8, h9⟩ := ih w1 M1
    refine ⟨w', h1, h2, G.trans h3, by omega, ?_, ?_, ?_, ?_, ?_⟩
    · intro j hj
      rw [h5 j (by omega), e_isl, Function.update_of_ne (by omega)]
    · intro n hn
      rw [h6 n (fun K' hK' h => by rw [gp]; exact hn K' (by simp [hK']) h), e_nres, if_neg]
      rintro ⟨ha, hb⟩
      rw [hn K (by simp) ha] at hb; cases hb
    · intro K' hK'
      rcases List.mem_cons.1 hK' with rfl | hK'
      · refine ⟨w.next, le_refl _, ?_, ?_⟩
        · rw [h5 _ (by omega), e_isl]; simp
        · intro n hn hp
          rw [h6 n, e_nres, if_pos ⟨hn, hp⟩]
          intro K'' hK'' h
          exact absurd h ((hapK K'' hK'').1 n hn hp)
      · obtain ⟨k, hk1, hk2, hk3⟩ := h7 K' hK'
        exact ⟨k, by omega, hk2, by rw [gp] at hk3; exact hk3⟩
    · intro e he
      rw [h8 e (fun K' hK' => he K' (by simp [hK'])), e_eres, if_neg (he K (by simp))]
    · intro K' hK' e he
      rcases List.mem_cons.1 hK' with rfl | hK'
      · rw [h8 e (fun K'' hK'' h => (hapK K'' hK'').2 e he h), e_eres, if_pos he]; simp
      · exact h9 K' hK' e he

end Edyn.Islands
