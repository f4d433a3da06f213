import Verif.Graph.Inv

/-!
# The graph operations keep the invariant
-/

namespace Edyn.Graph

/-- Replacing the edge list of a pair. -/
def setE (E : Nat → Nat → List Nat) (n m : Nat) (l : List Nat) : Nat → Nat → List Nat :=
  fun i j => if (i = n ∧ j = m) ∨ (i = m ∧ j = n) then l else E i j

/-- Two node arrays that differ in the adjacency heads only. -/
def NodesSame (nf nf' : FL Node) : Prop :=
  ∀ k, (nf'.elem k).entity = (nf.elem k).entity ∧
    (nf'.elem k).nonConnecting = (nf.elem k).nonConnecting

theorem NodesSame.refl (nf : FL Node) : NodesSame nf nf := fun _ => ⟨rfl, rfl⟩

theorem NodesSame.trans {a b c : FL Node} (h : NodesSame a b) (k : NodesSame b c) :
    NodesSame a c := fun i => ⟨by rw [(k i).1, (h i).1], by rw [(k i).2, (h i).2]⟩

theorem fuel_adjs (s : State) : s.adjs.size ≤ s.fuel := by simp only [State.fuel]; omega
theorem fuel_edges (s : State) : s.edges.size ≤ s.fuel := by simp only [State.fuel]; omega

/-! ### Edge side -/

theorem EdgeInv.mono {ef : FL Edge} {N N' LE E} (h : EdgeInv ef N LE E) (hN : ∀ n ∈ N, n ∈ N') :
    EdgeInv ef N' LE E :=
  ⟨h.edgesI, h.symm, h.nodup, h.chain,
    fun n m e he => by
      obtain ⟨a, b, c, d⟩ := h.mem n m e he
      exact ⟨a, hN _ b, hN _ c, d⟩, h.live⟩

theorem Edge.Ends.pair {x : Edge} {n m n' m' : Nat} (h : x.Ends n m) (k : x.Ends n' m') :
    (n' = n ∧ m' = m) ∨ (n' = m ∧ m' = n) := by
  simp only [Edge.Ends] at h k
  rcases h with ⟨h1, h2⟩ | ⟨h1, h2⟩ <;> rcases k with ⟨k1, k2⟩ | ⟨k1, k2⟩ <;>
    simp_all

/-- An edge is in the list of one pair only. -/
theorem EdgeInv.pair {ef : FL Edge} {N LE E} (h : EdgeInv ef N LE E) {n m n' m' e : Nat}
    (h1 : e ∈ E n m) (h2 : e ∈ E n' m') : (n' = n ∧ m' = m) ∨ (n' = m ∧ m' = n) :=
  (h.mem _ _ _ h1).2.2.2.pair (h.mem _ _ _ h2).2.2.2

theorem EdgeInv.cons {ef ef' : FL Edge} {N LE E} (h : EdgeInv ef N LE E) {n m e ent : Nat}
    (hn : n ∈ N) (hm : m ∈ N) (hI : ∃ fl, ef'.Inv (e :: LE) fl) (he : e ∉ LE)
    (hel : ef'.elem e = ⟨some ent, some n, some m, (E n m).head?⟩)
    (ho : ∀ j ∈ LE, ef'.elem j = ef.elem j) :
    EdgeInv ef' N (e :: LE) (setE E n m (e :: E n m)) := by
  have hc : ∀ i j, Chain (fun e => (ef'.elem e).next) (E i j).head? (E i j) := by
    intro i j
    refine (h.chain i j).congr ?_
    intro x hx
    rw [ho x (h.mem i j x hx).1]
  have hnot : ∀ i j, e ∉ E i j := fun i j hx => he (h.mem i j e hx).1
  refine ⟨hI, ?_, ?_, ?_, ?_, ?_⟩
  · intro i j
    simp only [setE]
    by_cases hp : (i = n ∧ j = m) ∨ (i = m ∧ j = n)
    · rw [if_pos hp, if_pos (by tauto)]
    · rw [if_neg hp, if_neg (by tauto), h.symm]
  · intro i j
    simp only [setE]
    split
    · exact List.nodup_cons.2 ⟨hnot n m, h.nodup n m⟩
    · exact h.nodup i j
  · intro i j
    simp only [setE]
    split
    · refine ⟨rfl, ?_⟩
      simp only [hel]
      exact hc n m
    · exact hc i j
  · intro i j x hx
    simp only [setE] at hx
    split at hx
    · rename_i hp
      rcases List.mem_cons.1 hx with rfl | hx
      · refine ⟨by simp, ?_, ?_, ?_⟩
        · rcases hp with ⟨rfl, rfl⟩ | ⟨rfl, rfl⟩ <;> assumption
        · rcases hp with ⟨rfl, rfl⟩ | ⟨rfl, rfl⟩ <;> assumption
        · rw [hel]
          rcases hp with ⟨rfl, rfl⟩ | ⟨rfl, rfl⟩ <;> simp [Edge.Ends]
      · obtain ⟨h1, h2, h3, h4⟩ := h.mem n m x hx
        refine ⟨by simp [h1], ?_, ?_, ?_⟩
        · rcases hp with ⟨rfl, rfl⟩ | ⟨rfl, rfl⟩ <;> assumption
        · rcases hp with ⟨rfl, rfl⟩ | ⟨rfl, rfl⟩ <;> assumption
        · rw [ho x h1]
          rcases hp with ⟨rfl, rfl⟩ | ⟨rfl, rfl⟩
          · exact h4
          · exact h4.symm
    · obtain ⟨h1, h2, h3, h4⟩ := h.mem i j x hx
      exact ⟨by simp [h1], h2, h3, by rw [ho x h1]; exact h4⟩
  · intro x hx
    rcases List.mem_cons.1 hx with rfl | hx
    · rw [hel]
      refine ⟨by simp, n, m, rfl, rfl, by simp [setE]⟩
    · obtain ⟨h1, i, j, h2, h3, h4⟩ := h.live x hx
      rw [ho x hx]
      refine ⟨h1, i, j, h2, h3, ?_⟩
      simp only [setE]
      split
      · rename_i hp
        rcases hp with ⟨rfl, rfl⟩ | ⟨rfl, rfl⟩
        · simp [h4]
        · rw [h.symm]; simp [h4]
      · exact h4

/-- Removing a set `R` of edges of one pair. -/
theorem EdgeInv.drop {ef ef' : FL Edge} {N LE LE' E} (h : EdgeInv ef N LE E) {n m : Nat}
    {L : List Nat} (hI : ∃ fl, ef'.Inv LE' fl) (hL : L.Sublist (E n m))
    (hLE : ∀ x, x ∈ LE' ↔ x ∈ LE ∧ (x ∈ E n m → x ∈ L))
    (hc : Chain (fun e => (ef'.elem e).next) L.head? L)
    (ho : ∀ x ∈ LE', x ∉ E n m → ef'.elem x = ef.elem x)
    (hs : ∀ x ∈ L, (ef'.elem x).entity = (ef.elem x).entity ∧ (ef'.elem x).n0 = (ef.elem x).n0 ∧
      (ef'.elem x).n1 = (ef.elem x).n1) :
    EdgeInv ef' N LE' (setE E n m L) := by
  have hsub : ∀ x ∈ L, x ∈ E n m := fun x hx => hL.subset hx
  have hother : ∀ i j, ¬((i = n ∧ j = m) ∨ (i = m ∧ j = n)) → ∀ x ∈ E i j,
      x ∉ E n m := fun i j hp x hx hx' => hp (h.pair hx' hx)
  refine ⟨hI, ?_, ?_, ?_, ?_, ?_⟩
  · intro i j
    simp only [setE]
    by_cases hp : (i = n ∧ j = m) ∨ (i = m ∧ j = n)
    · rw [if_pos hp, if_pos (by tauto)]
    · rw [if_neg hp, if_neg (by tauto), h.symm]
  · intro i j
    simp only [setE]
    split
    · exact (h.nodup n m).sublist hL
    · exact h.nodup i j
  · intro i j
    simp only [setE]
    split
    · exact hc
    · rename_i hp
      refine (h.chain i j).congr ?_
      intro x hx
      have hne := hother i j hp x hx
      rw [ho x ((hLE x).2 ⟨(h.mem i j x hx).1, fun hh => absurd hh hne⟩) hne]
  · intro i j x hx
    simp only [setE] at hx
    split at hx
    · rename_i hp
      obtain ⟨h1, h2, h3, h4⟩ := h.mem n m x (hsub x hx)
      refine ⟨(hLE x).2 ⟨h1, fun _ => hx⟩, ?_, ?_, ?_⟩
      · rcases hp with ⟨rfl, rfl⟩ | ⟨rfl, rfl⟩ <;> assumption
      · rcases hp with ⟨rfl, rfl⟩ | ⟨rfl, rfl⟩ <;> assumption
      · obtain ⟨_, k1, k2⟩ := hs x hx
        simp only [Edge.Ends, k1, k2] at h4 ⊢
        rcases hp with ⟨rfl, rfl⟩ | ⟨rfl, rfl⟩
        · exact h4
        · exact h4.symm
    · rename_i hp
      obtain ⟨h1, h2, h3, h4⟩ := h.mem i j x hx
      have hne := hother i j hp x hx
      have hx' : x ∈ LE' := (hLE x).2 ⟨h1, fun hh => absurd hh hne⟩
      exact ⟨hx', h2, h3, by rw [ho x hx' hne]; exact h4⟩
  · intro x hx
    obtain ⟨hx1, hx2⟩ := (hLE x).1 hx
    obtain ⟨h1, i, j, h2, h3, h4⟩ := h.live x hx1
    by_cases hnm : x ∈ E n m
    · obtain ⟨k0, k1, k2⟩ := hs x (hx2 hnm)
      refine ⟨by rw [k0]; exact h1, i, j, by rw [k1]; exact h2, by rw [k2]; exact h3, ?_⟩
      simp only [setE]
      rw [if_pos (h.pair hnm h4)]
      exact hx2 hnm
    · rw [ho x hx hnm]
      refine ⟨h1, i, j, h2, h3, ?_⟩
      simp only [setE]
      split
      · rename_i hp
        exfalso
        apply hnm
        rcases hp with ⟨rfl, rfl⟩ | ⟨rfl, rfl⟩
        · exact h4
        · rw [h.symm]; exact h4
      · exact h4

/-! ### Nodes -/

theorem insertNode_spec {s : State} {g : Ghost} (h : GInv s g) (ent : Nat) (nc : Bool) :
    ∃ i s', insertNode s ent nc = some (i, s') ∧ i ∉ g.N ∧
      GInv s' { g with N := i :: g.N, adj := fset g.adj i [] } ∧
      s'.nodes.elem i = ⟨some ent, nc, none, none⟩ ∧
      (∀ n ∈ g.N, s'.nodes.elem n = s.nodes.elem n) ∧ s'.edges = s.edges := by
  obtain ⟨fl, hN⟩ := h.adj.nodesI
  obtain ⟨i, f', fl', h1, h2, h3, h4, h5, h6, _⟩ := FL.insert_spec hN ⟨some ent, nc, none, none⟩
  refine ⟨i, { s with nodes := f' }, by simp [insertNode, h1], h3, ?_, h5, h6, rfl⟩
  have hne : ∀ n ∈ g.N, n ≠ i := fun n hn e => h3 (e ▸ hn)
  refine ⟨⟨⟨fl', h2⟩, h.adj.adjsI, ?_, ?_, ?_, ?_, ?_, ?_⟩,
    h.edge.mono (fun n hn => List.mem_cons_of_mem _ hn), ⟨?_, ?_⟩, ?_⟩
  · intro n hn
    rcases List.mem_cons.1 hn with rfl | hn
    · simp [heads, h5, Chain]
    · simp only [heads, h6 n hn, fset_ne _ _ _ _ (hne n hn)]
      exact h.adj.chain n hn
  · intro n hn p hp
    rcases List.mem_cons.1 hn with rfl | hn
    · simp at hp
    · simp only [fset_ne _ _ _ _ (hne n hn)] at hp
      exact h.adj.elem n hn p hp
  · intro n hn
    rcases List.mem_cons.1 hn with rfl | hn
    · simp
    · simp only [fset_ne _ _ _ _ (hne n hn)]
      exact h.adj.nodupA n hn
  · intro n hn
    rcases List.mem_cons.1 hn with rfl | hn
    · simp
    · simp only [fset_ne _ _ _ _ (hne n hn)]
      exact h.adj.nodupN n hn
  · intro n hn n' hn' p hp p' hp' e
    rcases List.mem_cons.1 hn with rfl | hn
    · simp at hp
    rcases List.mem_cons.1 hn' with rfl | hn'
    · simp at hp'
    simp only [fset_ne _ _ _ _ (hne n hn)] at hp
    simp only [fset_ne _ _ _ _ (hne n' hn')] at hp'
    exact h.adj.uniq n hn n' hn' p hp p' hp' e
  · intro a ha
    obtain ⟨n, hn, m, hm⟩ := h.adj.cover a ha
    exact ⟨n, by simp [hn], m, by simp only [fset_ne _ _ _ _ (hne n hn)]; exact hm⟩
  · intro n hn p hp
    rcases List.mem_cons.1 hn with rfl | hn
    · simp at hp
    · simp only [fset_ne _ _ _ _ (hne n hn)] at hp
      exact h.link.head n hn p hp
  · intro n hn m
    rcases List.mem_cons.1 hn with rfl | hn
    · simp only [fset_same, List.map_nil, List.not_mem_nil, false_iff, not_not]
      rw [List.eq_nil_iff_forall_not_mem]
      intro e he
      exact h3 (h.edge.mem _ _ e he).2.1
    · simp only [fset_ne _ _ _ _ (hne n hn)]
      exact h.link.nbr n hn m
  · intro n hn
    rcases List.mem_cons.1 hn with rfl | hn
    · simp [h5]
    · simp only [h6 n hn]
      exact h.ent n hn

theorem removeNode_spec {s : State} {g : Ghost} (h : GInv s g) {n : Nat} (hn : n ∈ g.N)
    (hE : ∀ m, g.E n m = []) :
    ∃ s', removeNode s n = some s' ∧ GInv s' { g with N := g.N.erase n } ∧
      (∀ k ∈ g.N, k ≠ n → s'.nodes.elem k = s.nodes.elem k) ∧ s'.edges = s.edges ∧
      (s'.nodes.elem n).entity = none := by
  obtain ⟨fl, hN⟩ := h.adj.nodesI
  obtain ⟨f', h1, h2, h3, h4⟩ := FL.remove_spec hN hn
  have hadj : g.adj n = [] := by
    rw [List.eq_nil_iff_forall_not_mem]
    intro p hp
    exact ((h.link.nbr n hn p.2).1 (List.mem_map.2 ⟨p, hp, rfl⟩)) (hE p.2)
  have hhead : (s.nodes.elem n).adj = none := by
    have := h.adj.chain n hn
    rw [hadj] at this
    exact this
  have hsub : ∀ k, k ∈ g.N.erase n ↔ k ≠ n ∧ k ∈ g.N := fun k => hN.live_nodup.mem_erase_iff
  have hel : ∀ k, k ≠ n → f'.elem k = s.nodes.elem k := fun k hk => by rw [h4, fset_ne _ _ _ _ hk]
  refine ⟨{ s with nodes := f' }, ?_, ?_, fun k _ hk => hel k hk, rfl, ?_⟩
  · have he := h.ent n hn
    rw [Option.ne_none_iff_isSome] at he
    simp [removeNode, hN.get hn, he, hhead, h1]
  · refine ⟨⟨⟨_, h2⟩, h.adj.adjsI, ?_, ?_, ?_, ?_, ?_, ?_⟩, ?_, ⟨?_, ?_⟩, ?_⟩
    · intro k hk
      obtain ⟨k1, k2⟩ := (hsub k).1 hk
      simp only [heads, hel k k1]
      exact h.adj.chain k k2
    · intro k hk; exact h.adj.elem k ((hsub k).1 hk).2
    · intro k hk; exact h.adj.nodupA k ((hsub k).1 hk).2
    · intro k hk; exact h.adj.nodupN k ((hsub k).1 hk).2
    · intro k hk k' hk'; exact h.adj.uniq k ((hsub k).1 hk).2 k' ((hsub k').1 hk').2
    · intro a ha
      obtain ⟨k, hk, m, hm⟩ := h.adj.cover a ha
      refine ⟨k, (hsub k).2 ⟨?_, hk⟩, m, hm⟩
      rintro rfl
      rw [hadj] at hm; simp at hm
    · refine ⟨h.edge.edgesI, h.edge.symm, h.edge.nodup, h.edge.chain, ?_, h.edge.live⟩
      intro i j e he
      obtain ⟨a, b, c, d⟩ := h.edge.mem i j e he
      refine ⟨a, (hsub i).2 ⟨?_, b⟩, (hsub j).2 ⟨?_, c⟩, d⟩
      · rintro rfl; rw [hE] at he; simp at he
      · rintro rfl; rw [h.edge.symm, hE] at he; simp at he
    · intro k hk; exact h.link.head k ((hsub k).1 hk).2
    · intro k hk; exact h.link.nbr k ((hsub k).1 hk).2
    · intro k hk
      obtain ⟨k1, k2⟩ := (hsub k).1 hk
      simp only [hel k k1]
      exact h.ent k k2
  · simp only [h4, fset_same]
    rfl

/-! ### Inserting adjacencies and edges -/

theorem hasAdjacency_spec {s : State} {N LA hd adj} (h : AdjInv s.nodes s.adjs N LA hd adj)
    {n : Nat} (hn : n ∈ N) (hh : hd n = heads s n) (m : Nat) :
    hasAdjacency s n m = some (decide (m ∈ (adj n).map Prod.snd)) := by
  obtain ⟨fl, hN⟩ := h.nodesI
  have hf := h.find hn m (fuel_adjs s)
  rw [hh] at hf
  simp only [hasAdjacency, hN.get hn, Option.bind_eq_bind, Option.bind_some]
  rw [show (s.nodes.elem n).adj = heads s n from rfl, hf]
  by_cases hm : m ∈ (adj n).map Prod.snd
  · obtain ⟨a, _, h2⟩ := find_some_of_mem hm
    simp only [Option.bind_some, h2, Option.isSome_some, hm, decide_true]
  · rw [find_none_of_not_mem hm]
    simp only [Option.bind_some, Option.isSome_none, hm, decide_false]

theorem insertAdjOneWay_spec {s : State} {N LA adj} (h : AdjInv s.nodes s.adjs N LA (heads s) adj)
    {n m : Nat} (e : Nat) (hn : n ∈ N) (hm : m ∉ (adj n).map Prod.snd) :
    ∃ s' a, insertAdjOneWay s n m e = some s' ∧
      AdjInv s'.nodes s'.adjs N (a :: LA) (heads s') (fset adj n ((a, m) :: adj n)) ∧ a ∉ LA ∧
      s'.edges = s.edges ∧ (s'.adjs.elem a).edge = some e ∧
      (∀ b ∈ LA, s'.adjs.elem b = s.adjs.elem b) ∧ NodesSame s.nodes s'.nodes := by
  obtain ⟨flN, hN⟩ := h.nodesI
  obtain ⟨flA, hA⟩ := h.adjsI
  obtain ⟨a, f', fl', h1, h2, h3, h4, h5, h6, _⟩ := FL.insert_spec hA ⟨some m, some e, none⟩
  have ha : a ∈ a :: LA := by simp
  refine ⟨{ s with
      adjs := { f' with elem := fset f'.elem a ⟨some m, some e, (s.nodes.elem n).adj⟩ }
      nodes := { s.nodes with elem := fset s.nodes.elem n { s.nodes.elem n with adj := some a } } },
    a, ?_, ?_, h3, rfl, by simp, ?_, ?_⟩
  · simp only [insertAdjOneWay, hasAdjacency_spec h hn rfl, hm, decide_false, Option.bind_eq_bind,
      Option.bind_some, Bool.not_false, check_true, h1, hN.get hn, h2.put ha, hN.put hn]
  · refine h.cons hn ⟨flN, hN.fset hn _⟩ ⟨fl', h2.fset ha _⟩ h3 hm (by simp) (by simp [heads]) ?_ ?_
    · intro b hb
      have : b ≠ a := fun e => h3 (e ▸ hb)
      simp [this, h6 b hb]
    · intro k _
      simp only [heads, fset_apply]
      split <;> simp
  · intro b hb
    have : b ≠ a := fun e => h3 (e ▸ hb)
    simp [this, h6 b hb]
  · intro k
    simp only [fset_apply]
    split
    · rename_i e; subst e; simp
    · simp

theorem find_unique {nf : FL Node} {af : FL Adj} {N LA hd adj}
    (h : AdjInv nf af N LA hd adj) {n m a : Nat} (hn : n ∈ N) (ha : (a, m) ∈ adj n) :
    ((adj n).find? (fun p => p.2 == m)).map Prod.fst = some a := by
  obtain ⟨b, h1, h2⟩ := find_some_of_mem (List.mem_map.2 ⟨_, ha, rfl⟩ : m ∈ (adj n).map Prod.snd)
  rw [h2, h.fun hn ha h1]

/-- Setting the edge field of a record keeps the adjacency side. -/
theorem AdjInv.setEdge {nf : FL Node} {af : FL Adj} {N LA hd adj}
    (h : AdjInv nf af N LA hd adj) {a : Nat} (ha : a ∈ LA) (v : Option Nat) :
    AdjInv nf { af with elem := fset af.elem a { af.elem a with edge := v } } N LA hd adj := by
  obtain ⟨flA, hA⟩ := h.adjsI
  refine h.congr h.nodesI ⟨flA, hA.fset ha _⟩ ?_ (fun _ _ => rfl)
  intro b _
  simp only [fset_apply]
  split
  · rename_i e; subst e; simp
  · simp

theorem insertEdge_spec {s : State} {g : Ghost} (h : GInv s g) (ent : Nat) {n0 n1 : Nat}
    (h0 : n0 ∈ g.N) (h1 : n1 ∈ g.N) (hself : n0 = n1 → g.E n0 n1 = []) :
    ∃ e s' LA' adj', insertEdge s ent n0 n1 = some (e, s') ∧ e ∉ g.LE ∧
      GInv s' ⟨g.N, e :: g.LE, LA', adj', setE g.E n0 n1 (e :: g.E n0 n1)⟩ ∧
      NodesSame s.nodes s'.nodes ∧
      (s'.edges.elem e).entity = some ent ∧ (s'.edges.elem e).n0 = some n0 ∧
      (s'.edges.elem e).n1 = some n1 ∧
      (∀ x ∈ g.LE, s'.edges.elem x = s.edges.elem x) := by
  obtain ⟨flN, hN⟩ := h.adj.nodesI
  obtain ⟨flA, hA⟩ := h.adj.adjsI
  obtain ⟨flE, hE⟩ := h.edge.edgesI
  obtain ⟨e, ef, fl', i1, i2, i3, i4, i5, i6, _⟩ :=
    FL.insert_spec hE ⟨some ent, some n0, some n1, none⟩
  have he : e ∈ e :: g.LE := by simp
  have hs0 := Option.ne_none_iff_isSome.1 (h.ent n0 h0)
  have hs1 := Option.ne_none_iff_isSome.1 (h.ent n1 h1)
  set s1 : State := { s with edges := ef } with hs1def
  have hfind : ∀ (n m : Nat), n ∈ g.N → findAdj s1.adjs m s1.fuel (s.nodes.elem n).adj =
      some (((g.adj n).find? (fun p => p.2 == m)).map Prod.fst) :=
    fun n m hn => h.adj.find hn m (fuel_adjs s1)
  by_cases hadj : n1 ∈ (g.adj n0).map Prod.snd
  · -- an adjacency exists
    obtain ⟨p, hp, hp2⟩ := List.mem_map.1 hadj
    obtain ⟨a, m⟩ := p
    simp only at hp2
    subst hp2
    have hEne := (h.link.nbr n0 h0 m).1 hadj
    have hne : n0 ≠ m := fun e => hEne (hself e)
    have hadj1 : n0 ∈ (g.adj m).map Prod.snd := (h.link.nbr m h1 n0).2 (by rw [h.edge.symm]; exact hEne)
    obtain ⟨q, hq, hq2⟩ := List.mem_map.1 hadj1
    obtain ⟨b, k⟩ := q
    simp only at hq2
    subst hq2
    have haLA := (h.adj.elem k h0 _ hp).1
    have hbLA := (h.adj.elem m h1 _ hq).1
    simp only at haLA hbLA
    have hab : b ≠ a := by
      rintro rfl
      exact hne (h.adj.inj h0 h1 hp hq).1
    have hya : (s.adjs.elem a).edge = (g.E k m).head? := h.link.head k h0 _ hp
    have hyb : (s.adjs.elem b).edge = (g.E k m).head? := by
      have := h.link.head m h1 _ hq
      rw [this, h.edge.symm]
    have hsome : (g.E k m).head?.isSome := by
      cases hl : g.E k m with
      | nil => exact absurd hl hEne
      | cons x xs => simp
    let af1 : FL Adj := { s.adjs with
      elem := fset s.adjs.elem a { s.adjs.elem a with edge := some e } }
    let af2 : FL Adj := { af1 with elem := fset af1.elem b { af1.elem b with edge := some e } }
    let ef2 : FL Edge := { ef with
      elem := fset ef.elem e ⟨some ent, some k, some m, (g.E k m).head?⟩ }
    have hI1 : AdjInv s.nodes af1 g.N g.LA (heads s) g.adj := h.adj.setEdge haLA _
    have hI2 : AdjInv s.nodes af2 g.N g.LA (heads s) g.adj := hI1.setEdge hbLA _
    obtain ⟨flA1, hA1⟩ := hI1.adjsI
    have hf2 : findAdj af1 k (State.mk s.nodes ef2 af1).fuel (s.nodes.elem m).adj = some (some b) := by
      have := hI1.find (fuel := (State.mk s.nodes ef2 af1).fuel) h1 k
        (fuel_adjs (State.mk s.nodes ef2 af1))
      rw [find_unique hI1 h1 hq] at this
      exact this
    have hb1 : af1.elem b = s.adjs.elem b := by simp [af1, hab]
    refine ⟨e, ⟨s.nodes, ef2, af2⟩, g.LA, g.adj, ?_, i3, ?_, NodesSame.refl _, by simp [ef2],
      by simp [ef2], by simp [ef2], ?_⟩
    · simp only [insertEdge, hN.get h0, hN.get h1, hs0, hs1, Option.bind_eq_bind, Option.bind_some,
        check_true, i1]
      have := hfind k m h0
      rw [find_unique h.adj h0 hp] at this
      simp only [s1] at this
      simp only [this, Option.bind_some, hA.get haLA, hya, hsome, check_true, i2.put he, hA.put haLA]
      have hf2' := hf2
      simp only [af1, ef2] at hf2'
      rw [← hya]
      simp only [hya]
      rw [hf2']
      simp only [Option.bind_some]
      rw [show FL.get { s.adjs with
        elem := fset s.adjs.elem a { s.adjs.elem a with edge := some e } } b
          = some (af1.elem b) from hA1.get hbLA]
      simp only [Option.bind_some, hb1, hyb, beq_self_eq_true, check_true]
      rw [show FL.put { s.adjs with
        elem := fset s.adjs.elem a { s.adjs.elem a with edge := some e } } b
          { s.adjs.elem b with edge := some e } = some af2 from by
            rw [hA1.put hbLA]; simp only [af2, hb1]]
      simp [ef2]
    · refine ⟨hI2, ?_, ⟨?_, ?_⟩, h.ent⟩
      · refine h.edge.cons (ent := ent) h0 h1 ⟨fl', i2.fset he _⟩ i3 (by simp [ef2]) ?_
        intro j hj
        have : j ≠ e := fun hh => i3 (hh ▸ hj)
        simp [ef2, this, i6 j hj]
      · intro n hn p hp'
        have h2 : (af2.elem p.1).edge = if p.1 = b then some e else if p.1 = a then some e
            else (s.adjs.elem p.1).edge := by
          by_cases c1 : p.1 = b
          · simp [af2, c1]
          · by_cases c2 : p.1 = a
            · simp [af2, af1, c1, c2, Ne.symm hab]
            · simp [af2, af1, c1, c2]
        rw [h2]
        by_cases hpb : p.1 = b
        · have := h.adj.inj hn h1 (m := p.2) (by rw [← hpb] at hq ⊢; exact hp') hq
          rw [if_pos hpb, this.1, this.2]
          simp [setE]
        · by_cases hpa : p.1 = a
          · have := h.adj.inj hn h0 (m := p.2) (by rw [← hpa] at hp ⊢; exact hp') hp
            rw [if_neg hpb, if_pos hpa, this.1, this.2]
            simp [setE]
          · rw [if_neg hpb, if_neg hpa, h.link.head n hn p hp']
            simp only [setE]
            split
            · rename_i hc
              exfalso
              rcases hc with ⟨c1, c2⟩ | ⟨c1, c2⟩
              · subst c1
                exact hpa (h.adj.fun hn (by rw [← c2] at *; exact hp') (by rw [c2]; exact hp))
              · subst c1
                exact hpb (h.adj.fun hn (by rw [← c2] at *; exact hp') (by rw [c2]; exact hq))
            · rfl
      · intro n hn j
        rw [h.link.nbr n hn j]
        simp only [setE]
        split
        · rename_i hc
          simp only [ne_eq, reduceCtorEq, not_false_eq_true, iff_true]
          rcases hc with ⟨rfl, rfl⟩ | ⟨rfl, rfl⟩
          · exact hEne
          · rw [h.edge.symm]; exact hEne
        · rfl
    · intro j hj
      have : j ≠ e := fun hh => i3 (hh ▸ hj)
      simp [ef2, this, i6 j hj]
  · -- a new adjacency
    have hEn : g.E n0 n1 = [] := by
      by_contra hne
      exact hadj ((h.link.nbr n0 h0 n1).2 hne)
    have hadj1 : n0 ∉ (g.adj n1).map Prod.snd := by
      rw [h.link.nbr n1 h1 n0, h.edge.symm, hEn]; simp
    have hedge : EdgeInv ef g.N (e :: g.LE) (setE g.E n0 n1 (e :: g.E n0 n1)) :=
      h.edge.cons (ent := ent) h0 h1 ⟨fl', i2⟩ i3 (by rw [i5, hEn]; rfl) (fun j hj => i6 j hj)
    have hpre : ∀ X : Option State, insertAdj s1 n0 n1 e = X →
        insertEdge s ent n0 n1 = X.map fun s => (e, s) := by
      intro X hX
      have := hfind n0 n1 h0
      rw [find_none_of_not_mem hadj] at this
      simp only [s1] at this
      simp only [insertEdge, hN.get h0, hN.get h1, hs0, hs1, Option.bind_eq_bind, Option.bind_some,
        check_true, i1, this]
      rw [← hX]
    obtain ⟨s2, a, j1, j2, j3, j4, j5, j6, j7⟩ :=
      insertAdjOneWay_spec (s := s1) h.adj e h0 hadj
    have hlast : ∀ x ∈ g.LE, s1.edges.elem x = s.edges.elem x := fun x hx => i6 x hx
    by_cases hne : n0 = n1
    · subst hne
      refine ⟨e, s2, a :: g.LA, fset g.adj n0 ((a, n0) :: g.adj n0), ?_, i3, ?_, j7,
        by rw [j4]; simp [s1, i5], by rw [j4]; simp [s1, i5], by rw [j4]; simp [s1, i5],
        fun x hx => by rw [j4]; exact hlast x hx⟩
      · rw [hpre (some s2) (by simp [insertAdj, j1])]; rfl
      · refine ⟨j2, by rw [j4]; exact hedge, ⟨?_, ?_⟩, ?_⟩
        · intro n hn p hp
          dsimp only at hp hn ⊢
          rw [fset_apply] at hp
          split at hp
          · rename_i c; subst c
            rcases List.mem_cons.1 hp with rfl | hp
            · rw [j5]; simp [setE]
            · rw [j6 _ (h.adj.elem n hn p hp).1]
              have hne : p.2 ≠ n := by
                intro c; exact hadj (List.mem_map.2 ⟨p, hp, c⟩)
              rw [show s1.adjs = s.adjs from rfl, h.link.head n hn p hp]
              simp [setE, hne]
          · rename_i hk
            rw [j6 _ (h.adj.elem n hn p hp).1, show s1.adjs = s.adjs from rfl, h.link.head n hn p hp]
            simp [setE, hk]
        · intro n hn j
          dsimp only at hn ⊢
          rw [fset_apply]
          split
          · rename_i c; subst c
            simp only [List.map_cons, List.mem_cons, h.link.nbr n hn j, setE]
            by_cases hj : j = n
            · simp [hj]
            · simp [hj]
          · rename_i hk
            rw [h.link.nbr n hn j]
            simp [setE, hk]
        · intro n hn
          rw [(j7 n).1]; exact h.ent n hn
    · have hadj1' : n0 ∉ (fset g.adj n0 ((a, n1) :: g.adj n0) n1).map Prod.snd := by
        rw [fset_ne _ _ _ _ (Ne.symm hne)]; exact hadj1
      obtain ⟨s3, b, k1, k2, k3, k4, k5, k6, k7⟩ := insertAdjOneWay_spec j2 e h1 hadj1'
      rw [fset_ne _ _ _ _ (Ne.symm hne)] at k2
      refine ⟨e, s3, b :: a :: g.LA,
        fset (fset g.adj n0 ((a, n1) :: g.adj n0)) n1 ((b, n0) :: g.adj n1), ?_, i3, ?_,
        j7.trans k7, by rw [k4, j4]; simp [s1, i5], by rw [k4, j4]; simp [s1, i5],
        by rw [k4, j4]; simp [s1, i5], fun x hx => by rw [k4, j4]; exact hlast x hx⟩
      · rw [hpre (some s3) (by simp [insertAdj, j1, k1, hne])]; rfl
      · have haLA : a ∈ a :: g.LA := by simp
        refine ⟨k2, by rw [k4, j4]; exact hedge, ⟨?_, ?_⟩, ?_⟩
        · intro n hn p hp
          have key : ∀ q ∈ g.adj n, (s3.adjs.elem q.1).edge = (g.E n q.2).head? := by
            intro q hq
            have hqa := (h.adj.elem n hn q hq).1
            rw [k6 _ (by simp [hqa]), j6 _ hqa, show s1.adjs = s.adjs from rfl,
              h.link.head n hn q hq]
          have key2 : ∀ q ∈ g.adj n, ¬((n = n0 ∧ q.2 = n1) ∨ (n = n1 ∧ q.2 = n0)) := by
            rintro q hq (⟨c1, c2⟩ | ⟨c1, c2⟩)
            · subst c1; exact hadj (List.mem_map.2 ⟨q, hq, c2⟩)
            · subst c1; exact hadj1 (List.mem_map.2 ⟨q, hq, c2⟩)
          have fin : ∀ q ∈ g.adj n,
              (s3.adjs.elem q.1).edge = (setE g.E n0 n1 (e :: g.E n0 n1) n q.2).head? := by
            intro q hq
            rw [key q hq]
            simp only [setE]
            rw [if_neg (key2 q hq)]
          simp only [fset_apply] at hp
          split at hp
          · rename_i c; subst c
            rcases List.mem_cons.1 hp with rfl | hp
            · rw [k5]; simp [setE]
            · exact fin p hp
          · split at hp
            · rename_i c; subst c
              rcases List.mem_cons.1 hp with rfl | hp
              · rw [k6 a haLA, j5]; simp [setE]
              · exact fin p hp
            · exact fin p hp
        · intro n hn j
          simp only [fset_apply]
          split
          · rename_i c; subst c
            simp only [List.map_cons, List.mem_cons, h.link.nbr n hn j, setE]
            by_cases hj : j = n0
            · simp [hj]
            · simp [hj, Ne.symm hne]
          · rename_i c1
            split
            · rename_i c; subst c
              simp only [List.map_cons, List.mem_cons, h.link.nbr n hn j, setE]
              by_cases hj : j = n1
              · simp [hj]
              · simp [hj, hne]
            · rename_i c2
              rw [h.link.nbr n hn j]
              simp [setE, c1, c2]
        · intro n hn
          rw [(k7 n).1, (j7 n).1]; exact h.ent n hn

end Edyn.Graph
