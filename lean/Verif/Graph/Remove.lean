import Verif.Graph.Ops
import Mathlib.Data.List.Basic

/-!
# Removing edges keeps the invariant
-/

namespace Edyn.Graph

theorem removeAdjacency_spec {s : State} {N LA hd adj} (h : AdjInv s.nodes s.adjs N LA hd adj)
    {n a m : Nat} (hn : n ∈ N) (hh : hd n = heads s n) (ha : (a, m) ∈ adj n)
    (hedge : (s.adjs.elem a).edge = none) :
    ∃ s' l l', removeAdjacency s n a = some s' ∧ adj n = l ++ (a, m) :: l' ∧
      AdjInv s'.nodes s'.adjs N (LA.erase a) (fset hd n (heads s' n)) (fset adj n (l ++ l')) ∧
      s'.edges = s.edges ∧ (∀ b, b ≠ a → (s'.adjs.elem b).edge = (s.adjs.elem b).edge) ∧
      NodesSame s.nodes s'.nodes ∧ (∀ k, k ≠ n → heads s' k = heads s k) := by
  obtain ⟨flN, hN⟩ := h.nodesI
  obtain ⟨flA, hA⟩ := h.adjsI
  have haLA : a ∈ LA := (h.elem n hn _ ha).1
  obtain ⟨l, l', hl⟩ := List.append_of_mem ha
  have hnd := h.nodupA n hn
  have hch := h.chain n hn
  rw [hl] at hnd hch
  simp only [List.map_append, List.map_cons] at hnd hch
  have hsubLA : ∀ x, x ∈ (adj n).map Prod.fst → x ∈ LA := by
    intro x hx
    obtain ⟨p, hp, rfl⟩ := List.mem_map.1 hx
    exact (h.elem n hn p hp).1
  have hothers : ∀ k ∈ N, k ≠ n → ∀ p ∈ adj k, p.1 ∉ (adj n).map Prod.fst := by
    intro k hk hkn p hp hx
    obtain ⟨q, hq, e⟩ := List.mem_map.1 hx
    exact hkn (h.uniq k hk n hn p hp q hq e.symm)
  rcases List.eq_nil_or_concat l with rfl | ⟨l0, p, rfl⟩
  · -- the record is the first of the list
    simp only [List.map_nil, List.nil_append] at hch hnd
    have hfirst : (s.nodes.elem n).adj = some a := by
      have := hch.1
      rw [hh] at this; exact this
    obtain ⟨f', r1, r2, r3, r4⟩ := FL.remove_spec hA haLA
    refine ⟨⟨{ s.nodes with elem := fset s.nodes.elem n { s.nodes.elem n with
        adj := (s.adjs.elem a).next } }, s.edges, f'⟩, [], l', ?_, hl, ?_, rfl, ?_, ?_, ?_⟩
    · simp only [removeAdjacency, hA.get haLA, hedge, hN.get hn, Option.bind_eq_bind,
        Option.bind_some, beq_self_eq_true, check_true, hfirst, if_true, hN.put hn, r1]
    · refine h.drop hn hl ⟨flN, hN.fset hn _⟩ ⟨_, r2⟩ ?_ ?_ ?_ ?_
      · intro b _ hb
        simp only [r4, fset_ne _ _ _ _ hb]
      · intro k hk hkn q hq
        have : q.1 ≠ a := by
          intro e
          exact hothers k hk hkn q hq (by rw [hl]; simp [e])
        simp only [r4, fset_ne _ _ _ _ this]
      · simp only [fset_same, heads, List.nil_append]
        refine hch.2.congr ?_
        intro x hx
        have : x ≠ a := by rintro rfl; exact (List.nodup_cons.1 hnd).1 hx
        simp only [r4, fset_ne _ _ _ _ this]
      · intro k _ hkn; simp [hkn]
    · intro b hb
      simp only [r4, fset_ne _ _ _ _ hb]
    · intro k
      simp only [fset_apply]
      split
      · rename_i e; subst e; simp
      · simp
    · intro k hk
      simp [heads, hk]
  · -- the record has a predecessor
    obtain ⟨p, mp⟩ := p
    simp only [List.concat_eq_append] at *
    simp only [List.map_append, List.map_cons, List.map_nil, List.append_assoc, List.cons_append,
      List.nil_append] at hch hnd
    have hpLA : p ∈ LA := hsubLA p (by rw [hl]; simp)
    have hpa : p ≠ a := by
      rintro rfl
      rw [List.nodup_append] at hnd
      simp at hnd
    have hnf : (s.nodes.elem n).adj ≠ some a := by
      have := hch.head
      rw [hh] at this
      rw [show (s.nodes.elem n).adj = heads s n from rfl, this]
      cases hl0 : l0.map Prod.fst with
      | nil => simp [hpa]
      | cons z zs =>
        rw [hl0] at hnd
        simp only [List.cons_append, List.head?_cons, ne_eq, Option.some.injEq]
        rintro rfl
        simp at hnd
    have hfp : findPrev s.adjs a s.fuel (s.nodes.elem n).adj = some p := by
      rw [show (s.nodes.elem n).adj = hd n from hh.symm]
      refine findPrev_chain (xs := l0.map Prod.fst) (ys := l'.map Prod.fst) hch ?_ hnd ?_
      · intro x hx
        refine hA.lt (hsubLA x ?_)
        rw [hl]
        simp only [List.mem_append, List.mem_singleton] at hx
        simp only [List.map_append, List.map_cons, List.map_nil, List.mem_append, List.mem_cons]
        tauto
      · have := h.length_le hn
        rw [hl] at this
        simp at this ⊢
        have := fuel_adjs s
        omega
    let af1 : FL Adj := { s.adjs with
      elem := fset s.adjs.elem p { s.adjs.elem p with next := (s.adjs.elem a).next } }
    have hA1 : af1.Inv LA flA := hA.fset hpLA _
    obtain ⟨f', r1, r2, r3, r4⟩ := FL.remove_spec hA1 haLA
    refine ⟨⟨s.nodes, s.edges, f'⟩, l0 ++ [(p, mp)], l', ?_, hl, ?_, rfl, ?_, NodesSame.refl _,
      fun _ _ => rfl⟩
    · simp only [removeAdjacency, hA.get haLA, hedge, hN.get hn, Option.bind_eq_bind,
        Option.bind_some, beq_self_eq_true, check_true, if_neg hnf, hfp, hA.get hpLA, hA.put hpLA]
      have : FL.remove { s.adjs with
          elem := fset s.adjs.elem p { s.adjs.elem p with next := (s.adjs.elem a).next } } a
          = some f' := r1
      rw [this]
      rfl
    · refine h.drop hn hl ⟨flN, hN⟩ ⟨_, r2⟩ ?_ ?_ ?_ ?_
      · intro b _ hb
        simp only [r4, fset_ne _ _ _ _ hb, af1, fset_apply]
        split
        · rename_i e; subst e; rfl
        · rfl
      · intro k hk hkn q hq
        have h1 : q.1 ≠ a := by
          intro e
          exact hothers k hk hkn q hq (by rw [hl]; simp [e])
        have h2 : q.1 ≠ p := by
          intro e
          exact hothers k hk hkn q hq (by rw [hl]; simp [e])
        simp only [r4, fset_ne _ _ _ _ h1, af1, fset_ne _ _ _ _ h2]
      · simp only [fset_same, heads]
        rw [show (s.nodes.elem n).adj = hd n from hh.symm]
        have hu := hch.unlink hnd
        simp only [List.map_append, List.map_cons, List.map_nil, List.append_assoc,
          List.cons_append, List.nil_append]
        refine hu.congr ?_
        intro x hx
        have hxa : x ≠ a := by
          rintro rfl
          have := (List.perm_middle (a := x) (l₁ := l0.map Prod.fst ++ [p])
            (l₂ := l'.map Prod.fst)).nodup_iff.1 (by simpa using hnd)
          rw [List.nodup_cons] at this
          exact this.1 (by simpa using hx)
        simp only [r4, fset_ne _ _ _ _ hxa, af1, fset_apply]
        split <;> rfl
      · intro k _ hkn; simp [hkn]
    · intro b hb
      simp only [r4, fset_ne _ _ _ _ hb, af1, fset_apply]
      split
      · rename_i e; subst e; rfl
      · rfl

/-- Changing the heads outside of what is known. -/
theorem AdjInv.hd {nf : FL Node} {af : FL Adj} {N LA hd hd' adj} (h : AdjInv nf af N LA hd adj)
    (hh : ∀ n ∈ N, hd' n = hd n) : AdjInv nf af N LA hd' adj :=
  h.congr h.nodesI h.adjsI (fun _ _ => ⟨rfl, rfl⟩) hh

theorem removeAdjacencyEdge_spec {s : State} {N LA adj}
    (h : AdjInv s.nodes s.adjs N LA (heads s) adj) {n a m e : Nat} {l l' : List Nat} (hn : n ∈ N)
    (ha : (a, m) ∈ adj n) (hedge : (s.adjs.elem a).edge = (l ++ e :: l').head?)
    (hch : Chain (fun x => (s.edges.elem x).next) (l ++ e :: l').head? (l ++ e :: l'))
    (hnd : (l ++ e :: l').Nodup) (hlt : e < s.edges.size) :
    ∃ s' LA' adj', removeAdjacencyEdge s n a e = some s' ∧
      AdjInv s'.nodes s'.adjs N LA' (heads s') adj' ∧ s'.edges = s.edges ∧
      NodesSame s.nodes s'.nodes ∧
      (∀ k, k ≠ n → adj' k = adj k) ∧
      (∀ b, b ≠ a → (s'.adjs.elem b).edge = (s.adjs.elem b).edge) ∧
      (∀ p ∈ adj' n, p ∈ adj n ∧ (p.1 = a → (s'.adjs.elem a).edge = (l ++ l').head?)) ∧
      (∀ j, j ∈ (adj' n).map Prod.snd ↔ j ∈ (adj n).map Prod.snd ∧ (j = m → l ++ l' ≠ [])) := by
  obtain ⟨flA, hA⟩ := h.adjsI
  have haLA : a ∈ LA := (h.elem n hn _ ha).1
  -- the new value of the edge field
  have hx' : (if (s.adjs.elem a).edge = some e then
      { s.adjs.elem a with edge := (s.edges.elem e).next } else s.adjs.elem a)
      = { s.adjs.elem a with edge := (l ++ l').head? } := by
    cases l with
    | nil =>
      simp only [List.nil_append] at hedge hch ⊢
      have h1 := hch.2.head
      simp only at h1
      rw [if_pos (by rw [hedge]; rfl), h1]
    | cons x xs =>
      have hxe : x ≠ e := by
        rintro rfl; simp at hnd
      simp only [List.cons_append, List.head?_cons] at hedge ⊢
      rw [if_neg (by rw [hedge]; simpa using hxe), ← hedge]
  let af1 : FL Adj := { s.adjs with
    elem := fset s.adjs.elem a { s.adjs.elem a with edge := (l ++ l').head? } }
  have hI1 : AdjInv s.nodes af1 N LA (heads s) adj := h.setEdge haLA _
  have hpre : removeAdjacencyEdge s n a e =
      if (l ++ l').head? = none then removeAdjacency ⟨s.nodes, s.edges, af1⟩ n a
      else some ⟨s.nodes, s.edges, af1⟩ := by
    simp only [removeAdjacencyEdge, hA.get haLA, FL.get_of_lt hlt, Option.bind_eq_bind,
      Option.bind_some]
    rw [hx', hA.put haLA]
    simp only [Option.bind_some]
    rfl
  by_cases hnil : l ++ l' = []
  · have hI1' : AdjInv (State.mk s.nodes s.edges af1).nodes (State.mk s.nodes s.edges af1).adjs N LA
        (heads s) adj := hI1
    obtain ⟨s', p, q, r1, r2, r3, r4, r5, r6, r7⟩ := removeAdjacency_spec hI1' hn rfl ha
      (by simp [af1, hnil])
    refine ⟨s', LA.erase a, fset adj n (p ++ q), by rw [hpre, hnil]; simpa using r1, ?_, r4, r6,
      fun k hk => fset_ne _ _ _ _ hk, ?_, ?_, ?_⟩
    · refine r3.hd ?_
      intro k _
      rw [fset_apply]
      split
      · rename_i c; subst c; rfl
      · rename_i c; exact r7 k c
    · intro b hb
      rw [r5 b hb]
      simp [af1, hb]
    · intro x hx
      rw [fset_same] at hx
      refine ⟨by rw [r2]; simp at hx ⊢; tauto, ?_⟩
      intro hxa
      exfalso
      have := h.nodupA n hn
      rw [r2] at this
      simp only [List.map_append, List.map_cons, List.nodup_append, List.nodup_cons] at this
      rcases List.mem_append.1 hx with hx | hx
      · exact this.2.2 x.1 (List.mem_map.2 ⟨x, hx, rfl⟩) a (by simp) hxa
      · exact this.2.1.1 (List.mem_map.2 ⟨x, hx, hxa⟩)
    · intro j
      rw [fset_same]
      have := h.nodupN n hn
      rw [r2] at this ⊢
      simp only [hnil, ne_eq, not_true_eq_false, imp_false]
      have hp := (List.perm_middle (a := m) (l₁ := p.map Prod.snd) (l₂ := q.map Prod.snd))
      simp only [List.map_append, List.map_cons] at this ⊢
      rw [hp.nodup_iff, List.nodup_cons] at this
      rw [hp.mem_iff, List.mem_cons]
      constructor
      · intro hj
        exact ⟨Or.inr hj, fun e => this.1 (e ▸ hj)⟩
      · rintro ⟨h1 | h1, h2⟩
        · exact absurd h1 h2
        · exact h1
  · have hne : (l ++ l').head? ≠ none := by simpa using hnil
    refine ⟨⟨s.nodes, s.edges, af1⟩, LA, adj, by rw [hpre, if_neg hne], hI1, rfl,
      NodesSame.refl _, fun _ _ => rfl, ?_, ?_, ?_⟩
    · intro b hb
      simp [af1, hb]
    · intro p hp
      exact ⟨hp, fun _ => by simp [af1]⟩
    · intro j
      simp [hnil]

theorem removeEdge_spec {s : State} {g : Ghost} (h : GInv s g) {e : Nat} (he : e ∈ g.LE) :
    ∃ s' LA' adj' n0 n1 l l', removeEdge s e = some s' ∧ g.E n0 n1 = l ++ e :: l' ∧
      GInv s' ⟨g.N, g.LE.erase e, LA', adj', setE g.E n0 n1 (l ++ l')⟩ ∧
      NodesSame s.nodes s'.nodes ∧ (s'.edges.elem e).entity = none ∧
      (∀ x ∈ g.LE, x ≠ e → (s'.edges.elem x).entity = (s.edges.elem x).entity ∧
        (s'.edges.elem x).n0 = (s.edges.elem x).n0 ∧ (s'.edges.elem x).n1 = (s.edges.elem x).n1) := by
  obtain ⟨flN, hN⟩ := h.adj.nodesI
  obtain ⟨flA, hA⟩ := h.adj.adjsI
  obtain ⟨flE, hE⟩ := h.edge.edgesI
  obtain ⟨hent, n0, n1, hn0, hn1, hmem⟩ := h.edge.live e he
  obtain ⟨_, h0, h1, _⟩ := h.edge.mem _ _ _ hmem
  obtain ⟨l, l', hl⟩ := List.append_of_mem hmem
  have hEne : g.E n0 n1 ≠ [] := by rw [hl]; simp
  have hsym : g.E n1 n0 = g.E n0 n1 := h.edge.symm _ _
  have hch := h.edge.chain n0 n1
  have hnd := h.edge.nodup n0 n1
  have hlt := hE.lt he
  -- the two records
  obtain ⟨p0, hp0, hp0e⟩ := List.mem_map.1 ((h.link.nbr n0 h0 n1).2 hEne)
  obtain ⟨a0, k0⟩ := p0
  simp only at hp0e
  subst hp0e
  have ha0 : a0 ∈ g.LA := (h.adj.elem n0 h0 _ hp0).1
  have hz0 : (s.adjs.elem a0).edge = (g.E n0 k0).head? := h.link.head n0 h0 _ hp0
  have hf0 : findAdj s.adjs k0 s.fuel (s.nodes.elem n0).adj = some (some a0) := by
    have := h.adj.find h0 k0 (fuel_adjs s)
    rw [find_unique h.adj h0 hp0] at this
    exact this
  rw [hl] at hch hnd
  -- first and second removal
  have hboth : ∃ s2 LA2 adj2,
      ((removeOtherSide s e n0 k0 (s.adjs.elem a0).edge).bind fun s1 =>
        removeAdjacencyEdge s1 n0 a0 e) = some s2 ∧
      AdjInv s2.nodes s2.adjs g.N LA2 (heads s2) adj2 ∧ s2.edges = s.edges ∧
      NodesSame s.nodes s2.nodes ∧
      Link s2.adjs g.N adj2 (setE g.E n0 k0 (l ++ l')) := by
    by_cases hne : k0 = n0
    · subst hne
      obtain ⟨s2, LA2, adj2, r1, r2, r3, r4, r5, r6, r7, r8⟩ :=
        removeAdjacencyEdge_spec h.adj h0 hp0 (by rw [hz0, hl]) hch hnd hlt
      refine ⟨s2, LA2, adj2, by simpa [removeOtherSide] using r1, r2, r3, r4, ⟨?_, ?_⟩⟩
      · intro n hn p hp
        by_cases hnn : n = k0
        · subst hnn
          obtain ⟨q1, q2⟩ := r7 p hp
          by_cases hpa : p.1 = a0
          · have := (h.adj.inj hn hn (m := p.2) (by rw [← hpa]; exact q1) hp0).2
            rw [hpa, q2 hpa, this]
            simp [setE]
          · rw [r6 _ hpa, h.link.head n hn p q1]
            have : p.2 ≠ n := by
              intro c
              exact hpa (h.adj.fun hn (by
                have := q1; rw [show p = (p.1, n) from Prod.ext rfl c] at this; exact this) hp0)
            simp [setE, this]
        · rw [r5 n hnn] at hp
          have hpa : p.1 ≠ a0 := by
            intro c
            exact hnn (h.adj.uniq n hn k0 h0 p hp _ hp0 c)
          rw [r6 _ hpa, h.link.head n hn p hp]
          simp [setE, hnn]
      · intro n hn j
        by_cases hnn : n = k0
        · subst hnn
          rw [r8 j, h.link.nbr n hn j]
          simp only [setE]
          by_cases hj : j = n
          · subst hj; simp [hEne]
          · simp [hj]
        · rw [r5 n hnn, h.link.nbr n hn j]
          simp [setE, hnn]
    · obtain ⟨p1, hp1, hp1e⟩ := List.mem_map.1 ((h.link.nbr k0 h1 n0).2 (by rw [hsym]; exact hEne))
      obtain ⟨a1, k1⟩ := p1
      simp only at hp1e
      subst hp1e
      have ha1 : a1 ∈ g.LA := (h.adj.elem k0 h1 _ hp1).1
      have hz1 : (s.adjs.elem a1).edge = (g.E k1 k0).head? := by
        rw [← hsym]; exact h.link.head k0 h1 _ hp1
      have hf1 : findAdj s.adjs k1 s.fuel (s.nodes.elem k0).adj = some (some a1) := by
        have := h.adj.find h1 k1 (fuel_adjs s)
        rw [find_unique h.adj h1 hp1] at this
        exact this
      have ha01 : a0 ≠ a1 := by
        rintro rfl
        exact hne (h.adj.inj h1 h0 hp1 hp0).1
      obtain ⟨s1, LA1, adj1, r1, r2, r3, r4, r5, r6, r7, r8⟩ :=
        removeAdjacencyEdge_spec h.adj h1 hp1 (by rw [hz1, hl]) hch hnd hlt
      have hp0' : (a0, k0) ∈ adj1 k1 := by rw [r5 k1 (Ne.symm hne)]; exact hp0
      obtain ⟨s2, LA2, adj2, t1, t2, t3, t4, t5, t6, t7, t8⟩ :=
        removeAdjacencyEdge_spec r2 h0 hp0' (by rw [r6 a0 ha01, hz0, hl]) (by rw [r3]; exact hch) hnd
          (by rw [r3]; exact hlt)
      refine ⟨s2, LA2, adj2, ?_, t2, by rw [t3, r3], r4.trans t4, ⟨?_, ?_⟩⟩
      · simp only [removeOtherSide, Option.bind_eq_bind, hne, ne_eq, not_false_eq_true, if_true, hN.get h1, Option.bind_some, hf1,
          hA.get ha1, hz1, hz0, beq_self_eq_true, check_true, r1, t1]
      · intro n hn p hp
        by_cases hnn : n = k1
        · subst hnn
          obtain ⟨q1, q2⟩ := t7 p hp
          rw [r5 n (Ne.symm hne)] at q1
          by_cases hpa : p.1 = a0
          · have := (h.adj.inj hn hn (m := p.2) (by rw [← hpa]; exact q1) hp0).2
            rw [hpa, q2 hpa, this]
            simp [setE]
          · have hpa1 : p.1 ≠ a1 := by
              intro c
              exact hne (h.adj.uniq n hn k0 h1 p q1 _ hp1 c).symm
            rw [t6 _ hpa, r6 _ hpa1, h.link.head n hn p q1]
            have : p.2 ≠ k0 := by
              intro c
              exact hpa (h.adj.fun hn (by rw [← c]; exact q1 : (p.1, k0) ∈ g.adj n) hp0)
            simp [setE, this, Ne.symm hne]
        · rw [t5 n hnn] at hp
          by_cases hnk : n = k0
          · subst hnk
            obtain ⟨q1, q2⟩ := r7 p hp
            have hpa0 : p.1 ≠ a0 := by
              intro c
              exact hnn (h.adj.uniq n hn k1 h0 p q1 _ hp0 c)
            rw [t6 _ hpa0]
            by_cases hpa : p.1 = a1
            · have := (h.adj.inj hn hn (m := p.2) (by rw [← hpa]; exact q1) hp1).2
              rw [hpa, q2 hpa, this]
              simp [setE]
            · rw [r6 _ hpa, h.link.head n hn p q1]
              have : p.2 ≠ k1 := by
                intro c
                exact hpa (h.adj.fun hn (by rw [← c]; exact q1 : (p.1, k1) ∈ g.adj n) hp1)
              simp [setE, this, hnn]
          · rw [r5 n hnk] at hp
            have hpa0 : p.1 ≠ a0 := by
              intro c
              exact hnn (h.adj.uniq n hn k1 h0 p hp _ hp0 c)
            have hpa1 : p.1 ≠ a1 := by
              intro c
              exact hnk (h.adj.uniq n hn k0 h1 p hp _ hp1 c)
            rw [t6 _ hpa0, r6 _ hpa1, h.link.head n hn p hp]
            simp [setE, hnn, hnk]
      · intro n hn j
        by_cases hnn : n = k1
        · subst hnn
          rw [t8 j, r5 n (Ne.symm hne), h.link.nbr n hn j]
          simp only [setE]
          by_cases hj : j = k0
          · subst hj; simp [hEne]
          · simp [hj, Ne.symm hne]
        · rw [t5 n hnn]
          by_cases hnk : n = k0
          · subst hnk
            rw [r8 j, h.link.nbr n hn j]
            simp only [setE]
            by_cases hj : j = k1
            · subst hj; simp [hEne, hsym]
            · simp [hj, hnn]
          · rw [r5 n hnk, h.link.nbr n hn j]
            simp [setE, hnn, hnk]
  obtain ⟨s2, LA2, adj2, b1, b2, b3, b4, b5⟩ := hboth
  -- unlinking from the edge list
  have hEL : ∀ x ∈ l ++ e :: l', x ∈ g.LE := fun x hx => (h.edge.mem n0 k0 x (by rw [hl]; exact hx)).1
  have hunlink : ∃ ef1, unlinkEdge s2 e (s.adjs.elem a0).edge = some ef1 ∧
      ef1.Inv g.LE flE ∧
      Chain (fun x => (ef1.elem x).next) (l ++ l').head? (l ++ l') ∧
      (∀ x, x ∉ l ++ l' → ef1.elem x = s.edges.elem x) ∧
      (∀ x, (ef1.elem x).entity = (s.edges.elem x).entity ∧ (ef1.elem x).n0 = (s.edges.elem x).n0 ∧
        (ef1.elem x).n1 = (s.edges.elem x).n1) := by
    simp only [unlinkEdge, Option.bind_eq_bind]
    rw [b3]
    rcases List.eq_nil_or_concat l with rfl | ⟨l0, p, rfl⟩
    · refine ⟨s.edges, ?_, hE, ?_, fun _ _ => rfl, fun _ => ⟨rfl, rfl, rfl⟩⟩
      · rw [if_neg]
        rw [hz0, hl]; simp
      · have := hch.2
        simp only [List.nil_append] at this ⊢
        rw [this.head] at this
        exact this
    · simp only [List.concat_eq_append] at *
      simp only [List.append_assoc, List.cons_append, List.nil_append] at hch hnd hEL hl ⊢
      have hpLE : p ∈ g.LE := hEL p (by simp)
      have hpe : p ≠ e := by
        rintro rfl
        rw [List.nodup_append] at hnd
        simp at hnd
      have hfirst : (s.adjs.elem a0).edge ≠ some e := by
        rw [hz0, hl]
        cases l0 with
        | nil => simp [hpe]
        | cons z zs =>
          simp only [List.cons_append, List.head?_cons, ne_eq, Option.some.injEq]
          rintro rfl
          simp at hnd
      have hfp : findPrev s.edges e s2.fuel (s.adjs.elem a0).edge = some p := by
        rw [hz0, hl]
        refine findPrev_chain hch ?_ hnd ?_
        · intro x hx
          refine hE.lt (hEL x ?_)
          simp only [List.mem_append, List.mem_singleton] at hx
          simp only [List.mem_append, List.mem_cons]
          tauto
        · have := length_le_of_nodup_lt (h.edge.nodup n0 k0) (n := s.edges.size)
            (fun x hx => hE.lt (h.edge.mem n0 k0 x hx).1)
          rw [hl] at this
          simp at this
          have h3 := fuel_edges s2
          rw [b3] at h3
          omega
      refine ⟨{ s.edges with
          elem := fset s.edges.elem p { s.edges.elem p with next := (s.edges.elem e).next } },
        ?_, hE.fset hpLE _, ?_, ?_, ?_⟩
      · rw [if_pos hfirst, hfp]
        simp only [Option.bind_some, hE.get hpLE, hE.get he, hE.put hpLE]
      · have hu := hch.unlink hnd
        have hhead : (l0 ++ p :: e :: l').head? = (l0 ++ p :: l').head? := by
          cases l0 <;> simp
        rw [hhead] at hu
        refine hu.congr ?_
        intro x _
        simp only [fset_apply]
        split <;> rfl
      · intro x hx
        have : x ≠ p := by rintro rfl; simp at hx
        simp [this]
      · intro x
        simp only [fset_apply]
        split
        · rename_i c; subst c; simp
        · simp
  obtain ⟨ef1, u1, u2, u3, u4, u5⟩ := hunlink
  obtain ⟨f', r1, r2, r3, r4⟩ := FL.remove_spec u2 he
  have hene : ∀ x ∈ l ++ l', x ≠ e := by
    rintro x hx rfl
    rw [List.nodup_middle, List.nodup_cons] at hnd
    exact hnd.1 hx
  refine ⟨⟨s2.nodes, f', s2.adjs⟩, LA2, adj2, n0, k0, l, l', ?_, hl, ?_, b4, ?_, ?_⟩
  · have hes := Option.ne_none_iff_isSome.1 hent
    simp only [removeEdge, FL.get_of_lt hlt, Option.bind_eq_bind, Option.bind_some, hes, check_true,
      hn0, hn1, hN.get h0, hf0, hA.get ha0]
    cases hcase : removeOtherSide s e n0 k0 (s.adjs.elem a0).edge with
    | none => rw [hcase] at b1; simp at b1
    | some s1 =>
      rw [hcase] at b1
      simp only [Option.bind_some] at b1 ⊢
      rw [b1]
      simp only [Option.bind_some]
      rw [u1]
      simp only [Option.bind_some, r1]
  · refine ⟨b2, ?_, b5, ?_⟩
    · refine h.edge.drop ⟨_, r2⟩ (by rw [hl]; simp) ?_ ?_ ?_ ?_
      · intro x
        rw [hE.live_nodup.mem_erase_iff, hl]
        constructor
        · rintro ⟨c1, c2⟩
          refine ⟨c2, fun hx => ?_⟩
          simp only [List.mem_append, List.mem_cons] at hx ⊢
          tauto
        · rintro ⟨c1, c2⟩
          refine ⟨?_, c1⟩
          rintro rfl
          exact hene x (c2 (by simp)) rfl
      · refine u3.congr ?_
        intro x hx
        simp only [r4, fset_ne _ _ _ _ (hene x hx)]
      · intro x hx hx2
        have hxe := (hE.live_nodup.mem_erase_iff.1 hx).1
        rw [hl] at hx2
        simp only [r4, fset_ne _ _ _ _ hxe]
        exact u4 x (fun hh => hx2 (by simp only [List.mem_append, List.mem_cons] at hh ⊢; tauto))
      · intro x hx
        simp only [r4, fset_ne _ _ _ _ (hene x hx)]
        exact u5 x
    · intro n hn
      simp only [(b4 n).1]
      exact h.ent n hn
  · simp only [r4, fset_same]
    rfl
  · intro x _ hx
    simp only [r4, fset_ne _ _ _ _ hx]
    exact u5 x

end Edyn.Graph
