import Verif.Graph.Remove

/-!
# `remove_all_edges`, `set_connecting_node` and `clear`
-/

namespace Edyn.Graph

theorem removeEdges_spec {f : FL Edge} {LE fl : List Nat} (hI : f.Inv LE fl) {l : List Nat}
    {h : Option Nat} (hc : Chain (fun x => (f.elem x).next) h l) (nd : l.Nodup)
    (hsub : ∀ x ∈ l, x ∈ LE) {fuel : Nat} (hf : l.length ≤ fuel) :
    ∃ f' fl', removeEdges f fuel h = some f' ∧ f'.Inv (LE.diff l) fl' ∧
      (∀ x, x ∉ l → f'.elem x = f.elem x) ∧ (∀ x ∈ l, (f'.elem x).entity = none) ∧
      f'.size = f.size := by
  induction l generalizing f LE fl h fuel with
  | nil =>
    rw [show h = none from hc]
    refine ⟨f, fl, by cases fuel <;> rfl, by simpa using hI, fun _ _ => rfl, by simp, rfl⟩
  | cons x l ih =>
    obtain ⟨h1, h2⟩ := hc
    subst h1
    cases fuel with
    | zero => simp at hf
    | succ k =>
      have hx := hsub x (by simp)
      obtain ⟨f1, r1, r2, r3, r4⟩ := FL.remove_spec hI hx
      rw [List.nodup_cons] at nd
      have hc1 : Chain (fun y => (f1.elem y).next) (f.elem x).next l := by
        refine h2.congr ?_
        intro y hy
        have : y ≠ x := by rintro rfl; exact nd.1 hy
        simp only [r4, fset_ne _ _ _ _ this]
      obtain ⟨f', fl', t1, t2, t3, t4, t5⟩ := ih r2 hc1 nd.2 (fun y hy =>
        hI.live_nodup.mem_erase_iff.2 ⟨by rintro rfl; exact nd.1 hy, hsub y (by simp [hy])⟩)
        (fuel := k) (by simpa using hf)
      refine ⟨f', fl', ?_, by simpa [List.diff_cons] using t2, ?_, ?_, by rw [t5, r3]⟩
      · simp only [removeEdges, hI.get hx, Option.bind_eq_bind, Option.bind_some, r1, t1]
      · intro y hy
        simp only [List.mem_cons, not_or] at hy
        rw [t3 y hy.2, r4, fset_ne _ _ _ _ hy.1]
      · intro y hy
        rcases List.mem_cons.1 hy with rfl | hy
        · rw [t3 y nd.1, r4, fset_same]; rfl
        · exact t4 y hy

theorem mem_snd_drop {l l' : List (Nat × Nat)} {a m : Nat}
    (nd : ((l ++ (a, m) :: l').map Prod.snd).Nodup) (j : Nat) :
    j ∈ (l ++ l').map Prod.snd ↔ j ∈ (l ++ (a, m) :: l').map Prod.snd ∧ j ≠ m := by
  have hp := (List.perm_middle (a := m) (l₁ := l.map Prod.snd) (l₂ := l'.map Prod.snd))
  simp only [List.map_append, List.map_cons] at nd ⊢
  rw [hp.nodup_iff, List.nodup_cons] at nd
  rw [hp.mem_iff, List.mem_cons]
  constructor
  · intro hj
    exact ⟨Or.inr hj, fun e => nd.1 (e ▸ hj)⟩
  · rintro ⟨h1 | h1, h2⟩
    · exact absurd h1 h2
    · exact h1

theorem removeFromNeighbor_spec {s : State} {N LA hd adj}
    (h : AdjInv s.nodes s.adjs N LA hd adj) {n m : Nat} (hn : n ∈ N) (hm : m ∈ N)
    (hhd : ∀ k, k ≠ n → hd k = heads s k) (hnone : heads s n = none)
    (hmn : m ≠ n → n ∈ (adj m).map Prod.snd) :
    ∃ s1 LA1 hd1 adj1, removeFromNeighbor s n m = some s1 ∧
      AdjInv s1.nodes s1.adjs N LA1 hd1 adj1 ∧ s1.edges = s.edges ∧ adj1 n = adj n ∧
      hd1 n = hd n ∧ (∀ k, k ≠ n → hd1 k = heads s1 k) ∧ heads s1 n = none ∧
      NodesSame s.nodes s1.nodes ∧ (∀ k ∈ N, ∀ p ∈ adj1 k, p ∈ adj k ∧
        (s1.adjs.elem p.1).edge = (s.adjs.elem p.1).edge) ∧
      (∀ k ∈ N, ∀ j, j ∈ (adj1 k).map Prod.snd ↔
        j ∈ (adj k).map Prod.snd ∧ ¬(k ≠ n ∧ k = m ∧ j = n)) := by
  obtain ⟨flN, hN⟩ := h.nodesI
  obtain ⟨flA, hA⟩ := h.adjsI
  by_cases hne : m = n
  · subst hne
    refine ⟨s, LA, hd, adj, ?_, h, rfl, rfl, rfl, hhd, hnone, NodesSame.refl _,
      fun k _ p hp => ⟨hp, rfl⟩, ?_⟩
    · have : (s.nodes.elem m).adj = none := hnone
      simp [removeFromNeighbor, hN.get hm, this, findAdj]
    · intro k _ j
      constructor
      · intro hj; exact ⟨hj, fun c => c.1 c.2.1⟩
      · exact fun c => c.1
  · obtain ⟨p, hp, hpe⟩ := List.mem_map.1 (hmn hne)
    obtain ⟨b, k⟩ := p
    simp only at hpe
    subst hpe
    have hb : b ∈ LA := (h.elem m hm _ hp).1
    have hf : findAdj s.adjs k s.fuel (s.nodes.elem m).adj = some (some b) := by
      have := h.find hm k (fuel_adjs s)
      rw [find_unique h hm hp, hhd m hne] at this
      exact this
    let af1 : FL Adj := { s.adjs with elem := fset s.adjs.elem b { s.adjs.elem b with edge := none } }
    have hI1 : AdjInv (State.mk s.nodes s.edges af1).nodes (State.mk s.nodes s.edges af1).adjs N LA
        hd adj := h.setEdge hb none
    obtain ⟨s', l, l', r1, r2, r3, r4, r5, r6, r7⟩ := removeAdjacency_spec hI1 hm (hhd m hne) hp
      (by simp [af1])
    refine ⟨s', LA.erase b, fset hd m (heads s' m), fset adj m (l ++ l'), ?_, r3, r4,
      fset_ne _ _ _ _ (Ne.symm hne), fset_ne _ _ _ _ (Ne.symm hne), ?_, ?_, r6, ?_, ?_⟩
    · simp only [removeFromNeighbor, hN.get hm, Option.bind_eq_bind, Option.bind_some, hf,
        hA.get hb, hA.put hb]
      exact r1
    · intro j hj
      rw [fset_apply]
      split
      · rename_i c; subst c; rfl
      · rename_i c; rw [hhd j hj, r7 j c]; rfl
    · rw [r7 k (Ne.symm hne)]; exact hnone
    · intro j hj p hp'
      have hpb : p.1 ≠ b ∧ p ∈ adj j := by
        rw [fset_apply] at hp'
        split at hp'
        · rename_i c; subst c
          have hmem : p ∈ adj j := by rw [r2]; simp at hp' ⊢; tauto
          refine ⟨?_, hmem⟩
          intro c
          have nd := h.nodupA j hj
          rw [r2] at nd
          simp only [List.map_append, List.map_cons, List.nodup_append, List.nodup_cons] at nd
          rcases List.mem_append.1 hp' with hx | hx
          · exact nd.2.2 p.1 (List.mem_map.2 ⟨p, hx, rfl⟩) b (by simp) c
          · exact nd.2.1.1 (List.mem_map.2 ⟨p, hx, c⟩)
        · rename_i hjm
          exact ⟨fun c => hjm (h.uniq j hj m hm p hp' _ hp c), hp'⟩
      refine ⟨hpb.2, ?_⟩
      rw [r5 _ hpb.1]
      simp [af1, hpb.1]
    · intro j hj i
      rw [fset_apply]
      split
      · rename_i c; subst c
        rw [r2, mem_snd_drop (by rw [← r2]; exact h.nodupN j hj)]
        simp [hne]
      · rename_i c; simp [c]

theorem removeAllLoop_spec {n : Nat} (fuel : Nat) : ∀ {s : State} {hd : Nat → Option Nat} {g : Ghost},
    HInv s hd g → n ∈ g.N → (∀ k, k ≠ n → hd k = heads s k) → heads s n = none →
    (g.adj n).length ≤ fuel →
    ∃ s' g', removeAllLoop n fuel s (hd n) = some s' ∧ GInv s' g' ∧ g'.N = g.N ∧
      (∀ m, g'.E n m = []) ∧ (∀ i j, i ≠ n → j ≠ n → g'.E i j = g.E i j) ∧
      NodesSame s.nodes s'.nodes ∧ (∀ x ∈ g'.LE, s'.edges.elem x = s.edges.elem x) ∧
      (∀ x, x ∈ g'.LE ↔ x ∈ g.LE ∧ ∀ m, x ∉ g.E n m) ∧
      (∀ x, x ∉ g'.LE → x ∈ g.LE ∨ (s.edges.elem x).entity = none →
        (s'.edges.elem x).entity = none) := by
  induction fuel with
  | zero =>
    intro s hd g h hn hhd hnone hf
    have hnil : g.adj n = [] := by simpa using hf
    have hEn : ∀ m, g.E n m = [] := by
      intro m
      by_contra hc
      have := (h.link.nbr n hn m).2 hc
      rw [hnil] at this; simp at this
    have hc := h.adj.chain n hn
    rw [hnil] at hc
    have hdn : hd n = none := hc
    refine ⟨s, g, by rw [hdn]; rfl, ⟨h.adj.hd ?_, h.edge, h.link, h.ent⟩, rfl, hEn,
      fun _ _ _ _ => rfl, NodesSame.refl _, fun _ _ => rfl, by simp [hEn], ?_⟩
    · intro k _
      by_cases hk : k = n
      · subst hk; rw [hnone, hdn]
      · rw [hhd k hk]
    · rintro x hx (h1 | h1)
      · exact absurd h1 hx
      · exact h1
  | succ fuel ih =>
    intro s hd g h hn hhd hnone hf
    cases hadj : g.adj n with
    | nil =>
      have hEn : ∀ m, g.E n m = [] := by
        intro m
        by_contra hc
        have := (h.link.nbr n hn m).2 hc
        rw [hadj] at this; simp at this
      have hc := h.adj.chain n hn
      rw [hadj] at hc
      have hdn : hd n = none := hc
      refine ⟨s, g, by rw [hdn]; rfl, ⟨h.adj.hd ?_, h.edge, h.link, h.ent⟩, rfl, hEn,
        fun _ _ _ _ => rfl, NodesSame.refl _, fun _ _ => rfl, by simp [hEn], ?_⟩
      · intro k _
        by_cases hk : k = n
        · subst hk; rw [hnone, hdn]
        · rw [hhd k hk]
      · rintro x hx (h1 | h1)
        · exact absurd h1 hx
        · exact h1
    | cons p rest =>
      obtain ⟨a, m⟩ := p
      obtain ⟨flE, hE⟩ := h.edge.edgesI
      obtain ⟨flA, hA⟩ := h.adj.adjsI
      have hpa : (a, m) ∈ g.adj n := by rw [hadj]; simp
      have ha : a ∈ g.LA := (h.adj.elem n hn _ hpa).1
      have hnode : (s.adjs.elem a).node = some m := (h.adj.elem n hn _ hpa).2
      have hedge : (s.adjs.elem a).edge = (g.E n m).head? := h.link.head n hn _ hpa
      have hEne : g.E n m ≠ [] := (h.link.nbr n hn m).1 (List.mem_map.2 ⟨_, hpa, rfl⟩)
      obtain ⟨e0, he0⟩ := List.exists_mem_of_ne_nil _ hEne
      have hm : m ∈ g.N := (h.edge.mem n m e0 he0).2.2.1
      have hch := h.adj.chain n hn
      rw [hadj] at hch
      simp only [List.map_cons] at hch
      have hhead : hd n = some a := hch.1
      -- edges
      obtain ⟨ef, flE', r1, r2, r3, r4, r5⟩ := removeEdges_spec hE (h.edge.chain n m)
        (h.edge.nodup n m) (fun x hx => (h.edge.mem n m x hx).1) (fuel := s.fuel)
        (Nat.le_trans (length_le_of_nodup_lt (h.edge.nodup n m) (n := s.edges.size)
          (fun x hx => hE.lt (h.edge.mem n m x hx).1)) (fuel_edges s))
      have hdiff : ∀ x, x ∈ g.LE.diff (g.E n m) ↔ x ∈ g.LE ∧ x ∉ g.E n m :=
        fun x => hE.live_nodup.mem_sdiff_iff
      have hedgeInv : EdgeInv ef g.N (g.LE.diff (g.E n m)) (setE g.E n m []) := by
        refine h.edge.drop ⟨_, r2⟩ (by simp) ?_ rfl ?_ (by simp)
        · intro x; rw [hdiff]; simp
        · intro x _ hx; exact r3 x hx
      -- the neighbour's record
      obtain ⟨s1, LA1, hd1, adj1, t1, t2, t3, t4, t5, t6, t7, t8, t9, t10⟩ :=
        removeFromNeighbor_spec (s := { s with edges := ef }) h.adj hn hm hhd hnone
          (fun _ => (h.link.nbr m hm n).2 (by rw [h.edge.symm]; exact hEne))
      -- the record itself
      have hpa1 : adj1 n = [] ++ (a, m) :: rest := by rw [t4, hadj]; rfl
      have ha1 : a ∈ LA1 := (t2.elem n hn (a, m) (by rw [hpa1]; simp)).1
      obtain ⟨flA1, hA1⟩ := t2.adjsI
      obtain ⟨f', q1, q2, q3, q4⟩ := FL.remove_spec hA1 ha1
      have hch1 := t2.chain n hn
      have hnd1 := t2.nodupA n hn
      rw [hpa1] at hch1 hnd1
      simp only [List.nil_append, List.map_cons] at hch1 hnd1
      have hdrop : AdjInv s1.nodes f' g.N (LA1.erase a) (fset hd1 n (s1.adjs.elem a).next)
          (fset adj1 n ([] ++ rest)) := by
        refine t2.drop hn hpa1 t2.nodesI ⟨_, q2⟩ ?_ ?_ ?_ ?_
        · intro b _ hb
          simp only [q4, fset_ne _ _ _ _ hb]
        · intro k hk hkn p hp
          have : p.1 ≠ a := fun c => hkn (t2.uniq k hk n hn p hp (a, m) (by rw [hpa1]; simp) c)
          simp only [q4, fset_ne _ _ _ _ this]
        · simp only [fset_same, List.nil_append]
          refine hch1.2.congr ?_
          intro x hx
          have : x ≠ a := by rintro rfl; exact (List.nodup_cons.1 hnd1).1 hx
          simp only [q4, fset_ne _ _ _ _ this]
        · intro k _ hkn; exact fset_ne _ _ _ _ hkn
      simp only [List.nil_append] at hdrop hpa1
      have hlink : Link f' g.N (fset adj1 n rest) (setE g.E n m []) := by
        have hmem : ∀ k ∈ g.N, ∀ p ∈ fset adj1 n rest k, p ∈ adj1 k ∧ p.1 ≠ a := by
          intro k hk p hp
          rw [fset_apply] at hp
          split at hp
          · rename_i c; subst c
            refine ⟨by rw [hpa1]; simp [hp], ?_⟩
            intro c
            exact (List.nodup_cons.1 hnd1).1 (List.mem_map.2 ⟨p, hp, c⟩)
          · rename_i hkn
            exact ⟨hp, fun c => hkn (t2.uniq k hk n hn p hp (a, m) (by rw [hpa1]; simp) c)⟩
        have hsnd : ∀ k ∈ g.N, ∀ j, j ∈ (fset adj1 n rest k).map Prod.snd ↔
            j ∈ (g.adj k).map Prod.snd ∧ ¬((k = n ∧ j = m) ∨ (k = m ∧ j = n)) := by
          intro k hk j
          rw [fset_apply]
          split
          · rename_i c; subst c
            have hd2 := mem_snd_drop (l := []) (l' := rest) (a := a) (m := m)
              (by simp only [List.nil_append]; rw [← hadj]; exact h.adj.nodupN k hk) j
            simp only [List.nil_append] at hd2
            rw [hd2, ← hadj]
            constructor
            · rintro ⟨c1, c2⟩
              refine ⟨c1, ?_⟩
              rintro (⟨_, c4⟩ | ⟨c3, c4⟩)
              · exact c2 c4
              · exact c2 (c4.trans c3)
            · rintro ⟨c1, c2⟩
              exact ⟨c1, fun c => c2 (Or.inl ⟨rfl, c⟩)⟩
          · rename_i c
            rw [t10 k hk j]
            simp [c]
        refine ⟨?_, ?_⟩
        · intro k hk p hp
          obtain ⟨c1, c2⟩ := hmem k hk p hp
          obtain ⟨c3, c4⟩ := t9 k hk p c1
          have hnot := ((hsnd k hk p.2).1 (List.mem_map.2 ⟨p, hp, rfl⟩)).2
          simp only [q4, fset_ne _ _ _ _ c2, c4, h.link.head k hk p c3, setE]
          rw [if_neg hnot]
        · intro k hk j
          rw [hsnd k hk j, h.link.nbr k hk j]
          simp only [setE]
          split
          · rename_i c; simp [c]
          · rename_i c; simp [c]
      have hH : HInv ⟨s1.nodes, ef, f'⟩ (fset hd1 n (s1.adjs.elem a).next)
          ⟨g.N, g.LE.diff (g.E n m), LA1.erase a, fset adj1 n rest, setE g.E n m []⟩ := by
        refine ⟨hdrop, hedgeInv, hlink, ?_⟩
        intro k hk
        simp only
        rw [(t8 k).1]
        exact h.ent k hk
      obtain ⟨s', g', u1, u2, u3, u4, u5, u6, u7, u8, u9⟩ := ih hH hn
        (by intro k hk; rw [fset_ne _ _ _ _ hk, t6 k hk]; rfl) (by exact t7)
        (by simp; rw [hadj] at hf; simpa using hf)
      refine ⟨s', g', ?_, u2, u3, u4, ?_, t8.trans u6, ?_, ?_, ?_⟩
      · rw [hhead]
        simp only [removeAllLoop, hA.get ha, Option.bind_eq_bind, Option.bind_some, hedge, r1,
          hnode, t1, hA1.get ha1, q1]
        rw [fset_same] at u1
        rw [t3]
        exact u1
      · intro i j hi hj
        rw [u5 i j hi hj]
        simp [setE, hi, hj]
      · intro x hx
        have h1 := (u8 x).1 hx
        rw [u7 x hx]
        exact r3 x ((hdiff x).1 h1.1).2
      · intro x
        rw [u8 x]
        simp only [hdiff]
        constructor
        · rintro ⟨⟨c1, c2⟩, c3⟩
          refine ⟨c1, ?_⟩
          intro j hj
          have := c3 j
          simp only [setE] at this
          split at this
          · rename_i c
            rcases c with ⟨_, rfl⟩ | ⟨rfl, rfl⟩
            · exact c2 hj
            · exact c2 hj
          · exact this hj
        · rintro ⟨c1, c2⟩
          refine ⟨⟨c1, c2 m⟩, ?_⟩
          intro j
          simp only [setE]
          split
          · simp
          · exact c2 j
      · intro x hx hx2
        refine u9 x hx ?_
        by_cases hxm : x ∈ g.E n m
        · exact Or.inr (r4 x hxm)
        · rcases hx2 with hx2 | hx2
          · exact Or.inl ((hdiff x).2 ⟨hx2, hxm⟩)
          · exact Or.inr (by simp only; rw [r3 x hxm]; exact hx2)

theorem removeAllEdges_spec {s : State} {g : Ghost} (h : GInv s g) {n : Nat} (hn : n ∈ g.N) :
    ∃ s' g', removeAllEdges s n = some s' ∧ GInv s' g' ∧ g'.N = g.N ∧
      (∀ m, g'.E n m = []) ∧ (∀ i j, i ≠ n → j ≠ n → g'.E i j = g.E i j) ∧
      NodesSame s.nodes s'.nodes ∧ (∀ x ∈ g'.LE, s'.edges.elem x = s.edges.elem x) ∧
      (∀ x, x ∈ g'.LE ↔ x ∈ g.LE ∧ ∀ m, x ∉ g.E n m) ∧
      (∀ x, x ∉ g'.LE → x ∈ g.LE ∨ (s.edges.elem x).entity = none →
        (s'.edges.elem x).entity = none) := by
  obtain ⟨flN, hN⟩ := h.adj.nodesI
  let nf : FL Node := { s.nodes with
    elem := fset s.nodes.elem n { s.nodes.elem n with adj := none } }
  have hsame : NodesSame s.nodes nf := by
    intro k
    simp only [nf, fset_apply]
    split
    · rename_i c; subst c; simp
    · simp
  have hH : HInv ⟨nf, s.edges, s.adjs⟩ (heads s) g := by
    refine ⟨h.adj.congr ⟨flN, hN.fset hn _⟩ h.adj.adjsI (fun _ _ => ⟨rfl, rfl⟩) (fun _ _ => rfl),
      h.edge, h.link, ?_⟩
    intro k hk
    simp only
    rw [(hsame k).1]
    exact h.ent k hk
  obtain ⟨s', g', u1, u2, u3, u4, u5, u6, u7, u8, u9⟩ := removeAllLoop_spec s.fuel hH hn
    (by intro k hk; simp [heads, nf, hk]) (by simp [heads, nf])
    (Nat.le_trans (h.adj.length_le hn) (fuel_adjs s))
  refine ⟨s', g', ?_, u2, u3, u4, u5, hsame.trans u6, u7, u8, u9⟩
  simp only [removeAllEdges, hN.get hn, Option.bind_eq_bind, Option.bind_some, hN.put hn]
  exact u1

theorem setConnecting_spec {s : State} {g : Ghost} (h : GInv s g) {n : Nat} (hn : n ∈ g.N)
    (c : Bool) :
    ∃ s', setConnecting s n c = some s' ∧ GInv s' g ∧ s'.edges = s.edges ∧
      s'.nodes.elem = fset s.nodes.elem n { s.nodes.elem n with nonConnecting := !c } := by
  obtain ⟨flN, hN⟩ := h.adj.nodesI
  refine ⟨⟨{ s.nodes with elem := fset s.nodes.elem n { s.nodes.elem n with nonConnecting := !c } },
    s.edges, s.adjs⟩, ?_, ?_, rfl, rfl⟩
  · simp only [setConnecting, hN.get hn, Option.bind_eq_bind, Option.bind_some, hN.put hn]
  · refine ⟨h.adj.congr ⟨flN, hN.fset hn _⟩ h.adj.adjsI (fun _ _ => ⟨rfl, rfl⟩) ?_, h.edge, h.link, ?_⟩
    · intro k _
      simp only [heads, fset_apply]
      split
      · rename_i e; subst e; rfl
      · rfl
    · intro k hk
      simp only [fset_apply]
      split
      · rename_i e; subst e; exact h.ent k hk
      · exact h.ent k hk

theorem clear_spec (s : State) : GInv (clear s) ⟨[], [], [], fun _ => [], fun _ _ => []⟩ := by
  refine ⟨⟨⟨_, FL.clear_spec⟩, ⟨_, FL.clear_spec⟩, by simp, by simp, by simp, by simp, by simp,
    by simp⟩, ⟨⟨_, FL.clear_spec⟩, by simp, by simp, ?_, by simp, by simp⟩, ⟨by simp, by simp⟩,
    by simp⟩
  intro n m; rfl

theorem empty_spec : GInv empty ⟨[], [], [], fun _ => [], fun _ _ => []⟩ := by
  refine ⟨⟨⟨_, FL.inv_empty⟩, ⟨_, FL.inv_empty⟩, by simp, by simp, by simp, by simp, by simp,
    by simp⟩, ⟨⟨_, FL.inv_empty⟩, by simp, by simp, ?_, by simp, by simp⟩, ⟨by simp, by simp⟩,
    by simp⟩
  intro n m; rfl

end Edyn.Graph
