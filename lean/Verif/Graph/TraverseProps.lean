import Verif.Graph.Traverse

/-! # Properties C07, C08 and C09: graph traversals -/

namespace Edyn.Graph

theorem pushStack_perm (m : Nat) (l : List Nat) : (pushStack m l).Perm (m :: l) := List.Perm.refl _
theorem pushQueue_perm (m : Nat) (l : List Nat) : (pushQueue m l).Perm (m :: l) := by
  unfold pushQueue
  exact List.perm_append_comm

/-- C09. `traverse` visits exactly the nodes joined to the start by a path with connecting interior
nodes, each once, and exactly the edges of the connecting ones, each once. -/
theorem traverse_exact {c : Bool} {s : State} {G : MG} (h : Reach c s G) {r : Nat} (hr : G.Live r) :
    ∃ ns es, traverse s r = some (ns, es) ∧ ns.Nodup ∧ es.Nodup ∧
      (∀ n, n ∈ ns ↔ G.Path (fun _ => true) r n) ∧
      (∀ e, e ∈ es ↔ ∃ n ∈ ns, G.Connecting n ∧ G.Touches e n) := by
  obtain ⟨g, hg⟩ := reach_good h
  obtain ⟨t, h1, h2, h3, h4, h5, _⟩ := component_spec hg pushQueue_perm (fun _ => true) hr
    (V0 := fun _ => false) (W0 := fun _ => false) (by simp) (by simp)
  refine ⟨t.nodes, t.edges, by simp [traverse, h1], h2, h3, h4, ?_⟩
  intro e; rw [h5]; simp only [h4]

/-- The result of a multi-component traversal: each component is the set of nodes joined to one
connecting accepted node, and the edges of its connecting nodes. -/
structure IsComponent (G : MG) (should : Nat → Bool) (r : Nat) (C : List Nat × List Nat) : Prop where
  conn : G.Connecting r
  accepted : should r = true
  nodup : C.1.Nodup
  nodes : ∀ n, n ∈ C.1 ↔ G.Path should r n
  nodupE : C.2.Nodup
  edges : ∀ e, e ∈ C.2 ↔ ∃ n ∈ C.1, G.Connecting n ∧ G.Touches e n

theorem Good.conn_live {G : MG} {n : Nat} (h : G.Connecting n) : G.nodes n ≠ none := by
  obtain ⟨x, hx⟩ := h; rw [hx]; simp

theorem reachLoop_spec {c s G g} (h : Good c s G g) (should : Nat → Bool) (starts : List Nat)
    (hst : ∀ r ∈ starts, G.Connecting r) (V W : Nat → Bool) (hcl : Cl G should V W) :
    ∃ comps, reachLoop s should V W starts = some comps ∧
      (∀ C ∈ comps, ∃ r ∈ starts, IsComponent G should r C) ∧
      (∀ C ∈ comps, ∀ n ∈ C.1, V n = false) ∧ (∀ C ∈ comps, ∀ e ∈ C.2, W e = false) ∧
      (∀ r ∈ starts, should r = true → V r = true ∨ ∃ C ∈ comps, r ∈ C.1) ∧
      comps.Pairwise (fun C D => ∀ n, G.Connecting n → n ∈ C.1 → n ∉ D.1) ∧
      comps.Pairwise (fun C D => ∀ e ∈ C.2, e ∉ D.2) := by
  induction starts generalizing V W with
  | nil => exact ⟨[], rfl, by simp, by simp, by simp, by simp, .nil, .nil⟩
  | cons r rs ih =>
    have hc := hst r (by simp)
    have hl := Good.conn_live hc
    have hst' : ∀ r ∈ rs, G.Connecting r := fun x hx => hst x (by simp [hx])
    have hnc := (h.connecting hl).1 hc
    simp only [reachLoop, h.get hl, hnc, Bool.not_false, check_true, Option.bind_eq_bind,
      Option.bind_some]
    have hskip : (V r = true ∨ should r = false) → ∃ comps, reachLoop s should V W rs = some comps ∧
        (∀ C ∈ comps, ∃ x ∈ r :: rs, IsComponent G should x C) ∧
        (∀ C ∈ comps, ∀ n ∈ C.1, V n = false) ∧ (∀ C ∈ comps, ∀ e ∈ C.2, W e = false) ∧
        (∀ x ∈ r :: rs, should x = true → V x = true ∨ ∃ C ∈ comps, x ∈ C.1) ∧
        comps.Pairwise (fun C D => ∀ n, G.Connecting n → n ∈ C.1 → n ∉ D.1) ∧
        comps.Pairwise (fun C D => ∀ e ∈ C.2, e ∉ D.2) := by
      intro hor
      obtain ⟨comps, k1, k2, k3, k4, k5, k6, k7⟩ := ih hst' V W hcl
      refine ⟨comps, k1, ?_, k3, k4, ?_, k6, k7⟩
      · intro C hC
        obtain ⟨x, hx, hh⟩ := k2 C hC
        exact ⟨x, by simp [hx], hh⟩
      · intro x hx hs
        rcases List.mem_cons.1 hx with rfl | hx
        · rcases hor with hv | hv
          · exact Or.inl hv
          · rw [hs] at hv; simp at hv
        · exact k5 x hx hs
    split
    · rename_i hv; exact hskip (Or.inl hv)
    · rename_i hv
      rw [Bool.not_eq_true] at hv
      split
      · rename_i hs; exact hskip (Or.inr (by simpa using hs))
      · rename_i hs
        simp only [Bool.not_eq_true', Bool.not_eq_false] at hs
        obtain ⟨f1, f2⟩ := hcl.fresh hs hc hv
        obtain ⟨t, c1, c2, c3, c4, c5, c6, c7, c8⟩ := component_spec h pushStack_perm should hl f1 f2
        have hV' : ∀ x, unmark t.nonc t.vis x = true ↔
            V x = true ∨ (G.Path should r x ∧ G.Connecting x) := by
          intro x
          rw [unmark_apply, c6, c8]
          constructor
          · rintro ⟨hx | hx, hh⟩
            · exact Or.inl hx
            · exact Or.inr ⟨hx, by by_contra hcon; exact hh ⟨hx, hcon⟩⟩
          · rintro (hx | ⟨hx, hcx⟩)
            · exact ⟨Or.inl hx, fun hh => hh.2 (hcl.conn x hx).1⟩
            · exact ⟨Or.inr hx, fun hh => hh.2 hcx⟩
        obtain ⟨comps, k1, k2, k3, k4, k5, k6, k7⟩ := ih hst' _ _ (hcl.next hs hV' c7)
        refine ⟨(t.nodes, t.edges) :: comps, by simp [c1, k1], ?_, ?_, ?_, ?_, ?_, ?_⟩
        · intro C hC
          rcases List.mem_cons.1 hC with rfl | hC
          · exact ⟨r, by simp, hc, hs, c2, c4, c3, by intro e; rw [c5]; simp only [c4]⟩
          · obtain ⟨x, hx, hh⟩ := k2 C hC
            exact ⟨x, by simp [hx], hh⟩
        · intro C hC n hn
          rcases List.mem_cons.1 hC with rfl | hC
          · exact f1 n ((c4 n).1 hn)
          · have := k3 C hC n hn
            by_contra hcon
            rw [Bool.not_eq_false] at hcon
            rw [(hV' n).2 (Or.inl hcon)] at this; simp at this
        · intro C hC e he
          rcases List.mem_cons.1 hC with rfl | hC
          · obtain ⟨x, hx, hcx, ht⟩ := (c5 e).1 he
            exact f2 e x hx hcx ht
          · have := k4 C hC e he
            by_contra hcon
            rw [Bool.not_eq_false] at hcon
            rw [(c7 e).2 (Or.inl hcon)] at this; simp at this
        · intro x hx hsx
          rcases List.mem_cons.1 hx with rfl | hx
          · exact Or.inr ⟨_, List.mem_cons_self, (c4 x).2 .refl⟩
          · rcases k5 x hx hsx with hh | ⟨C, hC, hh⟩
            · rcases (hV' x).1 hh with hh | ⟨hh, _⟩
              · exact Or.inl hh
              · exact Or.inr ⟨_, List.mem_cons_self, (c4 x).2 hh⟩
            · exact Or.inr ⟨C, by simp [hC], hh⟩
        · rw [List.pairwise_cons]
          refine ⟨?_, k6⟩
          intro D hD n hcn hn hnD
          have := k3 D hD n hnD
          rw [(hV' n).2 (Or.inr ⟨(c4 n).1 hn, hcn⟩)] at this; simp at this
        · rw [List.pairwise_cons]
          refine ⟨?_, k7⟩
          intro D hD e he heD
          have := k4 D hD e heD
          rw [(c7 e).2 (Or.inr ((c5 e).1 he))] at this; simp at this

/-- C09. `reach` from connecting nodes reports components: each is exactly what is reachable from one of
the start nodes, each node and each edge once; every accepted start node is covered; components share
only non-connecting nodes and no edge. -/
theorem reach_exact {c : Bool} {s : State} {G : MG} (h : Reach c s G) (should : Nat → Bool)
    {starts : List Nat} (hne : starts ≠ []) (hst : ∀ r ∈ starts, G.Connecting r) :
    ∃ comps, reach s should starts = some comps ∧
      (∀ C ∈ comps, ∃ r ∈ starts, IsComponent G should r C) ∧
      (∀ r ∈ starts, should r = true → ∃ C ∈ comps, r ∈ C.1) ∧
      comps.Pairwise (fun C D => ∀ n, G.Connecting n → n ∈ C.1 → n ∉ D.1) ∧
      comps.Pairwise (fun C D => ∀ e ∈ C.2, e ∉ D.2) := by
  obtain ⟨g, hg⟩ := reach_good h
  obtain ⟨comps, k1, k2, _, _, k5, k6, k7⟩ := reachLoop_spec hg should starts hst _ _
    (⟨by simp, by simp, by simp⟩ : Cl G should (fun _ => false) fun _ => false)
  refine ⟨comps, ?_, k2, by simpa using k5, k6, k7⟩
  have : 0 < starts.length := List.length_pos_iff.2 hne
  simp [reach, check, this, k1]

/-! ### Whole-graph scans -/

theorem scan_none {s G g} (h : Good false s G g) (V : Nat → Bool) :
    scan s V = none ↔ ∀ n, G.Connecting n → V n = true := by
  unfold scan
  rw [List.find?_eq_none]
  constructor
  · intro hh n hc
    have hl := Good.conn_live hc
    have := hh n (List.mem_range.2 (h.lt hl))
    obtain ⟨x, hx⟩ := hc
    simpa [(h.node n x false hx).1, (h.node n x false hx).2] using this
  · intro hh n hn
    by_cases hl : n ∈ g.N
    · have hl' := (h.nodes n).1 hl
      by_cases hc : G.Connecting n
      · simp [hh n hc]
      · rw [h.connecting hl', Bool.not_eq_false] at hc
        simp [hc]
    · simp [h.fresh rfl n hl]

theorem scan_some {s G g} (h : Good false s G g) {V : Nat → Bool} {r : Nat} (hr : scan s V = some r) :
    G.Connecting r ∧ V r = false := by
  unfold scan at hr
  have h1 := List.find?_some hr
  simp only [Bool.and_eq_true, Bool.not_eq_true'] at h1
  have hl : r ∈ g.N := by
    by_contra hc
    rw [h.fresh rfl r hc] at h1
    simp at h1
  exact ⟨(h.connecting ((h.nodes r).1 hl)).2 h1.2, h1.1.1⟩

theorem Path_true_symm {G : MG} {n m : Nat} (hm : G.Connecting m)
    (h : G.Path (fun _ => true) n m) : G.Path (fun _ => true) m n := h.symm rfl hm

/-- The components that remain to be found. -/
theorem ccLoop_spec {s G g} (h : Good false s G g) (fuel : Nat) (V W : Nat → Bool)
    (hcl : Cl G (fun _ => true) V W) {r : Nat} (hr : G.Connecting r) (hv : V r = false)
    (done : List Nat) (hd : done.Nodup) (hdV : ∀ x ∈ done, V x = true)
    (hfuel : s.nodes.size ≤ fuel + done.length) :
    ∃ comps, ccLoop s fuel V W [r] = some comps ∧ comps ≠ [] ∧
      (∀ C ∈ comps, ∃ r, IsComponent G (fun _ => true) r C) ∧
      (∀ C ∈ comps, ∀ n ∈ C.1, V n = false) ∧ (∀ C ∈ comps, ∀ e ∈ C.2, W e = false) ∧
      (∀ n, G.Connecting n → V n = true ∨ ∃ C ∈ comps, n ∈ C.1) ∧
      comps.Pairwise (fun C D => ∀ n, G.Connecting n → n ∈ C.1 → n ∉ D.1) ∧
      comps.Pairwise (fun C D => ∀ e ∈ C.2, e ∉ D.2) := by
  induction fuel generalizing V W r done with
  | zero =>
    exfalso
    have hnd : (r :: done).Nodup := by
      rw [List.nodup_cons]
      refine ⟨?_, hd⟩
      intro hh; rw [hdV r hh] at hv; simp at hv
    have := length_le_of_nodup_lt hnd (n := s.nodes.size) (by
      intro x hx
      rcases List.mem_cons.1 hx with rfl | hx
      · exact h.lt (Good.conn_live hr)
      · exact h.lt (Good.conn_live (hcl.conn x (hdV x hx)).1))
    simp at this; omega
  | succ fuel ih =>
    obtain ⟨f1, f2⟩ := hcl.fresh rfl hr hv
    obtain ⟨t, c1, c2, c3, c4, c5, c6, c7, c8⟩ :=
      component_spec h pushStack_perm (fun _ => true) (Good.conn_live hr) f1 f2
    have hV' : ∀ x, unmark t.nonc t.vis x = true ↔
        V x = true ∨ (G.Path (fun _ => true) r x ∧ G.Connecting x) := by
      intro x
      rw [unmark_apply, c6, c8]
      constructor
      · rintro ⟨hx | hx, hh⟩
        · exact Or.inl hx
        · exact Or.inr ⟨hx, by by_contra hcon; exact hh ⟨hx, hcon⟩⟩
      · rintro (hx | ⟨hx, hcx⟩)
        · exact ⟨Or.inl hx, fun hh => hh.2 (hcl.conn x hx).1⟩
        · exact ⟨Or.inr hx, fun hh => hh.2 hcx⟩
    have hC : IsComponent G (fun _ => true) r (t.nodes, t.edges) :=
      ⟨hr, rfl, c2, c4, c3, by intro e; rw [c5]; simp only [c4]⟩
    simp only [ccLoop, c1, Option.bind_eq_bind, Option.bind_some]
    cases hsc : scan s (unmark t.nonc t.vis) with
    | none =>
      rw [scan_none h] at hsc
      refine ⟨_, rfl, by simp, ?_, ?_, ?_, ?_, by simp, by simp⟩
      · intro C hC'; simp at hC'; subst hC'; exact ⟨r, hC⟩
      · intro C hC' n hn; simp at hC'; subst hC'; exact f1 n ((c4 n).1 hn)
      · intro C hC' e he; simp at hC'; subst hC'
        obtain ⟨x, hx, hcx, ht⟩ := (c5 e).1 he
        exact f2 e x hx hcx ht
      · intro n hn
        rcases (hV' n).1 (hsc n hn) with hh | hh
        · exact Or.inl hh
        · exact Or.inr ⟨_, List.mem_singleton.2 rfl, (c4 n).2 hh.1⟩
    | some r' =>
      obtain ⟨hr', hv'⟩ := scan_some h hsc
      obtain ⟨comps, k1, k0, k2, k3, k4, k5, k6, k7⟩ := ih _ _ (hcl.next rfl hV' c7) hr' hv' (r :: done)
        (by
          rw [List.nodup_cons]
          refine ⟨?_, hd⟩
          intro hh; rw [hdV r hh] at hv; simp at hv)
        (by
          intro x hx
          rw [hV']
          rcases List.mem_cons.1 hx with rfl | hx
          · exact Or.inr ⟨.refl, hr⟩
          · exact Or.inl (hdV x hx))
        (by simp; omega)
      refine ⟨(t.nodes, t.edges) :: comps, by simp [k1], by simp, ?_, ?_, ?_, ?_, ?_, ?_⟩
      · intro C hC'
        rcases List.mem_cons.1 hC' with rfl | hC'
        · exact ⟨r, hC⟩
        · exact k2 C hC'
      · intro C hC n hn
        rcases List.mem_cons.1 hC with rfl | hC
        · exact f1 n ((c4 n).1 hn)
        · have := k3 C hC n hn
          by_contra hcon
          rw [Bool.not_eq_false] at hcon
          rw [(hV' n).2 (Or.inl hcon)] at this; simp at this
      · intro C hC e he
        rcases List.mem_cons.1 hC with rfl | hC
        · obtain ⟨x, hx, hcx, ht⟩ := (c5 e).1 he
          exact f2 e x hx hcx ht
        · have := k4 C hC e he
          by_contra hcon
          rw [Bool.not_eq_false] at hcon
          rw [(c7 e).2 (Or.inl hcon)] at this; simp at this
      · intro x hx
        rcases k5 x hx with hh | ⟨C, hC, hh⟩
        · rcases (hV' x).1 hh with hh | ⟨hh, _⟩
          · exact Or.inl hh
          · exact Or.inr ⟨_, List.mem_cons_self, (c4 x).2 hh⟩
        · exact Or.inr ⟨C, by simp [hC], hh⟩
      · rw [List.pairwise_cons]
        refine ⟨?_, k6⟩
        intro D hD n hcn hn hnD
        have := k3 D hD n hnD
        rw [(hV' n).2 (Or.inr ⟨(c4 n).1 hn, hcn⟩)] at this; simp at this
      · rw [List.pairwise_cons]
        refine ⟨?_, k7⟩
        intro D hD e he heD
        have := k4 D hD e heD
        rw [(c7 e).2 (Or.inr ((c5 e).1 he))] at this; simp at this

theorem cc_aux {s : State} {G : MG} {g : Ghost} (h : Good false s G g) :
    ∃ comps, connectedComponents s = some comps ∧ comps ≠ [] ∧
      ((∀ n, ¬G.Connecting n) ∧ comps = [([], [])] ∨
        (∀ C ∈ comps, ∃ r, IsComponent G (fun _ => true) r C)) ∧
      (∀ n, G.Connecting n → ∃ C ∈ comps, n ∈ C.1) ∧
      comps.Pairwise (fun C D => ∀ n, G.Connecting n → n ∈ C.1 → n ∉ D.1) ∧
      comps.Pairwise (fun C D => ∀ e ∈ C.2, e ∉ D.2) := by
  unfold connectedComponents
  cases hsc : scan s (fun _ => false) with
  | none =>
    have hno : ∀ n, ¬G.Connecting n := by
      intro n hn
      have := (scan_none h _).1 hsc n hn
      simp at this
    refine ⟨[([], [])], ?_, by simp, Or.inl ⟨hno, rfl⟩, fun n hn => absurd hn (hno n), by simp, by simp⟩
    have hcomp : component s (fun _ => true) pushStack (fun _ => false) (fun _ => false) [] =
        some ⟨fun _ => false, fun _ => false, [], [], [], []⟩ := by
      unfold component; rw [loop]
    simp only [Option.toList_none, ccLoop, hcomp, Option.bind_eq_bind, Option.bind_some, unmark,
      List.foldl_nil, hsc]
  | some r =>
    obtain ⟨hr, _⟩ := scan_some h hsc
    obtain ⟨comps, k1, k0, k2, _, _, k5, k6, k7⟩ := ccLoop_spec h (s.nodes.size + 1) (fun _ => false)
      (fun _ => false) ⟨by simp, by simp, by simp⟩ hr rfl [] (by simp) (by simp) (by simp)
    exact ⟨comps, k1, k0, Or.inr k2, by simpa using k5, k6, k7⟩

/-- C07. `connected_components` is the partition of the connecting nodes into the classes of the
relation "joined by a path of connecting nodes"; a non-connecting node is in a component exactly when
it is linked to a connecting node of it; the edges of a component are those of its connecting nodes.
No component contains a node or edge twice, and no two share a connecting node or an edge. -/
theorem connectedComponents_exact {s : State} {G : MG} (h : Reach false s G) :
    ∃ comps, connectedComponents s = some comps ∧
      (∀ n, G.Connecting n → ∃ C ∈ comps, n ∈ C.1) ∧
      comps.Pairwise (fun C D => ∀ n, G.Connecting n → n ∈ C.1 → n ∉ D.1) ∧
      comps.Pairwise (fun C D => ∀ e ∈ C.2, e ∉ D.2) ∧
      (∀ C ∈ comps, C.1.Nodup ∧ C.2.Nodup ∧
        (∀ n ∈ C.1, G.Connecting n → ∀ m, G.Connecting m →
          (m ∈ C.1 ↔ G.Path (fun _ => true) n m)) ∧
        (∀ z, G.Live z → ¬G.Connecting z →
          (z ∈ C.1 ↔ ∃ n ∈ C.1, G.Connecting n ∧ G.Linked n z)) ∧
        (∀ n ∈ C.1, G.Live n) ∧
        (∀ e, e ∈ C.2 ↔ ∃ n ∈ C.1, G.Connecting n ∧ G.Touches e n)) ∧
      ((∃ n, G.Connecting n) → ∀ C ∈ comps, ∃ n ∈ C.1, G.Connecting n) := by
  obtain ⟨g, hg⟩ := reach_good h
  obtain ⟨comps, k1, _, k2, k3, k4, k5⟩ := cc_aux hg
  refine ⟨comps, k1, k3, k4, k5, ?_, ?_⟩
  · intro C hC
    rcases k2 with ⟨hno, rfl⟩ | k2
    · simp only [List.mem_singleton] at hC
      subst hC
      simp
    · obtain ⟨r, hr⟩ := k2 C hC
      refine ⟨hr.nodup, hr.nodupE, ?_, ?_, ?_, hr.edges⟩
      · intro n hn hcn m hcm
        rw [hr.nodes]
        have hrn := (hr.nodes n).1 hn
        constructor
        · intro hm; exact (Path_true_symm hcn hrn).trans hm
        · intro hm; exact hrn.trans hm
      · intro z hlz hnz
        rw [hr.nodes]
        constructor
        · intro hp
          cases hp with
          | refl => exact absurd hr.conn hnz
          | @step x y hp hc hl hs => exact ⟨x, (hr.nodes x).2 hp, hc, hl⟩
        · rintro ⟨n, hn, hc, hl⟩
          exact .step ((hr.nodes n).1 hn) hc hl rfl
      · intro n hn
        have := (hr.nodes n).1 hn
        cases this with
        | refl => exact Good.conn_live hr.conn
        | step _ _ hl _ => exact hg.live_of_linked hl
  · rintro ⟨n, hn⟩ C hC
    rcases k2 with ⟨hno, _⟩ | k2
    · exact absurd hn (hno n)
    · obtain ⟨r, hr⟩ := k2 C hC
      exact ⟨r, (hr.nodes r).2 .refl, hr.conn⟩

theorem count_pos {s : State} {G : MG} (h : Reach false s G) {n : Nat} (hn : G.Live n) :
    0 < s.nodes.count := by
  obtain ⟨_, _, _, _, _, _, ⟨N, _, hN, hc⟩, _⟩ := observers_exact h
  rw [numNodes] at hc
  rw [hc]
  exact List.length_pos_of_mem ((hN n).2 hn)

/-- C08. `is_single_connected_component` is true exactly when any two connecting nodes are joined by a
path of connecting nodes, which is exactly when `connected_components` returns one component. -/
theorem isSingle_exact {s : State} {G : MG} (h : Reach false s G) (hne : ∃ n, G.Live n) :
    ∃ b comps, isSingle s = some b ∧ connectedComponents s = some comps ∧
      (b = true ↔ ∀ n m, G.Connecting n → G.Connecting m → G.Path (fun _ => true) n m) ∧
      (b = true ↔ comps.length = 1) := by
  obtain ⟨g, hg⟩ := reach_good h
  obtain ⟨comps, k1, k0, k2, k3, k4, k5⟩ := cc_aux hg
  obtain ⟨n0, hn0⟩ := hne
  have hcount := count_pos h hn0
  have hlen : comps.length = 1 ↔ ∀ n m, G.Connecting n → G.Connecting m →
      G.Path (fun _ => true) n m := by
    constructor
    · intro hl n m hn hm
      obtain ⟨C, hC⟩ := List.length_eq_one_iff.1 hl
      subst hC
      obtain ⟨D, hD, hnD⟩ := k3 n hn
      obtain ⟨E, hE, hmE⟩ := k3 m hm
      simp only [List.mem_singleton] at hD hE
      subst hD; subst hE
      rcases k2 with ⟨hno, _⟩ | k2
      · exact absurd hn (hno n)
      · obtain ⟨r, hr⟩ := k2 E (by simp)
        exact (Path_true_symm hn ((hr.nodes n).1 hnD)).trans ((hr.nodes m).1 hmE)
    · intro hall
      rcases k2 with ⟨_, rfl⟩ | k2
      · rfl
      · match comps, k0, k2, k4 with
        | [C], _, _, _ => rfl
        | C :: D :: rest, _, k2, k4 =>
          exfalso
          obtain ⟨r1, h1⟩ := k2 C (by simp)
          obtain ⟨r2, h2⟩ := k2 D (by simp)
          rw [List.pairwise_cons] at k4
          refine k4.1 D (by simp) r2 h2.conn ?_ ((h2.nodes r2).2 .refl)
          exact (h1.nodes r2).2 (hall r1 r2 h1.conn h2.conn)
  rw [isSingle]
  simp only [check, hcount, decide_true, Option.bind_eq_bind, if_true, Option.bind_some]
  cases hsc : scan s (fun _ => false) with
  | none =>
    have hno : ∀ n, ¬G.Connecting n := by
      intro n hn
      have := (scan_none hg _).1 hsc n hn
      simp at this
    have hcomp : component s (fun _ => true) pushStack (fun _ => false) (fun _ => false) [] =
        some ⟨fun _ => false, fun _ => false, [], [], [], []⟩ := by
      unfold component; rw [loop]
    have hb : ∀ n m, G.Connecting n → G.Connecting m → G.Path (fun _ => true) n m :=
      fun n m hn => absurd hn (hno n)
    refine ⟨true, comps, ?_, k1, by simpa using hb, by simpa using hlen.2 hb⟩
    simp [hcomp, hsc]
  | some r =>
    obtain ⟨hr, _⟩ := scan_some hg hsc
    obtain ⟨t, c1, c2, c3, c4, c5, c6, c7, c8⟩ :=
      component_spec hg pushStack_perm (fun _ => true) (Good.conn_live hr)
        (V0 := fun _ => false) (W0 := fun _ => false) (by simp) (by simp)
    have hb : (scan s t.vis).isNone = true ↔
        ∀ n m, G.Connecting n → G.Connecting m → G.Path (fun _ => true) n m := by
      rw [Option.isNone_iff_eq_none, scan_none hg]
      simp only [c6, Bool.false_eq_true, false_or]
      constructor
      · intro hh n m hn hm
        exact (Path_true_symm hn (hh n hn)).trans (hh m hm)
      · intro hh n hn
        exact hh r n hr hn
    refine ⟨_, comps, by simp [c1], k1, hb, hb.trans hlen.symm⟩

/-! ### Non-vacuity and findings -/

example : ∃ (s : State) (G : MG), Reach false s G ∧ G.Connecting 0 ∧ G.Live 1 ∧ ¬G.Connecting 1 ∧
    G.Path (fun _ => true) 0 1 := by
  obtain ⟨s, G, h, hj, _, h0, h1⟩ := exReach
  have hc : G.Connecting 0 := ⟨100, h0⟩
  refine ⟨s, G, h, hc, by simp [MG.Live, h1], ?_, .step .refl hc ⟨0, hj⟩ rfl⟩
  rintro ⟨x, hx⟩; rw [h1] at hx; simp at hx

/-- Two triangles of connecting nodes sharing a non-connecting node. -/
def exTwo : Option State := do
  let (a, s) ← insertNode empty 100 false
  let (b, s) ← insertNode s 101 false
  let (z, s) ← insertNode s 102 true
  let (c, s) ← insertNode s 103 false
  let (d, s) ← insertNode s 104 false
  let (_, s) ← insertEdge s 200 a b
  let (_, s) ← insertEdge s 201 b z
  let (_, s) ← insertEdge s 202 z c
  let (_, s) ← insertEdge s 203 c d
  let (_, s) ← insertEdge s 204 d c
  pure s

example : (exTwo.bind connectedComponents) =
    some [([0, 1, 2], [0, 1]), ([3, 2, 4], [4, 3, 2])] := by decide +kernel
example : (exTwo.bind isSingle) = some false := by decide +kernel
example : (exTwo.bind fun s => traverse s 0) = some ([0, 1, 2], [0, 1]) := by decide +kernel
example : (exTwo.bind fun s => reach s (fun n => n != 4) [0, 3, 1]) =
    some [([0, 1, 2], [0, 1]), ([3, 2], [4, 3, 2])] := by decide +kernel

/-- Finding: `clear` leaves stale entities in the node array, so that `connected_components` on a graph
that was cleared reports nodes that no longer exist (`clear` is not called anywhere in the library). -/
theorem clear_leaves_stale_nodes :
    ((insertNode empty 100 false).bind fun (_, s) => connectedComponents (clear s)) =
      some [([0], [])] := by decide +kernel

end Edyn.Graph
