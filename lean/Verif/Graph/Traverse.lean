import Verif.Graph.Props
import Verif.Graph.TraverseModel

/-! # The inner loop of the traversals -/

namespace Edyn.Graph

/-! ### Specification -/

namespace MG

/-- The node exists. -/
def Live (G : MG) (n : Nat) : Prop := G.nodes n ≠ none
/-- The node exists and is connecting. -/
def Connecting (G : MG) (n : Nat) : Prop := ∃ x, G.nodes n = some (x, false)
/-- Some edge joins the two nodes. -/
def Linked (G : MG) (n m : Nat) : Prop := ∃ e, G.Joins e n m

/-- There is a path from `r` whose nodes, except possibly the last, are connecting, and whose nodes
after `r` are accepted by the predicate. -/
inductive Path (G : MG) (should : Nat → Bool) (r : Nat) : Nat → Prop where
  | refl : Path G should r r
  | step {x y} : Path G should r x → G.Connecting x → G.Linked x y → should y = true →
      Path G should r y

theorem Linked.symm {G : MG} {n m : Nat} : G.Linked n m → G.Linked m n := by
  rintro ⟨e, x, a, b, h, hab⟩
  exact ⟨e, x, a, b, h, hab.symm⟩

theorem Path.trans {G : MG} {should : Nat → Bool} {a b c : Nat} (h1 : G.Path should a b)
    (h2 : G.Path should b c) : G.Path should a c := by
  induction h2 with
  | refl => exact h1
  | step _ hc hl hs ih => exact .step ih hc hl hs

theorem Path.should {G : MG} {should : Nat → Bool} {r x : Nat} (h : G.Path should r x)
    (hr : should r = true) : should x = true := by
  cases h with
  | refl => exact hr
  | step _ _ _ hs => exact hs

theorem Path.symm {G : MG} {should : Nat → Bool} {r x : Nat} (h : G.Path should r x)
    (hr : should r = true) (hc : G.Connecting x) : G.Path should x r := by
  induction h with
  | refl => exact .refl
  | step hp hcx hl hs ih =>
    exact Path.trans (.step .refl hc hl.symm (hp.should hr)) (ih hcx)

end MG

/-! ### One node -/

theorem scanEdges_spec (es : List Nat) (t : TS) :
    (scanEdges es t).nodes = t.nodes ∧ (scanEdges es t).nonc = t.nonc ∧
    (scanEdges es t).todo = t.todo ∧ (scanEdges es t).vis = t.vis ∧
    (∀ e, (scanEdges es t).visE e = true ↔ t.visE e = true ∨ e ∈ es) ∧
    ∃ new, (scanEdges es t).edges = t.edges ++ new ∧ new.Nodup ∧
      ∀ e, e ∈ new ↔ e ∈ es ∧ t.visE e = false := by
  induction es generalizing t with
  | nil => simp [scanEdges]
  | cons e es ih =>
    rw [scanEdges]
    split
    · rename_i h
      obtain ⟨h1, h2, h3, h4, h5, new, h6, h7, h8⟩ := ih t
      refine ⟨h1, h2, h3, h4, ?_, new, h6, h7, ?_⟩
      · intro e'; rw [h5]; grind
      · intro e'; rw [h8]; grind
    · rename_i h
      obtain ⟨h1, h2, h3, h4, h5, new, h6, h7, h8⟩ :=
        ih { t with edges := t.edges ++ [e], visE := fset t.visE e true }
      refine ⟨h1, h2, h3, h4, ?_, e :: new, by simpa using h6, ?_, ?_⟩
      · intro e'; rw [h5]; simp only [fset_apply]; grind
      · rw [List.nodup_cons]
        refine ⟨?_, h7⟩
        rw [h8]; simp
      · intro e'
        rw [List.mem_cons, h8]; simp only [fset_apply]; grind

theorem scanAdj_spec {push : Nat → List Nat → List Nat} (hpush : ∀ m l, (push m l).Perm (m :: l))
    (should : Nat → Bool) (l : List (Nat × List Nat)) (t : TS) :
    (scanAdj should push l t).nodes = t.nodes ∧ (scanAdj should push l t).nonc = t.nonc ∧
    (∀ x, (scanAdj should push l t).vis x = true ↔
      t.vis x = true ∨ (x ∈ l.map Prod.fst ∧ should x = true)) ∧
    (∃ new, (scanAdj should push l t).todo.Perm (new ++ t.todo) ∧ new.Nodup ∧
      ∀ x, x ∈ new ↔ x ∈ l.map Prod.fst ∧ should x = true ∧ t.vis x = false) ∧
    (∀ e, (scanAdj should push l t).visE e = true ↔ t.visE e = true ∨ e ∈ l.flatMap Prod.snd) ∧
    ∃ new, (scanAdj should push l t).edges = t.edges ++ new ∧ new.Nodup ∧
      ∀ e, e ∈ new ↔ e ∈ l.flatMap Prod.snd ∧ t.visE e = false := by
  induction l generalizing t with
  | nil =>
    exact ⟨rfl, rfl, by simp [scanAdj], ⟨[], by simp [scanAdj], by simp, by simp⟩, by simp [scanAdj],
      [], by simp [scanAdj], by simp, by simp⟩
  | cons p l ih =>
    obtain ⟨m, es⟩ := p
    rw [scanAdj]
    obtain ⟨e1, e2, e3, e4, e5, newE, e6, e7, e8⟩ := scanEdges_spec es t
    generalize scanEdges es t = t1 at *
    have hN : ∃ new1, (scanNode should push m t1).todo.Perm (new1 ++ t1.todo) ∧ new1.Nodup ∧
        (∀ x, x ∈ new1 ↔ x = m ∧ should x = true ∧ t1.vis x = false) ∧
        (∀ x, (scanNode should push m t1).vis x = true ↔
          t1.vis x = true ∨ (x = m ∧ should x = true)) ∧
        (scanNode should push m t1).nodes = t1.nodes ∧ (scanNode should push m t1).nonc = t1.nonc ∧
        (scanNode should push m t1).visE = t1.visE ∧ (scanNode should push m t1).edges = t1.edges := by
      rw [scanNode]
      split
      · rename_i h
        simp only [Bool.and_eq_true, Bool.not_eq_true'] at h
        refine ⟨[m], hpush m _, by simp, ?_, ?_, rfl, rfl, rfl, rfl⟩
        · intro x; simp only [List.mem_singleton]; grind
        · intro x; simp only [fset_apply]; grind
      · rename_i h
        refine ⟨[], List.Perm.refl _, by simp, ?_, ?_, rfl, rfl, rfl, rfl⟩
        · intro x; grind
        · intro x; grind
    obtain ⟨new1, n1, n2, n3, n4, n5, n6, n7, n8⟩ := hN
    generalize scanNode should push m t1 = t2 at *
    obtain ⟨i1, i2, i3, ⟨new2, i4, i5, i6⟩, i7, newE2, i8, i9, i10⟩ := ih t2
    refine ⟨by rw [i1, n5, e1], by rw [i2, n6, e2], ?_, ⟨new2 ++ new1, ?_, ?_, ?_⟩, ?_,
      newE ++ newE2, ?_, ?_, ?_⟩
    · intro x
      rw [i3, n4, e4]
      simp only [List.map_cons, List.mem_cons]
      grind
    · refine i4.trans ?_
      rw [List.append_assoc, ← e3]
      exact n1.append_left new2
    · rw [List.nodup_append]
      refine ⟨i5, n2, ?_⟩
      intro a ha b hb hab
      subst hab
      have := (i6 a).1 ha
      have h2 := (n3 a).1 hb
      have h3 := (n4 a).2 (Or.inr ⟨h2.1, h2.2.1⟩)
      rw [this.2.2] at h3
      simp at h3
    · intro x
      simp only [List.mem_append, i6, n3, List.map_cons, List.mem_cons]
      have := n4 x
      rw [e4] at this
      rw [e4]
      grind
    · intro e
      rw [i7, n7, e5]
      simp only [List.flatMap_cons, List.mem_append]
      grind
    · rw [i8, n8, e6, List.append_assoc]
    · rw [List.nodup_append]
      refine ⟨e7, i9, ?_⟩
      intro a ha b hb hab
      subst hab
      have h1 := (e8 a).1 ha
      have h2 := (i10 a).1 hb
      rw [n7] at h2
      have := (e5 a).2 (Or.inr h1.1)
      rw [h2.2] at this
      simp at this
    · intro e
      simp only [List.mem_append, e8, i10, List.flatMap_cons, n7]
      have := e5 e
      grind

/-! ### The inner loop -/

theorem Good.lt {c s G g} (h : Good c s G g) {n : Nat} (hn : G.nodes n ≠ none) :
    n < s.nodes.size := by
  obtain ⟨fl, hN⟩ := h.inv.adj.nodesI
  exact hN.lt ((h.nodes n).2 hn)

theorem Good.get {c s G g} (h : Good c s G g) {n : Nat} (hn : G.nodes n ≠ none) :
    s.nodes.get n = some (s.nodes.elem n) := by
  obtain ⟨fl, hN⟩ := h.inv.adj.nodesI
  exact hN.get ((h.nodes n).2 hn)

theorem Good.live_of_linked {c s G g} (h : Good c s G g) {n m : Nat} (hl : G.Linked n m) :
    G.nodes m ≠ none := by
  obtain ⟨e, he⟩ := hl
  exact (h.nodes m).1 (h.inv.edge.mem n m e ((h.joins e n m).2 he)).2.2.1

theorem Good.connecting {c s G g} (h : Good c s G g) {n : Nat} (hn : G.nodes n ≠ none) :
    G.Connecting n ↔ (s.nodes.elem n).nonConnecting = false := by
  obtain ⟨⟨x, nc⟩, hx⟩ := Option.ne_none_iff_exists'.1 hn
  rw [(h.node n x nc hx).2]
  constructor
  · rintro ⟨y, hy⟩; rw [hx] at hy; simp at hy; exact hy.2
  · rintro rfl; exact ⟨x, hx⟩

/-- What `expand` returns, in terms of the multigraph. -/
theorem Good.expand {c s G g} (h : Good c s G g) {n : Nat} (hn : G.nodes n ≠ none) :
    ∃ l, expand s n = some l ∧ (∀ m, m ∈ l.map Prod.fst ↔ G.Linked n m) ∧
      (∀ e, e ∈ l.flatMap Prod.snd ↔ G.Touches e n) ∧
      (l.all fun p => p.2.all fun e => (s.edges.elem e).entity.isSome) = true := by
  have hn' := (h.nodes n).2 hn
  refine ⟨_, expand_spec h.inv hn', ?_, ?_, ?_⟩
  · intro m
    rw [List.map_map]
    have : (Prod.fst ∘ fun p : Nat × Nat => (p.2, g.E n p.2)) = Prod.snd := by funext p; rfl
    rw [this, h.inv.link.nbr n hn' m]
    simp only [MG.Linked, ← h.joins]
    exact ⟨List.exists_mem_of_ne_nil _, fun ⟨e, he⟩ => List.ne_nil_of_mem he⟩
  · intro e
    rw [h.touches]
    simp only [List.mem_flatMap, List.mem_map]
    constructor
    · rintro ⟨_, ⟨p, hp, rfl⟩, he⟩
      exact ⟨p.2, he⟩
    · rintro ⟨m, hm⟩
      have : m ∈ (g.adj n).map Prod.snd := (h.inv.link.nbr n hn' m).2 (List.ne_nil_of_mem hm)
      obtain ⟨p, hp, rfl⟩ := List.mem_map.1 this
      exact ⟨_, ⟨p, hp, rfl⟩, hm⟩
  · simp only [List.all_eq_true, List.mem_map]
    rintro _ ⟨p, hp, rfl⟩ e he
    obtain ⟨⟨x, a, b⟩, hx⟩ := Option.ne_none_iff_exists'.1
      ((h.edges e).1 (h.inv.edge.mem n p.2 e he).1)
    rw [(h.edge e x a b hx).1]; rfl

/-- Invariant of the inner loop, for a component started at `r` when the nodes in `V0` and the edges
in `W0` had been visited before. -/
structure LInv (G : MG) (should : Nat → Bool) (r : Nat) (V0 W0 : Nat → Bool) (t : TS) : Prop where
  nodup : (t.nodes ++ t.todo).Nodup
  vis : ∀ x, t.vis x = true ↔ V0 x = true ∨ x ∈ t.nodes ∨ x ∈ t.todo
  path : ∀ x, x ∈ t.nodes ∨ x ∈ t.todo → G.Path should r x ∧ G.nodes x ≠ none
  start : r ∈ t.nodes ∨ r ∈ t.todo
  closed : ∀ x, x ∈ t.nodes → G.Connecting x → ∀ y, G.Linked x y → should y = true →
    t.vis y = true
  nonc : ∀ x, x ∈ t.nonc ↔ x ∈ t.nodes ∧ ¬G.Connecting x
  visE : ∀ e, t.visE e = true ↔ W0 e = true ∨ ∃ x ∈ t.nodes, G.Connecting x ∧ G.Touches e x
  edges : ∀ e, e ∈ t.edges ↔ W0 e = false ∧ ∃ x ∈ t.nodes, G.Connecting x ∧ G.Touches e x
  nodupE : t.edges.Nodup

theorem loop_spec {c s G g} (h : Good c s G g) {push : Nat → List Nat → List Nat}
    (hpush : ∀ m l, (push m l).Perm (m :: l)) (should : Nat → Bool) (r : Nat) (V0 W0 : Nat → Bool)
    (fuel : Nat) (t : TS) (ht : LInv G should r V0 W0 t)
    (hfuel : s.nodes.size ≤ fuel + t.nodes.length) :
    ∃ t', loop s should push fuel t = some t' ∧ LInv G should r V0 W0 t' ∧ t'.todo = [] := by
  induction fuel generalizing t with
  | zero =>
    have hlt : ∀ x ∈ t.nodes ++ t.todo, x < s.nodes.size := by
      intro x hx
      exact h.lt (ht.path x (List.mem_append.1 hx)).2
    have hlen := length_le_of_nodup_lt ht.nodup hlt
    rw [List.length_append] at hlen
    have : t.todo = [] := List.eq_nil_of_length_eq_zero (by omega)
    refine ⟨t, ?_, ht, this⟩
    rw [loop, this]
  | succ fuel ih =>
    rw [loop]
    match htd : t.todo with
    | [] => exact ⟨t, rfl, ht, htd⟩
    | n :: rest =>
      have hn := ht.path n (Or.inr (by rw [htd]; simp))
      obtain ⟨⟨x, nc⟩, hx⟩ := Option.ne_none_iff_exists'.1 hn.2
      have hent := (h.node n x nc hx).1
      have hnc := (h.node n x nc hx).2
      simp only [h.get hn.2, hent, Option.isSome_some, check_true, Option.bind_eq_bind,
        Option.bind_some]
      have hnd := ht.nodup
      rw [htd] at hnd
      have hvn : t.vis n = true := (ht.vis n).2 (Or.inr (Or.inr (by rw [htd]; simp)))
      have hfs : fset t.vis n true = t.vis := by
        funext k; rw [fset_apply]; split
        · rename_i e; subst e; exact hvn.symm
        · rfl
      have hnd' : ((t.nodes ++ [n]) ++ rest).Nodup := by
        rw [List.append_assoc]; exact hnd
      have hconn := h.connecting hn.2
      rw [hfs]
      split
      · rename_i hcc
        rw [hcc] at hconn
        have hnC : ¬G.Connecting n := by rw [hconn]; simp
        refine ih _ ⟨hnd', ?_, ?_, ?_, ?_, ?_, ?_, ?_, ht.nodupE⟩ ?_
        · intro x; dsimp only; rw [ht.vis x, htd]; simp; grind
        · intro x; dsimp only; rintro hx
          exact ht.path x (by rw [htd]; simp at hx ⊢; grind)
        · have := ht.start; rw [htd] at this; simp at this ⊢; grind
        · intro x hx hc
          dsimp only at hx ⊢
          refine ht.closed x ?_ hc
          simp at hx
          rcases hx with hx | rfl
          · exact hx
          · exact absurd hc hnC
        · intro x; dsimp only; simp only [List.mem_append, List.mem_singleton, ht.nonc]; grind
        · intro e; dsimp only; rw [ht.visE]; simp only [List.mem_append, List.mem_singleton]; grind
        · intro e; dsimp only; rw [ht.edges]; simp only [List.mem_append, List.mem_singleton]; grind
        · simp only [List.length_append, List.length_singleton]; omega
      · rename_i hcc
        rw [Bool.not_eq_true] at hcc
        have hC : G.Connecting n := hconn.2 hcc
        obtain ⟨l, hl, hm, he, hall⟩ := h.expand hn.2
        simp only [hl, Option.bind_some, hall, check_true]
        obtain ⟨i1, i2, i3, ⟨new, i4, i5, i6⟩, i7, newE, i8, i9, i10⟩ := scanAdj_spec hpush should l
          { t with vis := t.vis, todo := rest, nodes := t.nodes ++ [n] }
        dsimp only at i1 i2 i3 i4 i5 i6 i7 i8 i9 i10
        have hmt : ∀ x, x ∈ (scanAdj should push l
            { t with vis := t.vis, todo := rest, nodes := t.nodes ++ [n] }).todo ↔
            (G.Linked n x ∧ should x = true ∧ t.vis x = false) ∨ x ∈ rest := by
          intro x; rw [i4.mem_iff, List.mem_append, i6, hm]
        generalize hgen : scanAdj should push l
          { t with vis := t.vis, todo := rest, nodes := t.nodes ++ [n] } = t2 at *
        refine ih _ ⟨?_, ?_, ?_, ?_, ?_, ?_, ?_, ?_, ?_⟩ ?_
        · rw [i1, (i4.append_left (t.nodes ++ [n])).nodup_iff, List.nodup_append]
          rw [List.nodup_append] at hnd'
          refine ⟨hnd'.1, ?_, ?_⟩
          · rw [List.nodup_append]
            refine ⟨i5, hnd'.2.1, ?_⟩
            intro a ha b hb hab
            subst hab
            have := ((i6 a).1 ha).2.2
            rw [(ht.vis a).2 (Or.inr (Or.inr (by rw [htd]; simp [hb])))] at this
            simp at this
          · intro a ha b hb hab
            subst hab
            rcases List.mem_append.1 hb with hb | hb
            · have := ((i6 a).1 hb).2.2
              have hva : t.vis a = true := by
                rw [ht.vis]
                rcases List.mem_append.1 ha with ha | ha
                · exact Or.inr (Or.inl ha)
                · simp at ha; subst ha; exact Or.inr (Or.inr (by rw [htd]; simp))
              rw [hva] at this; simp at this
            · exact hnd'.2.2 a ha a hb rfl
        · intro x
          rw [i3, ht.vis, i1, hmt, htd, hm]
          simp only [List.mem_append, List.mem_singleton, List.mem_cons]
          have hv := ht.vis x
          rw [htd] at hv
          simp only [List.mem_cons] at hv
          cases hvx : t.vis x
          · rw [hvx] at hv; simp only [reduceCtorEq, false_iff] at hv; grind
          · rw [hvx] at hv; simp only [true_iff] at hv; grind
        · intro x hx
          rw [i1, hmt] at hx
          rcases hx with hx | ⟨h1, h2, _⟩ | hx
          · refine ht.path x ?_
            rw [htd]; simp at hx ⊢; grind
          · exact ⟨.step hn.1 hC h1 h2, h.live_of_linked h1⟩
          · exact ht.path x (by rw [htd]; simp [hx])
        · rw [i1, hmt]
          have := ht.start; rw [htd] at this; simp at this ⊢; grind
        · intro x hx hc y hy hs
          rw [i1] at hx
          rw [i3, hm]
          rcases List.mem_append.1 hx with hx | hx
          · exact Or.inl (ht.closed x hx hc y hy hs)
          · simp at hx; subst hx; exact Or.inr ⟨hy, hs⟩
        · intro x; rw [i2, i1]
          simp only [List.mem_append, List.mem_singleton, ht.nonc]; grind
        · intro e; rw [i7, ht.visE, i1, he]; simp only [List.mem_append, List.mem_singleton]; grind
        · intro e
          rw [i8, i1, List.mem_append, ht.edges, i10, he]
          have := ht.visE e
          simp only [List.mem_append, List.mem_singleton]
          cases hw : W0 e
          · rw [hw] at this
            simp only [Bool.false_eq_true, false_or] at this
            cases hv : t.visE e
            · rw [hv] at this; grind
            · rw [hv] at this; grind
          · rw [hw] at this
            simp only [true_or, iff_true] at this
            rw [this]; simp
        · rw [i8, List.nodup_append]
          refine ⟨ht.nodupE, i9, ?_⟩
          intro a ha b hb hab
          subst hab
          have h1 := ((ht.edges a).1 ha).2
          have h2 := ((i10 a).1 hb).2
          rw [(ht.visE a).2 (Or.inr h1)] at h2
          simp at h2
        · rw [i1]; simp only [List.length_append, List.length_singleton]; omega

/-- The first iteration marks the start node. -/
theorem loop_mark (s : State) (should : Nat → Bool) (push : Nat → List Nat → List Nat) (fuel : Nat)
    (V0 W0 : Nat → Bool) (r : Nat) :
    loop s should push fuel ⟨V0, W0, [r], [], [], []⟩ =
      loop s should push fuel ⟨fset V0 r true, W0, [r], [], [], []⟩ := by
  cases fuel with
  | zero => simp [loop]
  | succ fuel => rw [loop, loop]; simp only [fset_fset]

/-- One component: exactly the nodes joined to the start, provided none was visited before. -/
theorem component_spec {c s G g} (h : Good c s G g) {push : Nat → List Nat → List Nat}
    (hpush : ∀ m l, (push m l).Perm (m :: l)) (should : Nat → Bool) {r : Nat}
    (hr : G.nodes r ≠ none) {V0 W0 : Nat → Bool}
    (hV : ∀ x, G.Path should r x → V0 x = false)
    (hW : ∀ e x, G.Path should r x → G.Connecting x → G.Touches e x → W0 e = false) :
    ∃ t, component s should push V0 W0 [r] = some t ∧
      t.nodes.Nodup ∧ t.edges.Nodup ∧
      (∀ x, x ∈ t.nodes ↔ G.Path should r x) ∧
      (∀ e, e ∈ t.edges ↔ ∃ x, G.Path should r x ∧ G.Connecting x ∧ G.Touches e x) ∧
      (∀ x, t.vis x = true ↔ V0 x = true ∨ G.Path should r x) ∧
      (∀ e, t.visE e = true ↔ W0 e = true ∨
        ∃ x, G.Path should r x ∧ G.Connecting x ∧ G.Touches e x) ∧
      (∀ x, x ∈ t.nonc ↔ G.Path should r x ∧ ¬G.Connecting x) := by
  rw [component, loop_mark]
  obtain ⟨t, h1, h2, h3⟩ := loop_spec h hpush should r V0 W0 s.nodes.size
    ⟨fset V0 r true, W0, [r], [], [], []⟩
    ⟨by simp, by intro x; simp only [fset_apply]; simp; grind,
      by intro x hx; simp at hx; subst hx; exact ⟨.refl, hr⟩, by simp, by simp, by simp, by simp,
      by simp, by simp⟩ (by simp)
  have hnodes : ∀ x, x ∈ t.nodes ↔ G.Path should r x := by
    intro x
    constructor
    · intro hx; exact (h2.path x (Or.inl hx)).1
    · intro hp
      induction hp with
      | refl =>
        have := h2.start
        rw [h3] at this
        simpa using this
      | @step x y hp hc hl hs ih =>
        have hy := (h2.vis _).1 (h2.closed x ih hc y hl hs)
        rw [h3, hV y (.step hp hc hl hs)] at hy
        simpa using hy
  refine ⟨t, h1, ?_, h2.nodupE, hnodes, ?_, ?_, ?_, ?_⟩
  · have := h2.nodup; rw [h3] at this; simpa using this
  · intro e
    rw [h2.edges]
    constructor
    · rintro ⟨_, x, hx, hh⟩; exact ⟨x, (hnodes x).1 hx, hh⟩
    · rintro ⟨x, hx, hc, ht⟩; exact ⟨hW e x hx hc ht, x, (hnodes x).2 hx, hc, ht⟩
  · intro x; rw [h2.vis, h3, hnodes]; simp
  · intro e; rw [h2.visE]
    simp only [hnodes]
  · intro x; rw [h2.nonc, hnodes]

theorem unmark_apply (l : List Nat) (vis : Nat → Bool) (x : Nat) :
    unmark l vis x = true ↔ vis x = true ∧ x ∉ l := by
  unfold unmark
  induction l generalizing vis with
  | nil => simp
  | cons a l ih =>
    rw [List.foldl_cons, ih, fset_apply]
    simp only [List.mem_cons]
    grind

/-- What has been visited between components: a set of connecting accepted nodes closed under links,
and the edges that touch it. -/
structure Cl (G : MG) (should : Nat → Bool) (V W : Nat → Bool) : Prop where
  conn : ∀ x, V x = true → G.Connecting x ∧ should x = true
  closed : ∀ x y, V x = true → G.Linked x y → G.Connecting y → should y = true → V y = true
  edges : ∀ e, W e = true ↔ ∃ x, V x = true ∧ G.Touches e x

theorem Cl.path {G : MG} {should V W} (h : Cl G should V W) {x y : Nat} (hx : V x = true)
    (hp : G.Path should x y) (hy : G.Connecting y) : V y = true := by
  induction hp with
  | refl => exact hx
  | step _ hc hl hs ih => exact h.closed _ _ (ih hc) hl hy hs

theorem Cl.fresh {G : MG} {should V W} (h : Cl G should V W) {r : Nat}
    (hs : should r = true) (hc : G.Connecting r) (hv : V r = false) :
    (∀ x, G.Path should r x → V x = false) ∧
    (∀ e x, G.Path should r x → G.Connecting x → G.Touches e x → W e = false) := by
  have h1 : ∀ x, G.Path should r x → V x = false := by
    intro x hp
    by_contra hcon
    rw [Bool.not_eq_false] at hcon
    have := h.path hcon (hp.symm hs (h.conn x hcon).1) hc
    rw [hv] at this; simp at this
  refine ⟨h1, ?_⟩
  intro e x hp hcx ht
  by_contra hcon
  rw [Bool.not_eq_false] at hcon
  obtain ⟨y, hy, hty⟩ := (h.edges e).1 hcon
  have hxy : x = y ∨ G.Linked y x := by
    obtain ⟨m, x1, a, b, k1, k2⟩ := ht
    obtain ⟨m', x2, a', b', k3, k4⟩ := hty
    have k3' := k3
    rw [k1] at k3
    simp only [Option.some.injEq, Prod.mk.injEq] at k3
    obtain ⟨rfl, rfl, rfl⟩ := k3
    have key : x = y ∨ G.Joins e y x := by
      rcases k2 with ⟨rfl, rfl⟩ | ⟨rfl, rfl⟩ <;> rcases k4 with ⟨rfl, rfl⟩ | ⟨rfl, rfl⟩
      · exact Or.inl rfl
      · exact Or.inr ⟨x1, _, _, k1, Or.inr ⟨rfl, rfl⟩⟩
      · exact Or.inr ⟨x1, _, _, k1, Or.inl ⟨rfl, rfl⟩⟩
      · exact Or.inl rfl
    exact key.imp id fun hj => ⟨e, hj⟩
  rcases hxy with rfl | hl
  · rw [h1 x hp] at hy; simp at hy
  · have := h.closed y x hy hl hcx (hp.should hs)
    rw [h1 x hp] at this; simp at this

theorem Cl.next {G : MG} {should V W} (h : Cl G should V W) {r : Nat}
    (hs : should r = true) {V' W' : Nat → Bool}
    (hV : ∀ x, V' x = true ↔ V x = true ∨ (G.Path should r x ∧ G.Connecting x))
    (hW : ∀ e, W' e = true ↔ W e = true ∨ ∃ x, G.Path should r x ∧ G.Connecting x ∧ G.Touches e x) :
    Cl G should V' W' := by
  refine ⟨?_, ?_, ?_⟩
  · intro x hx
    rcases (hV x).1 hx with hx | ⟨hp, hc⟩
    · exact h.conn x hx
    · exact ⟨hc, hp.should hs⟩
  · intro x y hx hl hc hsy
    rw [hV]
    rcases (hV x).1 hx with hx | ⟨hp, hcx⟩
    · exact Or.inl (h.closed x y hx hl hc hsy)
    · exact Or.inr ⟨.step hp hcx hl hsy, hc⟩
  · intro e
    rw [hW, h.edges]
    simp only [hV]
    grind

end Edyn.Graph
