import Verif.Graph.RemoveAll

/-!
# Property C05: the entity graph is an undirected multigraph

`MG` is the specification: which nodes and edges exist, with what payload and endpoints.
-/

namespace Edyn.Graph

/-- A multigraph with payloads: nodes carry an entity and the non-connecting flag, edges carry an
entity and their two end nodes. -/
structure MG where
  nodes : Nat → Option (Nat × Bool)
  edges : Nat → Option (Nat × Nat × Nat)

namespace MG

/-- The edge `e` joins `n` and `m`, in either direction. -/
def Joins (G : MG) (e n m : Nat) : Prop :=
  ∃ x a b, G.edges e = some (x, a, b) ∧ ((a = n ∧ b = m) ∨ (a = m ∧ b = n))

/-- The edge `e` touches `n`. -/
def Touches (G : MG) (e n : Nat) : Prop := ∃ m, G.Joins e n m

instance (G : MG) (e n : Nat) : Decidable (G.Touches e n) :=
  match h : G.edges e with
  | none => .isFalse (by rintro ⟨m, x, a, b, h1, _⟩; rw [h] at h1; simp at h1)
  | some (x, a, b) =>
    if hc : a = n ∨ b = n then
      .isTrue (by
        rcases hc with rfl | rfl
        · exact ⟨b, x, a, b, h, Or.inl ⟨rfl, rfl⟩⟩
        · exact ⟨a, x, a, b, h, Or.inr ⟨rfl, rfl⟩⟩)
    else .isFalse (by
      rintro ⟨m, x', a', b', h1, h2⟩
      rw [h] at h1
      simp only [Option.some.injEq, Prod.mk.injEq] at h1
      obtain ⟨_, rfl, rfl⟩ := h1
      tauto)

def empty : MG := ⟨fun _ => none, fun _ => none⟩
def insertNode (G : MG) (n ent : Nat) (nc : Bool) : MG := { G with nodes := fset G.nodes n (some (ent, nc)) }
def removeNode (G : MG) (n : Nat) : MG := { G with nodes := fset G.nodes n none }
def insertEdge (G : MG) (e ent n m : Nat) : MG := { G with edges := fset G.edges e (some (ent, n, m)) }
def removeEdge (G : MG) (e : Nat) : MG := { G with edges := fset G.edges e none }
def removeAllEdges (G : MG) (n : Nat) : MG :=
  { G with edges := fun e => if G.Touches e n then none else G.edges e }
def setConnecting (G : MG) (n : Nat) (c : Bool) : MG :=
  { G with nodes := fset G.nodes n ((G.nodes n).map fun p => (p.1, !c)) }

end MG

/-- Histories of calls that respect the preconditions: nodes and edges exist, a removed node has no
edges, and no second self-loop is added to a node.  `clear` is available when `c` is true. -/
inductive Reach (c : Bool) : State → MG → Prop where
  | empty : Reach c empty MG.empty
  | insertNode {s s' G n} (ent : Nat) (nc : Bool) : Reach c s G →
      insertNode s ent nc = some (n, s') → Reach c s' (G.insertNode n ent nc)
  | removeNode {s s' G n} : Reach c s G → G.nodes n ≠ none → (∀ e, ¬G.Touches e n) →
      removeNode s n = some s' → Reach c s' (G.removeNode n)
  | insertEdge {s s' G n m e} (ent : Nat) : Reach c s G → G.nodes n ≠ none → G.nodes m ≠ none →
      (n = m → ∀ e, ¬G.Joins e n n) →
      insertEdge s ent n m = some (e, s') → Reach c s' (G.insertEdge e ent n m)
  | removeEdge {s s' G e} : Reach c s G → G.edges e ≠ none →
      removeEdge s e = some s' → Reach c s' (G.removeEdge e)
  | removeAllEdges {s s' G n} : Reach c s G → G.nodes n ≠ none →
      removeAllEdges s n = some s' → Reach c s' (G.removeAllEdges n)
  | setConnecting {s s' G n} (b : Bool) : Reach c s G → G.nodes n ≠ none →
      setConnecting s n b = some s' → Reach c s' (G.setConnecting n b)
  | clear {s G} : c = true → Reach c s G → Reach c (clear s) MG.empty

/-- The link between the arrays and the multigraph. -/
structure Good (c : Bool) (s : State) (G : MG) (g : Ghost) : Prop where
  inv : GInv s g
  nodes : ∀ n, n ∈ g.N ↔ G.nodes n ≠ none
  node : ∀ n x nc, G.nodes n = some (x, nc) →
    (s.nodes.elem n).entity = some x ∧ (s.nodes.elem n).nonConnecting = nc
  edges : ∀ e, e ∈ g.LE ↔ G.edges e ≠ none
  edge : ∀ e x a b, G.edges e = some (x, a, b) →
    (s.edges.elem e).entity = some x ∧ (s.edges.elem e).n0 = some a ∧ (s.edges.elem e).n1 = some b
  fresh : c = false → ∀ n, n ∉ g.N → (s.nodes.elem n).entity = none

theorem Good.joins {c s G g} (h : Good c s G g) (e n m : Nat) : e ∈ g.E n m ↔ G.Joins e n m := by
  constructor
  · intro he
    obtain ⟨h1, h2, h3, h4⟩ := h.inv.edge.mem n m e he
    obtain ⟨⟨x, a, b⟩, hx⟩ := Option.ne_none_iff_exists'.1 ((h.edges e).1 h1)
    obtain ⟨_, k2, k3⟩ := h.edge e x a b hx
    refine ⟨x, a, b, hx, ?_⟩
    simp only [Edge.Ends, k2, k3, Option.some.injEq] at h4
    exact h4
  · rintro ⟨x, a, b, hx, hab⟩
    obtain ⟨_, k2, k3⟩ := h.edge e x a b hx
    obtain ⟨_, a', b', l2, l3, l4⟩ := h.inv.edge.live e ((h.edges e).2 (by rw [hx]; simp))
    rw [k2] at l2
    rw [k3] at l3
    simp only [Option.some.injEq] at l2 l3
    subst l2 l3
    rcases hab with ⟨rfl, rfl⟩ | ⟨rfl, rfl⟩
    · exact l4
    · rw [h.inv.edge.symm]; exact l4

theorem Good.touches {c s G g} (h : Good c s G g) (e n : Nat) :
    G.Touches e n ↔ ∃ m, e ∈ g.E n m := by
  simp only [MG.Touches, h.joins]

theorem insertNode_good {c s G g} (h : Good c s G g) (ent : Nat) (nc : Bool) :
    ∃ n s' g', insertNode s ent nc = some (n, s') ∧ G.nodes n = none ∧
      Good c s' (G.insertNode n ent nc) g' := by
  obtain ⟨n, s', h1, h2, h3, h4, h5, h6⟩ := insertNode_spec h.inv ent nc
  have hnone : G.nodes n = none := by
    by_contra hc; exact h2 ((h.nodes n).2 hc)
  refine ⟨n, s', _, h1, hnone, h3, ?_, ?_, h.edges, ?_, ?_⟩
  · intro k
    simp only [MG.insertNode, fset_apply, List.mem_cons, h.nodes k]
    split <;> simp_all
  · intro k x b hk
    simp only [MG.insertNode, fset_apply] at hk
    split at hk
    · rename_i e; subst e
      simp only [Option.some.injEq, Prod.mk.injEq] at hk
      obtain ⟨rfl, rfl⟩ := hk
      rw [h4]; exact ⟨rfl, rfl⟩
    · rw [h5 k ((h.nodes k).2 (by rw [hk]; simp))]
      exact h.node k x b hk
  · rw [h6]; exact h.edge
  · intro hc k hk
    simp only [List.mem_cons, not_or] at hk
    obtain ⟨flN, hN⟩ := h.inv.adj.nodesI
    obtain ⟨i, f', fl', i1, _, _, _, _, _, i6⟩ := FL.insert_spec hN ⟨some ent, nc, none, none⟩
    simp only [insertNode, i1, Option.map_some, Option.some.injEq, Prod.mk.injEq] at h1
    obtain ⟨rfl, rfl⟩ := h1
    rcases i6 k hk.1 with e | ⟨m, e⟩
    · simp only [e]; exact h.fresh hc k hk.2
    · simp only [e]; rfl

theorem removeNode_good {c s G g} (h : Good c s G g) {n : Nat} (hn : G.nodes n ≠ none)
    (hE : ∀ e, ¬G.Touches e n) :
    ∃ s' g', removeNode s n = some s' ∧ Good c s' (G.removeNode n) g' := by
  have hnil : ∀ m, g.E n m = [] := by
    intro m
    rw [List.eq_nil_iff_forall_not_mem]
    intro e he
    exact hE e ((h.touches e n).2 ⟨m, he⟩)
  obtain ⟨s', h1, h2, h3, h4, h5⟩ := removeNode_spec h.inv ((h.nodes n).2 hn) hnil
  obtain ⟨flN, hN⟩ := h.inv.adj.nodesI
  have hme : ∀ k, k ∈ g.N.erase n ↔ k ≠ n ∧ k ∈ g.N := fun k => hN.live_nodup.mem_erase_iff
  refine ⟨s', _, h1, h2, ?_, ?_, h.edges, by rw [h4]; exact h.edge, ?_⟩
  · intro k
    simp only [hme, h.nodes, MG.removeNode, fset_apply]
    split <;> simp_all
  · intro k x b hk
    simp only [MG.removeNode, fset_apply] at hk
    split at hk
    · simp at hk
    · rename_i hne
      rw [h3 k ((h.nodes k).2 (by rw [hk]; simp)) hne]
      exact h.node k x b hk
  · intro hc k hk
    by_cases hkn : k = n
    · subst hkn; exact h5
    · have : k ∉ g.N := fun hh => hk ((hme k).2 ⟨hkn, hh⟩)
      obtain ⟨f', r1, r2, r3, r4⟩ := FL.remove_spec hN ((h.nodes n).2 hn)
      simp only [removeNode, Option.bind_eq_bind, r1] at h1
      have hs' : s'.nodes = f' := by
        cases hg : s.nodes.get n with
        | none => rw [hg] at h1; simp at h1
        | some x =>
          rw [hg] at h1
          simp only [Option.bind_some] at h1
          cases hb : check x.entity.isSome with
          | none => rw [hb] at h1; simp at h1
          | some _ =>
            rw [hb] at h1
            simp only [Option.bind_some] at h1
            cases hb2 : check (x.adj == none) with
            | none => rw [hb2] at h1; simp at h1
            | some _ =>
              rw [hb2] at h1
              simp only [Option.bind_some, Option.some.injEq] at h1
              rw [← h1]
      rw [hs', r4, fset_ne _ _ _ _ hkn]
      exact h.fresh hc k this

theorem insertEdge_good {c s G g} (h : Good c s G g) (ent : Nat) {n m : Nat}
    (hn : G.nodes n ≠ none) (hm : G.nodes m ≠ none) (hself : n = m → ∀ e, ¬G.Joins e n n) :
    ∃ e s' g', insertEdge s ent n m = some (e, s') ∧ G.edges e = none ∧
      Good c s' (G.insertEdge e ent n m) g' := by
  obtain ⟨e, s', LA', adj', h1, h2, h3, h4, h5, h6, h7, h8⟩ :=
    insertEdge_spec h.inv ent ((h.nodes n).2 hn) ((h.nodes m).2 hm) (by
      rintro rfl
      rw [List.eq_nil_iff_forall_not_mem]
      intro e he
      exact hself rfl e ((h.joins e n n).1 he))
  have hnone : G.edges e = none := by
    by_contra hc; exact h2 ((h.edges e).2 hc)
  refine ⟨e, s', _, h1, hnone, h3, h.nodes, ?_, ?_, ?_, ?_⟩
  · intro k x b hk
    rw [(h4 k).1, (h4 k).2]; exact h.node k x b hk
  · intro k
    simp only [MG.insertEdge, fset_apply, List.mem_cons, h.edges k]
    split <;> simp_all
  · intro k x a b hk
    simp only [MG.insertEdge, fset_apply] at hk
    split at hk
    · rename_i c; subst c
      simp only [Option.some.injEq, Prod.mk.injEq] at hk
      obtain ⟨rfl, rfl, rfl⟩ := hk
      exact ⟨h5, h6, h7⟩
    · rw [h8 k ((h.edges k).2 (by rw [hk]; simp))]
      exact h.edge k x a b hk
  · intro hc k hk
    rw [(h4 k).1]; exact h.fresh hc k hk

theorem removeEdge_good {c s G g} (h : Good c s G g) {e : Nat} (he : G.edges e ≠ none) :
    ∃ s' g', removeEdge s e = some s' ∧ Good c s' (G.removeEdge e) g' := by
  obtain ⟨s', LA', adj', n0, n1, l, l', h1, h2, h3, h4, h5, h6⟩ :=
    removeEdge_spec h.inv ((h.edges e).2 he)
  obtain ⟨flE, hE⟩ := h.inv.edge.edgesI
  have hme : ∀ k, k ∈ g.LE.erase e ↔ k ≠ e ∧ k ∈ g.LE := fun k => hE.live_nodup.mem_erase_iff
  refine ⟨s', _, h1, h3, h.nodes, ?_, ?_, ?_, ?_⟩
  · intro k x b hk
    rw [(h4 k).1, (h4 k).2]; exact h.node k x b hk
  · intro k
    simp only [hme, h.edges, MG.removeEdge, fset_apply]
    split <;> simp_all
  · intro k x a b hk
    simp only [MG.removeEdge, fset_apply] at hk
    split at hk
    · simp at hk
    · rename_i hne
      have := h6 k ((h.edges k).2 (by rw [hk]; simp)) hne
      rw [this.1, this.2.1, this.2.2]
      exact h.edge k x a b hk
  · intro hc k hk
    rw [(h4 k).1]; exact h.fresh hc k hk

theorem removeAllEdges_good {c s G g} (h : Good c s G g) {n : Nat} (hn : G.nodes n ≠ none) :
    ∃ s' g', removeAllEdges s n = some s' ∧ Good c s' (G.removeAllEdges n) g' := by
  obtain ⟨s', g', h1, h2, h3, h4, h5, h6, h7, h8, h9⟩ :=
    removeAllEdges_spec h.inv ((h.nodes n).2 hn)
  refine ⟨s', g', h1, h2, by rw [h3]; exact h.nodes, ?_, ?_, ?_, ?_⟩
  · intro k x b hk
    rw [(h6 k).1, (h6 k).2]; exact h.node k x b hk
  · intro k
    rw [h8 k, h.edges k]
    simp only [MG.removeAllEdges]
    have ht := h.touches k n
    split
    · rename_i c
      obtain ⟨m, hm⟩ := ht.1 c
      simp only [ne_eq, not_true_eq_false, iff_false, not_and]
      exact fun _ hc => hc m hm
    · rename_i c
      constructor
      · exact fun hh => hh.1
      · exact fun hh => ⟨hh, fun m hm => c (ht.2 ⟨m, hm⟩)⟩
  · intro k x a b hk
    simp only [MG.removeAllEdges] at hk
    split at hk
    · simp at hk
    · rename_i c
      have hkm : k ∈ g'.LE := by
        rw [h8 k, h.edges k, hk]
        exact ⟨by simp, fun m hm => c ((h.touches k n).2 ⟨m, hm⟩)⟩
      rw [h7 k hkm]
      exact h.edge k x a b hk
  · intro hc k hk
    rw [(h6 k).1]; exact h.fresh hc k (by rw [← h3]; exact hk)

theorem setConnecting_good {c s G g} (h : Good c s G g) {n : Nat} (hn : G.nodes n ≠ none) (b : Bool) :
    ∃ s' g', setConnecting s n b = some s' ∧ Good c s' (G.setConnecting n b) g' := by
  obtain ⟨s', h1, h2, h3, h4⟩ := setConnecting_spec h.inv ((h.nodes n).2 hn) b
  refine ⟨s', g, h1, h2, ?_, ?_, h.edges, by rw [h3]; exact h.edge, ?_⟩
  · intro k
    rw [h.nodes k]
    simp only [MG.setConnecting, fset_apply]
    split
    · rename_i e; subst e; simp
    · rfl
  · intro k x nc hk
    simp only [MG.setConnecting, fset_apply] at hk
    rw [h4]
    split at hk
    · rename_i e; subst e
      obtain ⟨⟨y, d⟩, hy⟩ := Option.ne_none_iff_exists'.1 hn
      rw [hy] at hk
      simp only [Option.map_some, Option.some.injEq, Prod.mk.injEq] at hk
      obtain ⟨rfl, rfl⟩ := hk
      simp [(h.node k y d hy).1]
    · rename_i hne
      rw [fset_ne _ _ _ _ hne]
      exact h.node k x nc hk
  · intro hc k hk
    have : k ≠ n := by rintro rfl; exact hk ((h.nodes k).2 hn)
    rw [h4, fset_ne _ _ _ _ this]
    exact h.fresh hc k hk

theorem reach_good {c : Bool} {s : State} {G : MG} (h : Reach c s G) : ∃ g, Good c s G g := by
  induction h with
  | empty =>
    exact ⟨_, empty_spec, by simp [MG.empty], by simp [MG.empty], by simp [MG.empty],
      by simp [MG.empty], fun _ n _ => rfl⟩
  | insertNode ent nc _ hc ih =>
    obtain ⟨g, hg⟩ := ih
    obtain ⟨n, s', g', h1, _, h3⟩ := insertNode_good hg ent nc
    rw [hc] at h1
    simp only [Option.some.injEq, Prod.mk.injEq] at h1
    obtain ⟨rfl, rfl⟩ := h1
    exact ⟨g', h3⟩
  | removeNode _ h1 h2 hc ih =>
    obtain ⟨g, hg⟩ := ih
    obtain ⟨s', g', k1, k2⟩ := removeNode_good hg h1 h2
    rw [hc] at k1
    simp only [Option.some.injEq] at k1
    exact ⟨g', k1 ▸ k2⟩
  | insertEdge ent _ h1 h2 h3 hc ih =>
    obtain ⟨g, hg⟩ := ih
    obtain ⟨n, s', g', k1, _, k3⟩ := insertEdge_good hg ent h1 h2 h3
    rw [hc] at k1
    simp only [Option.some.injEq, Prod.mk.injEq] at k1
    obtain ⟨rfl, rfl⟩ := k1
    exact ⟨g', k3⟩
  | removeEdge _ h1 hc ih =>
    obtain ⟨g, hg⟩ := ih
    obtain ⟨s', g', k1, k2⟩ := removeEdge_good hg h1
    rw [hc] at k1
    simp only [Option.some.injEq] at k1
    exact ⟨g', k1 ▸ k2⟩
  | removeAllEdges _ h1 hc ih =>
    obtain ⟨g, hg⟩ := ih
    obtain ⟨s', g', k1, k2⟩ := removeAllEdges_good hg h1
    rw [hc] at k1
    simp only [Option.some.injEq] at k1
    exact ⟨g', k1 ▸ k2⟩
  | setConnecting b _ h1 hc ih =>
    obtain ⟨g, hg⟩ := ih
    obtain ⟨s', g', k1, k2⟩ := setConnecting_good hg h1 b
    rw [hc] at k1
    simp only [Option.some.injEq] at k1
    exact ⟨g', k1 ▸ k2⟩
  | clear hc _ _ =>
    exact ⟨_, clear_spec _, by simp [MG.empty], by simp [MG.empty], by simp [MG.empty],
      by simp [MG.empty], fun h => by rw [hc] at h; simp at h⟩

/-- C05. Every call that respects the preconditions succeeds: no assertion fails, no index is out of
range, no loop runs forever; new nodes and edges get indices not in use. -/
theorem calls_defined {c : Bool} {s : State} {G : MG} (h : Reach c s G) :
    (∀ ent nc, ∃ n s', insertNode s ent nc = some (n, s') ∧ G.nodes n = none) ∧
    (∀ n, G.nodes n ≠ none → (∀ e, ¬G.Touches e n) → ∃ s', removeNode s n = some s') ∧
    (∀ ent n m, G.nodes n ≠ none → G.nodes m ≠ none → (n = m → ∀ e, ¬G.Joins e n n) →
      ∃ e s', insertEdge s ent n m = some (e, s') ∧ G.edges e = none) ∧
    (∀ e, G.edges e ≠ none → ∃ s', removeEdge s e = some s') ∧
    (∀ n, G.nodes n ≠ none → ∃ s', removeAllEdges s n = some s') ∧
    (∀ n b, G.nodes n ≠ none → ∃ s', setConnecting s n b = some s') := by
  obtain ⟨g, hg⟩ := reach_good h
  refine ⟨?_, ?_, ?_, ?_, ?_, ?_⟩
  · intro ent nc
    obtain ⟨n, s', _, h1, h2, _⟩ := insertNode_good hg ent nc
    exact ⟨n, s', h1, h2⟩
  · intro n h1 h2
    obtain ⟨s', _, k1, _⟩ := removeNode_good hg h1 h2
    exact ⟨s', k1⟩
  · intro ent n m h1 h2 h3
    obtain ⟨e, s', _, k1, k2, _⟩ := insertEdge_good hg ent h1 h2 h3
    exact ⟨e, s', k1, k2⟩
  · intro e h1
    obtain ⟨s', _, k1, _⟩ := removeEdge_good hg h1
    exact ⟨s', k1⟩
  · intro n h1
    obtain ⟨s', _, k1, _⟩ := removeAllEdges_good hg h1
    exact ⟨s', k1⟩
  · intro n b h1
    obtain ⟨s', _, k1, _⟩ := setConnecting_good hg h1 b
    exact ⟨s', k1⟩

/-! ### Observers -/

theorem chain_ok {α : Type} [Slot α] {f : FL α} {l : List Nat} {h : Option Nat}
    (hc : Chain (fun i => Slot.next (f.elem i)) h l) (nd : l.Nodup) (hlt : ∀ x ∈ l, x < f.size) :
    ∀ x ∈ l, (decide (x < f.size) && !(Slot.next (f.elem x) == some x)) = true := by
  induction l generalizing h with
  | nil => simp
  | cons y ys ih =>
    obtain ⟨_, h2⟩ := hc
    rw [List.nodup_cons] at nd
    intro x hx
    rcases List.mem_cons.1 hx with rfl | hx
    · have h3 : Slot.next (f.elem x) = ys.head? := h2.head
      have h4 : Slot.next (f.elem x) ≠ some x := by
        rw [h3]
        intro e
        exact nd.1 (List.mem_of_mem_head? (by rw [e]; simp))
      simp [hlt x (by simp), h4]
    · exact ih h2 nd.2 (fun z hz => hlt z (by simp [hz])) x hx

theorem walkF_spec {α : Type} [Slot α] {f : FL α} {l : List Nat} {h : Option Nat}
    (hc : Chain (fun i => Slot.next (f.elem i)) h l) (nd : l.Nodup) (hlt : ∀ x ∈ l, x < f.size)
    {fuel : Nat} (hf : f.size ≤ fuel) : walkF f fuel h = some l :=
  walk_chain hc (chain_ok hc nd hlt) (Nat.le_trans (length_le_of_nodup_lt nd hlt) hf)

theorem GInv.walkAdj {s : State} {g : Ghost} (h : GInv s g) {n : Nat} (hn : n ∈ g.N) :
    walkF s.adjs s.fuel (s.nodes.elem n).adj = some ((g.adj n).map Prod.fst) := by
  obtain ⟨flA, hA⟩ := h.adj.adjsI
  refine walkF_spec (h.adj.chain n hn) (h.adj.nodupA n hn) ?_ (fuel_adjs s)
  intro x hx
  obtain ⟨p, hp, rfl⟩ := List.mem_map.1 hx
  exact hA.lt (h.adj.elem n hn p hp).1

theorem GInv.walkEdges {s : State} {g : Ghost} (h : GInv s g) (n m : Nat) :
    walkF s.edges s.fuel (g.E n m).head? = some (g.E n m) := by
  obtain ⟨flE, hE⟩ := h.edge.edgesI
  refine walkF_spec (h.edge.chain n m) (h.edge.nodup n m) ?_ (fuel_edges s)
  intro x hx
  exact hE.lt (h.edge.mem n m x hx).1

theorem mapM_map {α β γ : Type} (l : List α) (f : α → β) (k : β → Option γ) (r : α → γ)
    (h : ∀ a ∈ l, k (f a) = some (r a)) : (l.map f).mapM k = some (l.map r) := by
  induction l with
  | nil => rfl
  | cons a l ih =>
    rw [List.map_cons, List.mapM_cons, h a (by simp), ih (fun b hb => h b (by simp [hb]))]
    rfl

theorem expand_spec {s : State} {g : Ghost} (h : GInv s g) {n : Nat} (hn : n ∈ g.N) :
    expand s n = some ((g.adj n).map fun p => (p.2, g.E n p.2)) := by
  obtain ⟨flN, hN⟩ := h.adj.nodesI
  simp only [expand, hN.get hn, Option.bind_eq_bind, Option.bind_some, h.walkAdj hn]
  refine mapM_map _ _ _ _ ?_
  intro p hp
  rw [(h.adj.elem n hn p hp).2, h.link.head n hn p hp]
  simp only [Option.bind_some, h.walkEdges]

/-- C05. What the graph reports is what the multigraph says. -/
theorem observers_exact {c : Bool} {s : State} {G : MG} (h : Reach c s G) :
    (∀ n x nc, G.nodes n = some (x, nc) →
      nodeEntity s n = some x ∧ isConnecting s n = some (!nc)) ∧
    (∀ e x a b, G.edges e = some (x, a, b) →
      edgeEntity s e = some x ∧ edgeNodes s e = some (some a, some b) ∧
      edgeNodeEntities s e = some ((G.nodes a).map (·.1), (G.nodes b).map (·.1))) ∧
    (∀ n m, G.nodes n ≠ none → ∃ b, hasAdjacency s n m = some b ∧
      (b = true ↔ ∃ e, G.Joins e n m)) ∧
    (∀ n m, G.nodes n ≠ none → G.nodes m ≠ none → ∃ l, visitEdgesBetween s n m = some l ∧
      l.Nodup ∧ ∀ e, e ∈ l ↔ G.Joins e n m) ∧
    (∀ n, G.nodes n ≠ none → ∃ l, visitEdges s n = some l ∧ l.Nodup ∧
      ∀ e, e ∈ l ↔ G.Touches e n) ∧
    (∀ n, G.nodes n ≠ none → ∃ ids : List Nat, ids.Nodup ∧ (∀ m, m ∈ ids ↔ ∃ e, G.Joins e n m) ∧
      ∃ l, visitNeighbors s n = some l ∧
        l.map some = ids.map fun m => (G.nodes m).map (·.1)) ∧
    (∃ N : List Nat, N.Nodup ∧ (∀ n, n ∈ N ↔ G.nodes n ≠ none) ∧ numNodes s = N.length) ∧
    (∃ L : List Nat, L.Nodup ∧ (∀ e, e ∈ L ↔ G.edges e ≠ none) ∧ numEdges s = L.length) := by
  obtain ⟨g, hg⟩ := reach_good h
  obtain ⟨flN, hN⟩ := hg.inv.adj.nodesI
  obtain ⟨flA, hA⟩ := hg.inv.adj.adjsI
  obtain ⟨flE, hE⟩ := hg.inv.edge.edgesI
  have hne : ∀ n m, (g.E n m ≠ []) ↔ ∃ e, G.Joins e n m := by
    intro n m
    simp only [← hg.joins]
    exact ⟨List.exists_mem_of_ne_nil _, fun ⟨e, he⟩ => List.ne_nil_of_mem he⟩
  have hmemN : ∀ n m e, e ∈ g.E n m → m ∈ g.N := fun n m e he => (hg.inv.edge.mem n m e he).2.2.1
  refine ⟨?_, ?_, ?_, ?_, ?_, ?_, ⟨g.N, hN.live_nodup, hg.nodes, hN.count⟩,
    ⟨g.LE, hE.live_nodup, hg.edges, hE.count⟩⟩
  · intro n x nc hx
    obtain ⟨h1, h2⟩ := hg.node n x nc hx
    have hn := (hg.nodes n).2 (by rw [hx]; simp)
    simp [nodeEntity, isConnecting, hN.get hn, h1, h2]
  · intro e x a b hx
    obtain ⟨h1, h2, h3⟩ := hg.edge e x a b hx
    have he := (hg.edges e).2 (by rw [hx]; simp)
    have hj : e ∈ g.E a b := (hg.joins e a b).2 ⟨x, a, b, hx, Or.inl ⟨rfl, rfl⟩⟩
    obtain ⟨_, ha, hb, _⟩ := hg.inv.edge.mem a b e hj
    obtain ⟨⟨xa, ca⟩, hxa⟩ := Option.ne_none_iff_exists'.1 ((hg.nodes a).1 ha)
    obtain ⟨⟨xb, cb⟩, hxb⟩ := Option.ne_none_iff_exists'.1 ((hg.nodes b).1 hb)
    simp [edgeEntity, edgeNodes, edgeNodeEntities, hE.get he, h1, h2, h3, hN.get ha, hN.get hb,
      (hg.node a xa ca hxa).1, (hg.node b xb cb hxb).1, hxa, hxb]
  · intro n m hn
    refine ⟨_, hasAdjacency_spec hg.inv.adj ((hg.nodes n).2 hn) rfl m, ?_⟩
    rw [decide_eq_true_eq, hg.inv.link.nbr n ((hg.nodes n).2 hn) m, hne]
  · intro n m hn hm
    have hn' := (hg.nodes n).2 hn
    have hm' := (hg.nodes m).2 hm
    refine ⟨g.E n m, ?_, hg.inv.edge.nodup n m, fun e => hg.joins e n m⟩
    have hf := hg.inv.adj.find hn' m (fuel_adjs s)
    simp only [visitEdgesBetween, hN.get hn', hN.get hm', Option.bind_eq_bind, Option.bind_some]
    rw [show (s.nodes.elem n).adj = heads s n from rfl, hf]
    by_cases hadj : m ∈ (g.adj n).map Prod.snd
    · obtain ⟨a, h1, h2⟩ := find_some_of_mem hadj
      rw [h2]
      simp only [Option.bind_some, hA.get (hg.inv.adj.elem n hn' _ h1).1]
      rw [hg.inv.link.head n hn' _ h1]
      exact hg.inv.walkEdges n m
    · rw [find_none_of_not_mem hadj]
      have : g.E n m = [] := by
        by_contra hc
        exact hadj ((hg.inv.link.nbr n hn' m).2 hc)
      simp [this]
  · intro n hn
    have hn' := (hg.nodes n).2 hn
    refine ⟨_, by rw [visitEdges, expand_spec hg.inv hn', Option.map_some], ?_, ?_⟩
    · rw [List.flatMap_map, List.nodup_flatMap]
      refine ⟨fun p _ => hg.inv.edge.nodup n p.2, ?_⟩
      have := hg.inv.adj.nodupN n hn'
      rw [List.Nodup, List.pairwise_map] at this
      refine this.imp ?_
      intro p q hpq x hx hx'
      rcases hg.inv.edge.pair hx hx' with ⟨_, c⟩ | ⟨c1, c2⟩
      · exact hpq c.symm
      · exact hpq (c1.symm.trans c2.symm)
    · intro e
      rw [hg.touches]
      simp only [List.mem_flatMap, List.mem_map]
      constructor
      · rintro ⟨_, ⟨p, hp, rfl⟩, he⟩
        exact ⟨p.2, he⟩
      · rintro ⟨m, hm⟩
        have : m ∈ (g.adj n).map Prod.snd := (hg.inv.link.nbr n hn' m).2 (by
          intro c; rw [c] at hm; simp at hm)
        obtain ⟨p, hp, rfl⟩ := List.mem_map.1 this
        exact ⟨_, ⟨p, hp, rfl⟩, hm⟩
  · intro n hn
    have hn' := (hg.nodes n).2 hn
    obtain ⟨⟨x, nc⟩, hx⟩ := Option.ne_none_iff_exists'.1 hn
    refine ⟨(g.adj n).map Prod.snd, hg.inv.adj.nodupN n hn', ?_, ?_⟩
    · intro m; rw [hg.inv.link.nbr n hn' m, hne]
    · refine ⟨(g.adj n).map fun p => ((G.nodes p.2).map (·.1)).getD 0, ?_, ?_⟩
      · simp only [visitNeighbors, hN.get hn', (hg.node n x nc hx).1, Option.bind_eq_bind,
          Option.bind_some, Option.isSome_some, check_true, hg.inv.walkAdj hn']
        refine mapM_map _ _ _ _ ?_
        intro p hp
        have hE : g.E n p.2 ≠ [] :=
          (hg.inv.link.nbr n hn' p.2).1 (List.mem_map.2 ⟨p, hp, rfl⟩)
        obtain ⟨e, he⟩ := List.exists_mem_of_ne_nil _ hE
        have hm := hmemN n p.2 e he
        obtain ⟨⟨y, ny⟩, hy⟩ := Option.ne_none_iff_exists'.1 ((hg.nodes p.2).1 hm)
        simp [(hg.inv.adj.elem n hn' p hp).2, hN.get hm, (hg.node _ y ny hy).1, hy]
      · rw [List.map_map, List.map_map]
        refine List.map_congr_left ?_
        intro p hp
        have hE : g.E n p.2 ≠ [] :=
          (hg.inv.link.nbr n hn' p.2).1 (List.mem_map.2 ⟨p, hp, rfl⟩)
        obtain ⟨e, he⟩ := List.exists_mem_of_ne_nil _ hE
        have hm := hmemN n p.2 e he
        obtain ⟨⟨y, ny⟩, hy⟩ := Option.ne_none_iff_exists'.1 ((hg.nodes p.2).1 hm)
        simp [hy]

/-! ### Findings and non-vacuity -/

/-- A triangle with a double edge and a self-loop, then some removals. -/
def exGraph : Option State := do
  let (a, s) ← insertNode empty 100 false
  let (b, s) ← insertNode s 101 false
  let (c, s) ← insertNode s 102 true
  let (_, s) ← insertEdge s 200 a b
  let (e, s) ← insertEdge s 201 b a
  let (_, s) ← insertEdge s 202 b c
  let (_, s) ← insertEdge s 203 a c
  let (_, s) ← insertEdge s 204 a a
  removeEdge s e

example : (exGraph.bind fun s => visitEdges s 0) = some [4, 3, 0] := by decide +kernel
example : (exGraph.bind fun s => visitNeighbors s 2) = some [100, 101] := by decide +kernel
example : (exGraph.bind fun s => (removeAllEdges s 0).bind fun s => visitEdges s 1) = some [2] := by
  decide +kernel
example : (exGraph.map numEdges) = some 4 := by decide +kernel

/-- A reachable graph: two nodes, the second non-connecting, joined by an edge. -/
theorem exReach : ∃ (s : State) (G : MG), Reach false s G ∧ G.Joins 0 0 1 ∧
    (∀ e, ¬G.Joins e 1 1) ∧ G.nodes 0 = some (100, false) ∧ G.nodes 1 = some (101, true) := by
  have r0 : Reach false empty MG.empty := .empty
  let s1 := ((insertNode empty 100 false).get (by decide +kernel)).2
  have e1 : insertNode empty 100 false = some (0, s1) := rfl
  have r1 := Reach.insertNode 100 false r0 e1
  let s2 := ((insertNode s1 101 true).get (by decide +kernel)).2
  have e2 : insertNode s1 101 true = some (1, s2) := rfl
  have r2 := Reach.insertNode 101 true r1 e2
  let s3 := ((insertEdge s2 200 0 1).get (by decide +kernel)).2
  have e3 : insertEdge s2 200 0 1 = some (0, s3) := rfl
  have r3 := Reach.insertEdge 200 r2 (by decide +kernel) (by decide +kernel)
    (fun h => absurd h (by decide)) e3
  refine ⟨_, _, r3, ?_, ?_, rfl, rfl⟩
  · exact ⟨200, 0, 1, rfl, Or.inl ⟨rfl, rfl⟩⟩
  · rintro e ⟨x, a, b, h, hab⟩
    simp only [MG.insertEdge, MG.insertNode, MG.empty, fset_apply] at h
    split at h
    · simp only [Option.some.injEq, Prod.mk.injEq] at h
      omega
    · simp at h

/-- Finding: adding a second self-loop to a node fails the assertion at `entity_graph.cpp:65`. -/
theorem second_self_loop_asserts :
    ((insertNode empty 100 false).bind fun (a, s) =>
      (insertEdge s 200 a a).bind fun (_, s) => insertEdge s 201 a a).isNone = true ∧
    ((insertNode empty 100 false).bind fun (a, s) => insertEdge s 200 a a).isSome = true := by
  decide +kernel

end Edyn.Graph
