import Verif.Graph.Model

/-!
# Representation invariant of the entity graph

Ghost data: `adj n` is the list of (adjacency index, neighbour) of node `n` in list order, `E n m`
the list of edges joining `n` and `m` in list order, `hd n` the head of the adjacency list of `n`.
-/

namespace Edyn.Graph

/-- The adjacency side. `hd` is normally the field `adjacency_index` of each node. -/
structure AdjInv (nf : FL Node) (af : FL Adj) (N LA : List Nat) (hd : Nat → Option Nat)
    (adj : Nat → List (Nat × Nat)) : Prop where
  nodesI : ∃ fl, nf.Inv N fl
  adjsI : ∃ fl, af.Inv LA fl
  chain : ∀ n ∈ N, Chain (fun a => (af.elem a).next) (hd n) ((adj n).map Prod.fst)
  elem : ∀ n ∈ N, ∀ p ∈ adj n, p.1 ∈ LA ∧ (af.elem p.1).node = some p.2
  nodupA : ∀ n ∈ N, ((adj n).map Prod.fst).Nodup
  nodupN : ∀ n ∈ N, ((adj n).map Prod.snd).Nodup
  uniq : ∀ n ∈ N, ∀ n' ∈ N, ∀ p ∈ adj n, ∀ p' ∈ adj n', p.1 = p'.1 → n = n'
  cover : ∀ a ∈ LA, ∃ n ∈ N, ∃ m, (a, m) ∈ adj n

/-- The edge record joins `n` and `m`. -/
def Edge.Ends (x : Edge) (n m : Nat) : Prop :=
  (x.n0 = some n ∧ x.n1 = some m) ∨ (x.n0 = some m ∧ x.n1 = some n)

/-- The edge side. -/
structure EdgeInv (ef : FL Edge) (N LE : List Nat) (E : Nat → Nat → List Nat) : Prop where
  edgesI : ∃ fl, ef.Inv LE fl
  symm : ∀ n m, E n m = E m n
  nodup : ∀ n m, (E n m).Nodup
  chain : ∀ n m, Chain (fun e => (ef.elem e).next) (E n m).head? (E n m)
  mem : ∀ n m, ∀ e ∈ E n m, e ∈ LE ∧ n ∈ N ∧ m ∈ N ∧ (ef.elem e).Ends n m
  live : ∀ e ∈ LE, (ef.elem e).entity ≠ none ∧
    ∃ n m, (ef.elem e).n0 = some n ∧ (ef.elem e).n1 = some m ∧ e ∈ E n m

/-- The adjacency records point to the edge lists. -/
structure Link (af : FL Adj) (N : List Nat) (adj : Nat → List (Nat × Nat))
    (E : Nat → Nat → List Nat) : Prop where
  head : ∀ n ∈ N, ∀ p ∈ adj n, (af.elem p.1).edge = (E n p.2).head?
  nbr : ∀ n ∈ N, ∀ m, m ∈ (adj n).map Prod.snd ↔ E n m ≠ []

/-- Ghost data. -/
structure Ghost where
  N : List Nat
  LE : List Nat
  LA : List Nat
  adj : Nat → List (Nat × Nat)
  E : Nat → Nat → List Nat

/-- The invariant, relative to adjacency list heads. -/
structure HInv (s : State) (hd : Nat → Option Nat) (g : Ghost) : Prop where
  adj : AdjInv s.nodes s.adjs g.N g.LA hd g.adj
  edge : EdgeInv s.edges g.N g.LE g.E
  link : Link s.adjs g.N g.adj g.E
  ent : ∀ n ∈ g.N, (s.nodes.elem n).entity ≠ none

/-- The heads stored in the nodes. -/
def heads (s : State) : Nat → Option Nat := fun n => (s.nodes.elem n).adj

/-- The invariant. -/
abbrev GInv (s : State) (g : Ghost) : Prop := HInv s (heads s) g

/-! ### Free list access -/

section FL
variable {α : Type}

theorem FL.get_of_lt {f : FL α} {i : Nat} (h : i < f.size) : f.get i = some (f.elem i) := by
  simp [FL.get, h]

theorem FL.put_of_lt {f : FL α} {i : Nat} (h : i < f.size) (v : α) :
    f.put i v = some { f with elem := fset f.elem i v } := by
  simp [FL.put, h]

variable [Slot α]

theorem FL.Inv.get {f : FL α} {l fl : List Nat} (h : f.Inv l fl) {i : Nat} (hi : i ∈ l) :
    f.get i = some (f.elem i) := FL.get_of_lt (h.lt hi)

theorem FL.Inv.put {f : FL α} {l fl : List Nat} (h : f.Inv l fl) {i : Nat} (hi : i ∈ l) (v : α) :
    f.put i v = some { f with elem := fset f.elem i v } := FL.put_of_lt (h.lt hi) v

theorem FL.Inv.fset {f : FL α} {l fl : List Nat} (h : f.Inv l fl) {i : Nat} (hi : i ∈ l) (v : α) :
    FL.Inv { f with elem := fset f.elem i v } l fl :=
  h.write rfl rfl rfl (fun j hj => by
    simp only
    rw [fset_ne]
    rintro rfl; exact hj hi)

end FL

/-! ### Searching -/

theorem findAdj_chain {af : FL Adj} {m : Nat} {l : List (Nat × Nat)} {h : Option Nat}
    (hc : Chain (fun a => (af.elem a).next) h (l.map Prod.fst))
    (he : ∀ p ∈ l, p.1 < af.size ∧ (af.elem p.1).node = some p.2) {fuel : Nat}
    (hf : l.length ≤ fuel) :
    findAdj af m fuel h = some ((l.find? (fun p => p.2 == m)).map Prod.fst) := by
  induction l generalizing h fuel with
  | nil =>
    rw [show h = none from hc]
    cases fuel <;> simp [findAdj]
  | cons p l ih =>
    obtain ⟨h1, h2⟩ := hc
    subst h1
    cases fuel with
    | zero => simp at hf
    | succ k =>
      obtain ⟨hlt, hnode⟩ := he p (by simp)
      simp only [findAdj, FL.get_of_lt hlt, Option.bind_eq_bind, Option.bind_some, hnode]
      by_cases hm : p.2 = m
      · simp [hm]
      · have := ih h2 (fun q hq => he q (by simp [hq])) (fuel := k) (by simpa using hf)
        simp [hm, this]

theorem AdjInv.length_le {nf : FL Node} {af : FL Adj} {N LA hd adj}
    (h : AdjInv nf af N LA hd adj) {n : Nat} (hn : n ∈ N) : (adj n).length ≤ af.size := by
  obtain ⟨fl, hA⟩ := h.adjsI
  have := length_le_of_nodup_lt (h.nodupA n hn) (n := af.size) (by
    intro x hx
    obtain ⟨p, hp, rfl⟩ := List.mem_map.1 hx
    exact hA.lt (h.elem n hn p hp).1)
  simpa using this

theorem AdjInv.find {nf : FL Node} {af : FL Adj} {N LA hd adj}
    (h : AdjInv nf af N LA hd adj) {n : Nat} (hn : n ∈ N) (m : Nat) {fuel : Nat}
    (hf : af.size ≤ fuel) :
    findAdj af m fuel (hd n) = some (((adj n).find? (fun p => p.2 == m)).map Prod.fst) := by
  obtain ⟨fl, hA⟩ := h.adjsI
  exact findAdj_chain (h.chain n hn)
    (fun p hp => ⟨hA.lt (h.elem n hn p hp).1, (h.elem n hn p hp).2⟩)
    (Nat.le_trans (h.length_le hn) hf)

theorem find_some_of_mem {l : List (Nat × Nat)} {m : Nat} (h : m ∈ l.map Prod.snd) :
    ∃ a, (a, m) ∈ l ∧ (l.find? (fun p => p.2 == m)).map Prod.fst = some a := by
  induction l with
  | nil => simp at h
  | cons p l ih =>
    by_cases hm : p.2 = m
    · exact ⟨p.1, by simp [← hm], by simp [hm]⟩
    · simp only [List.map_cons, List.mem_cons] at h
      rcases h with h | h
      · exact absurd h.symm hm
      · obtain ⟨a, h1, h2⟩ := ih h
        exact ⟨a, by simp [h1], by simp [hm, h2]⟩

theorem find_none_of_not_mem {l : List (Nat × Nat)} {m : Nat} (h : m ∉ l.map Prod.snd) :
    (l.find? (fun p => p.2 == m)).map Prod.fst = none := by
  simp only [Option.map_eq_none_iff, List.find?_eq_none, beq_iff_eq]
  intro p hp e
  exact h (List.mem_map.2 ⟨p, hp, e⟩)

/-- Finding the predecessor in a chain. -/
theorem findPrev_chain {α : Type} [Slot α] {f : FL α} {xs ys : List Nat} {p t : Nat} {h : Option Nat}
    (hc : Chain (fun a => Slot.next (f.elem a)) h (xs ++ p :: t :: ys))
    (hlt : ∀ x ∈ xs ++ [p], x < f.size) (nd : (xs ++ p :: t :: ys).Nodup) {fuel : Nat}
    (hf : xs.length + 1 ≤ fuel) : findPrev f t fuel h = some p := by
  induction xs generalizing h fuel with
  | nil =>
    obtain ⟨h1, h2, _⟩ := hc
    subst h1
    cases fuel with
    | zero => simp at hf
    | succ k => simp [findPrev, FL.get_of_lt (hlt p (by simp)), h2]
  | cons x xs ih =>
    obtain ⟨h1, h2⟩ := hc
    subst h1
    cases fuel with
    | zero => simp at hf
    | succ k =>
      simp only [List.cons_append] at nd
      rw [List.nodup_cons] at nd
      have hne : Slot.next (f.elem x) ≠ some t := by
        intro e
        have : Slot.next (f.elem x) = (xs ++ p :: t :: ys).head? := h2.head
        rw [e] at this
        cases xs with
        | nil =>
          simp only [List.nil_append, List.head?_cons, Option.some.injEq] at this
          have := nd.2
          simp [← ‹t = p›] at this
        | cons z zs =>
          simp only [List.cons_append, List.head?_cons, Option.some.injEq] at this
          have := nd.2
          simp [← ‹t = z›] at this
      simp only [findPrev, FL.get_of_lt (hlt x (by simp)), Option.bind_eq_bind, Option.bind_some,
        if_neg hne]
      exact ih h2 (fun y hy => hlt y (by simp at hy ⊢; tauto)) nd.2 (by simpa using hf)

/-! ### Writing to adjacency records -/

theorem AdjInv.congr {nf nf' : FL Node} {af af' : FL Adj} {N LA hd hd' adj}
    (h : AdjInv nf af N LA hd adj) (hn : ∃ fl, nf'.Inv N fl) (ha : ∃ fl, af'.Inv LA fl)
    (he : ∀ a ∈ LA, (af'.elem a).node = (af.elem a).node ∧ (af'.elem a).next = (af.elem a).next)
    (hh : ∀ n ∈ N, hd' n = hd n) : AdjInv nf' af' N LA hd' adj := by
  refine ⟨hn, ha, ?_, ?_, h.nodupA, h.nodupN, h.uniq, h.cover⟩
  · intro n hn
    rw [hh n hn]
    refine (h.chain n hn).congr ?_
    intro x hx
    obtain ⟨p, hp, rfl⟩ := List.mem_map.1 hx
    exact (he _ (h.elem n hn p hp).1).2
  · intro n hn p hp
    obtain ⟨h1, h2⟩ := h.elem n hn p hp
    exact ⟨h1, by rw [(he _ h1).1, h2]⟩

/-- A record belongs to one place only. -/
theorem AdjInv.inj {nf : FL Node} {af : FL Adj} {N LA hd adj}
    (h : AdjInv nf af N LA hd adj) {n n' a m m' : Nat} (hn : n ∈ N) (hn' : n' ∈ N)
    (hp : (a, m) ∈ adj n) (hp' : (a, m') ∈ adj n') : n = n' ∧ m = m' := by
  refine ⟨h.uniq n hn n' hn' _ hp _ hp' rfl, ?_⟩
  have h1 := (h.elem n hn _ hp).2
  have h2 := (h.elem n' hn' _ hp').2
  simp only at h1 h2
  rw [h1] at h2
  simpa using h2

/-- A neighbour has one record only. -/
theorem AdjInv.fun {nf : FL Node} {af : FL Adj} {N LA hd adj}
    (h : AdjInv nf af N LA hd adj) {n a a' m : Nat} (hn : n ∈ N)
    (hp : (a, m) ∈ adj n) (hp' : (a', m) ∈ adj n) : a = a' := by
  have := List.inj_on_of_nodup_map (h.nodupN n hn) hp hp' rfl
  simpa using this

/-- Inserting a record at the head of the list of `n`. -/
theorem AdjInv.cons {nf nf' : FL Node} {af af' : FL Adj} {N LA hd hd' adj}
    (h : AdjInv nf af N LA hd adj) {n m a : Nat} (hn : n ∈ N)
    (hI : ∃ fl, nf'.Inv N fl) (hA : ∃ fl, af'.Inv (a :: LA) fl) (ha : a ∉ LA)
    (hm : m ∉ (adj n).map Prod.snd)
    (hnode : (af'.elem a).node = some m) (hnext : (af'.elem a).next = hd n)
    (he : ∀ b ∈ LA, (af'.elem b).node = (af.elem b).node ∧ (af'.elem b).next = (af.elem b).next)
    (hh : ∀ k ∈ N, hd' k = if k = n then some a else hd k) :
    AdjInv nf' af' N (a :: LA) hd' (fset adj n ((a, m) :: adj n)) := by
  have hc : ∀ k ∈ N, Chain (fun x => (af'.elem x).next) (hd k) ((adj k).map Prod.fst) := by
    intro k hk
    refine (h.chain k hk).congr ?_
    intro x hx
    obtain ⟨p, hp, rfl⟩ := List.mem_map.1 hx
    exact (he _ (h.elem k hk p hp).1).2
  have hel : ∀ k ∈ N, ∀ p ∈ adj k, p.1 ∈ LA := fun k hk p hp => (h.elem k hk p hp).1
  refine ⟨hI, hA, ?_, ?_, ?_, ?_, ?_, ?_⟩
  · intro k hk
    rw [hh k hk, fset_apply]
    split
    · rename_i e; subst e
      refine ⟨rfl, ?_⟩
      simp only [hnext]
      exact hc k hk
    · exact hc k hk
  · intro k hk p hp
    rw [fset_apply] at hp
    split at hp
    · rename_i e; subst e
      rcases List.mem_cons.1 hp with rfl | hp
      · exact ⟨by simp, hnode⟩
      · obtain ⟨h1, h2⟩ := h.elem k hk p hp
        exact ⟨by simp [h1], by rw [(he _ h1).1, h2]⟩
    · obtain ⟨h1, h2⟩ := h.elem k hk p hp
      exact ⟨by simp [h1], by rw [(he _ h1).1, h2]⟩
  · intro k hk
    rw [fset_apply]
    split
    · rename_i e; subst e
      simp only [List.map_cons, List.nodup_cons]
      refine ⟨?_, h.nodupA k hk⟩
      intro hx
      obtain ⟨p, hp, hpe⟩ := List.mem_map.1 hx
      exact ha (hpe ▸ hel k hk p hp)
    · exact h.nodupA k hk
  · intro k hk
    rw [fset_apply]
    split
    · rename_i e; subst e
      simp only [List.map_cons, List.nodup_cons]
      exact ⟨hm, h.nodupN k hk⟩
    · exact h.nodupN k hk
  · intro k hk k' hk' p hp p' hp' e
    have aux : ∀ j ∈ N, ∀ q ∈ fset adj n ((a, m) :: adj n) j,
        (j = n ∧ q.1 = a) ∨ (q.1 ∈ LA ∧ q ∈ adj j) := by
      intro j hj q hq
      rw [fset_apply] at hq
      split at hq
      · rename_i e; subst e
        rcases List.mem_cons.1 hq with rfl | hq
        · exact Or.inl ⟨rfl, rfl⟩
        · exact Or.inr ⟨hel j hj q hq, hq⟩
      · exact Or.inr ⟨hel j hj q hq, hq⟩
    rcases aux k hk p hp with ⟨h1, h2⟩ | ⟨h1, h2⟩ <;>
      rcases aux k' hk' p' hp' with ⟨h3, h4⟩ | ⟨h3, h4⟩
    · rw [h1, h3]
    · exact absurd (by rw [← h2, e]; exact h3) ha
    · exact absurd (by rw [← h4, ← e]; exact h1) ha
    · exact h.uniq k hk k' hk' p h2 p' h4 e
  · intro b hb
    rcases List.mem_cons.1 hb with rfl | hb
    · exact ⟨n, hn, m, by simp⟩
    · obtain ⟨k, hk, j, hj⟩ := h.cover b hb
      refine ⟨k, hk, j, ?_⟩
      rw [fset_apply]
      split
      · rename_i e; subst e; simp [hj]
      · exact hj

/-- Dropping a record from the list of `n`; the list links are given by `nx`. -/
theorem AdjInv.drop {nf nf' : FL Node} {af af' : FL Adj} {N LA hd hd' adj}
    (h : AdjInv nf af N LA hd adj) {n a : Nat} (hn : n ∈ N) {l l' : List (Nat × Nat)} {m : Nat}
    (hl : adj n = l ++ (a, m) :: l')
    (hI : ∃ fl, nf'.Inv N fl) (hA : ∃ fl, af'.Inv (LA.erase a) fl)
    (he : ∀ b ∈ LA, b ≠ a → (af'.elem b).node = (af.elem b).node)
    (hx : ∀ k ∈ N, k ≠ n → ∀ p ∈ adj k, (af'.elem p.1).next = (af.elem p.1).next)
    (hc : Chain (fun x => (af'.elem x).next) (hd' n) ((l ++ l').map Prod.fst))
    (hh : ∀ k ∈ N, k ≠ n → hd' k = hd k) :
    AdjInv nf' af' N (LA.erase a) hd' (fset adj n (l ++ l')) := by
  obtain ⟨flA, hAI⟩ := h.adjsI
  have hnd := hAI.live_nodup
  have hsub : ∀ q, q ∈ l ++ l' → q ∈ adj n := by
    intro q hq; rw [hl]; simp at hq ⊢; tauto
  have hne : ∀ q, q ∈ l ++ l' → q.1 ≠ a := by
    intro q hq e
    have := h.nodupA n hn
    rw [hl] at this
    simp only [List.map_append, List.map_cons, List.nodup_append, List.nodup_cons] at this
    rcases List.mem_append.1 hq with hq | hq
    · exact this.2.2 q.1 (List.mem_map.2 ⟨q, hq, rfl⟩) a (by simp) e
    · exact this.2.1.1 (List.mem_map.2 ⟨q, hq, e⟩)
  have hmem : ∀ k ∈ N, ∀ q ∈ fset adj n (l ++ l') k, q ∈ adj k ∧ q.1 ≠ a := by
    intro k hk q hq
    rw [fset_apply] at hq
    split at hq
    · rename_i e; subst e
      exact ⟨hsub q hq, hne q hq⟩
    · rename_i hkn
      refine ⟨hq, ?_⟩
      intro e
      exact hkn (h.uniq k hk n hn q hq (a, m) (by rw [hl]; simp) e)
  refine ⟨hI, hA, ?_, ?_, ?_, ?_, ?_, ?_⟩
  · intro k hk
    rw [fset_apply]
    split
    · rename_i e; subst e; exact hc
    · rename_i hkn
      rw [hh k hk hkn]
      refine (h.chain k hk).congr ?_
      intro x hx'
      obtain ⟨p, hp, rfl⟩ := List.mem_map.1 hx'
      exact hx k hk hkn p hp
  · intro k hk p hp
    obtain ⟨h1, h2⟩ := hmem k hk p hp
    obtain ⟨h3, h4⟩ := h.elem k hk p h1
    exact ⟨(hnd.mem_erase_iff).2 ⟨h2, h3⟩, by rw [he _ h3 h2, h4]⟩
  · intro k hk
    rw [fset_apply]
    split
    · rename_i e; subst e
      refine List.Nodup.sublist ?_ (h.nodupA k hk)
      rw [hl]
      refine List.Sublist.map _ ?_
      simp
    · exact h.nodupA k hk
  · intro k hk
    rw [fset_apply]
    split
    · rename_i e; subst e
      refine List.Nodup.sublist ?_ (h.nodupN k hk)
      rw [hl]
      refine List.Sublist.map _ ?_
      simp
    · exact h.nodupN k hk
  · intro k hk k' hk' p hp p' hp' e
    exact h.uniq k hk k' hk' p (hmem k hk p hp).1 p' (hmem k' hk' p' hp').1 e
  · intro b hb
    obtain ⟨h1, h2⟩ := (hnd.mem_erase_iff).1 hb
    obtain ⟨k, hk, j, hj⟩ := h.cover b h2
    refine ⟨k, hk, j, ?_⟩
    rw [fset_apply]
    split
    · rename_i e; subst e
      rw [hl] at hj
      simp at hj ⊢
      rcases hj with h | ⟨h, _⟩ | h
      · exact Or.inl h
      · exact absurd h h1
      · exact Or.inr h
    · exact hj

end Edyn.Graph
