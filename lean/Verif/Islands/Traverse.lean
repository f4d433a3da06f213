import Verif.Islands.Model
import Mathlib.Data.Finset.Card
import Mathlib.Logic.Relation
import Mathlib.Data.List.Perm.Basic
import Mathlib.Tactic.Tauto

/-! # Islands: the traversals visit exactly what can be reached -/

namespace Edyn.Islands

variable (adj : Nat → List (Nat × List Nat)) (conn should : Nat → Bool)

/-- `m` is a neighbour of `n`. -/
def Adj (n m : Nat) : Prop := ∃ es, (m, es) ∈ adj n
/-- `e` is an edge of `n`. -/
def Inc (n e : Nat) : Prop := ∃ m es, (m, es) ∈ adj n ∧ e ∈ es

def nodesOf (l : List Ev) : List Nat :=
  l.filterMap fun ev => match ev with | .node n => some n | _ => none
def edgesIn (l : List Ev) : List Nat :=
  l.filterMap fun ev => match ev with | .edge e => some e | _ => none

theorem nodesOf_append (l l' : List Ev) : nodesOf (l ++ l') = nodesOf l ++ nodesOf l' := by
  simp [nodesOf]
theorem edgesIn_append (l l' : List Ev) : edgesIn (l ++ l') = edgesIn l ++ edgesIn l' := by
  simp [edgesIn]
theorem mem_nodesOf {l : List Ev} {n : Nat} : n ∈ nodesOf l ↔ Ev.node n ∈ l := by
  simp only [nodesOf, List.mem_filterMap]
  constructor
  · rintro ⟨ev, h, h'⟩
    cases ev <;> simp_all
  · intro h; exact ⟨_, h, rfl⟩
theorem mem_edgesIn {l : List Ev} {n : Nat} : n ∈ edgesIn l ↔ Ev.edge n ∈ l := by
  simp only [edgesIn, List.mem_filterMap]
  constructor
  · rintro ⟨ev, h, h'⟩
    cases ev <;> simp_all
  · intro h; exact ⟨_, h, rfl⟩

theorem scanEdges_spec (es : List Nat) (t : TS) :
    ∃ lg, scanEdges es t = { t with
        log := t.log ++ lg, visE := (scanEdges es t).visE } ∧
      (∀ ev ∈ lg, ∃ e, ev = .edge e) ∧ (edgesIn lg).Nodup ∧
      (∀ e, Ev.edge e ∈ lg ↔ t.visE e = false ∧ e ∈ es) ∧
      (∀ e, (scanEdges es t).visE e = true ↔ t.visE e = true ∨ e ∈ es) := by
  induction es generalizing t with
  | nil => exact ⟨[], by simp [scanEdges, edgesIn]⟩
  | cons e es ih =>
    simp only [scanEdges]
    cases hv : t.visE e with
    | true =>
      simp only [if_true]
      obtain ⟨lg, h1, h2, h3, h4, h5⟩ := ih t
      refine ⟨lg, h1, h2, h3, ?_, ?_⟩
      · intro x; rw [h4]; grind
      · intro x; rw [h5]; grind
    | false =>
      simp only [Bool.false_eq_true, if_false]
      obtain ⟨lg, h1, h2, h3, h4, h5⟩ := ih { t with
        log := t.log ++ [.edge e], visE := Function.update t.visE e true }
      refine ⟨.edge e :: lg, ?_, ?_, ?_, ?_, ?_⟩
      · rw [h1]; simp
      · simpa using h2
      · have : edgesIn (.edge e :: lg) = e :: edgesIn lg := by simp [edgesIn]
        rw [this, List.nodup_cons]
        refine ⟨?_, h3⟩
        rw [mem_edgesIn, h4]
        simp
      · intro x
        simp only [List.mem_cons, h4, Ev.edge.injEq]
        by_cases hx : x = e
        · subst hx; simp [hv]
        · simp [Function.update_of_ne hx, hx]
      · intro x
        rw [h5]
        by_cases hx : x = e
        · subst hx; simp
        · simp [Function.update_of_ne hx, hx]

/-- A push adds its argument. -/
def PushOk (push : Nat → List Nat → List Nat) : Prop := ∀ m l, (push m l).Perm (m :: l)

theorem pushStack_ok : PushOk pushStack := fun _ _ => List.Perm.refl _
theorem pushQueue_ok : PushOk pushQueue := fun m l => by
  simp only [pushQueue]
  exact List.perm_append_comm (l₁ := l) (l₂ := [m])

/-- The effect of scanning a list of adjacencies. -/
structure ScanSpec (L : List (Nat × List Nat)) (t t' : TS) (lg : List Ev) (add : List Nat) :
    Prop where
  log : t'.log = t.log ++ lg
  noNode : nodesOf lg = []
  todo : t'.todo.Perm (add ++ t.todo)
  nodup : add.Nodup
  addOk : ∀ m ∈ add, t.vis m = false ∧ should m = true ∧ Ev.ask m ∈ lg ∧ ∃ es, (m, es) ∈ L
  vis : ∀ m, t'.vis m = true ↔ t.vis m = true ∨ m ∈ add
  all : ∀ m es, (m, es) ∈ L → t'.vis m = true ∨ (should m = false ∧ Ev.ask m ∈ lg)
  ask : ∀ m, Ev.ask m ∈ lg → t.vis m = false ∧ ∃ es, (m, es) ∈ L
  edgesNodup : (edgesIn lg).Nodup
  edges : ∀ e, Ev.edge e ∈ lg ↔ t.visE e = false ∧ ∃ m es, (m, es) ∈ L ∧ e ∈ es
  visE : ∀ e, t'.visE e = true ↔ t.visE e = true ∨ ∃ m es, (m, es) ∈ L ∧ e ∈ es

theorem scanAdj_spec {push : Nat → List Nat → List Nat} (hp : PushOk push)
    (L : List (Nat × List Nat)) (t : TS) :
    ∃ lg add, ScanSpec should L t (scanAdj should push L t) lg add := by
  induction L generalizing t with
  | nil =>
    exact ⟨[], [], by constructor <;> simp [scanAdj, nodesOf, edgesIn]⟩
  | cons p rest ih =>
    obtain ⟨m, es⟩ := p
    simp only [scanAdj]
    obtain ⟨lgE, hE1, hE2, hE3, hE4, hE5⟩ := scanEdges_spec es t
    have hnE : nodesOf lgE = [] := by
      rw [List.eq_nil_iff_forall_not_mem]
      intro n hn; rw [mem_nodesOf] at hn; obtain ⟨e, he⟩ := hE2 _ hn; cases he
    have haE : ∀ n, Ev.ask n ∉ lgE := by
      intro n hn; obtain ⟨e, he⟩ := hE2 _ hn; cases he
    generalize hte : scanEdges es t = te at *
    have hv : te.vis = t.vis := by rw [hE1]
    have hlog : te.log = t.log ++ lgE := by rw [hE1]
    have htodo : te.todo = t.todo := by rw [hE1]
    obtain ⟨lg, add, H⟩ := ih (scanNode should push m te)
    unfold scanNode at H ⊢
    by_cases hm : te.vis m = true
    · simp only [hm, if_true] at H ⊢
      refine ⟨lgE ++ lg, add, ?_⟩
      constructor
      · rw [H.log, hlog, List.append_assoc]
      · rw [nodesOf_append, hnE, H.noNode]; rfl
      · rw [← htodo]; exact H.todo
      · exact H.nodup
      · intro x hx
        have := H.addOk x hx
        rw [hv] at this
        refine ⟨this.1, this.2.1, by simp [this.2.2.1], ?_⟩
        obtain ⟨es', h⟩ := this.2.2.2; exact ⟨es', by simp [h]⟩
      · intro x; rw [H.vis, hv]
      · intro x es' h
        rcases List.mem_cons.1 h with h | h
        · cases h
          left; rw [H.vis]; left; exact hm
        · rcases H.all x es' h with h | h
          · exact Or.inl h
          · exact Or.inr ⟨h.1, by simp [h.2]⟩
      · intro x hx
        rcases List.mem_append.1 hx with hx | hx
        · exact absurd hx (haE x)
        · have := H.ask x hx
          rw [hv] at this
          obtain ⟨h1, es', h⟩ := this; exact ⟨h1, es', by simp [h]⟩
      · rw [edgesIn_append, List.nodup_append]
        refine ⟨hE3, H.edgesNodup, ?_⟩
        rintro a ha b hb rfl
        rw [mem_edgesIn] at ha hb
        rw [hE4] at ha
        rw [H.edges] at hb
        have := (hE5 a).2 (Or.inr ha.2)
        simp [this] at hb
      · intro e
        rw [List.mem_append, hE4, H.edges]
        have h5 := hE5 e
        constructor
        · rintro (h | ⟨h1, m', es', h2, h3⟩)
          · exact ⟨h.1, m, es, by simp, h.2⟩
          · refine ⟨?_, m', es', by simp [h2], h3⟩
            by_contra hc
            have := h5.2 (Or.inl (by simpa using hc))
            simp [this] at h1
        · rintro ⟨h1, m', es', h2, h3⟩
          by_cases hes : e ∈ es
          · exact Or.inl ⟨h1, hes⟩
          · right
            refine ⟨?_, m', es', ?_, h3⟩
            · by_contra hc
              have := h5.1 (by simpa using hc)
              simp [h1, hes] at this
            · rcases List.mem_cons.1 h2 with h | h
              · cases h; exact absurd h3 hes
              · exact h
      · intro e
        rw [H.visE, hE5]
        constructor
        · rintro ((h | h) | ⟨m', es', h2, h3⟩)
          · exact Or.inl h
          · exact Or.inr ⟨m, es, by simp, h⟩
          · exact Or.inr ⟨m', es', by simp [h2], h3⟩
        · rintro (h | ⟨m', es', h2, h3⟩)
          · exact Or.inl (Or.inl h)
          · rcases List.mem_cons.1 h2 with h | h
            · cases h; exact Or.inl (Or.inr h3)
            · exact Or.inr ⟨m', es', h, h3⟩
    · simp only [hm, Bool.false_eq_true, if_false] at H ⊢
      have hm' : t.vis m = false := by rw [← hv]; simpa using hm
      by_cases hs : should m = true
      · simp only [hs, if_true] at H ⊢
        refine ⟨lgE ++ .ask m :: lg, m :: add, ?_⟩
        have hma : m ∉ add := fun h => by have := (H.addOk m h).1; simp at this
        constructor
        · rw [H.log]; simp [hlog]
        · have hcons : nodesOf (.ask m :: lg) = nodesOf lg := by simp [nodesOf]
          rw [nodesOf_append, hnE, hcons, H.noNode]; rfl
        · refine H.todo.trans ?_
          refine ((List.Perm.append_left add (hp m te.todo)).trans ?_)
          rw [htodo]
          exact List.perm_middle
        · exact List.nodup_cons.2 ⟨hma, H.nodup⟩
        · intro x hx
          rcases List.mem_cons.1 hx with rfl | hx
          · exact ⟨hm', hs, by simp, es, by simp⟩
          · have := H.addOk x hx
            have hxm : x ≠ m := fun h => hma (h ▸ hx)
            obtain ⟨h1, h2, h3, es', h4⟩ := this
            simp only [Function.update_of_ne hxm, hv] at h1
            exact ⟨h1, h2, by simp [h3], es', by simp [h4]⟩
        · intro x; rw [H.vis]
          by_cases hxm : x = m
          · subst hxm; simp
          · simp [Function.update_of_ne hxm, hxm, hv]
        · intro x es' h
          rcases List.mem_cons.1 h with h | h
          · cases h
            left; rw [H.vis]; left; simp
          · rcases H.all x es' h with h | h
            · exact Or.inl h
            · exact Or.inr ⟨h.1, by simp [h.2]⟩
        · intro x hx
          rcases List.mem_append.1 hx with hx | hx
          · exact absurd hx (haE x)
          · rcases List.mem_cons.1 hx with hx | hx
            · cases hx; exact ⟨hm', es, by simp⟩
            · obtain ⟨h1, es', h⟩ := H.ask x hx
              by_cases hxm : x = m
              · subst hxm; simp at h1
              · simp only [Function.update_of_ne hxm, hv] at h1
                exact ⟨h1, es', by simp [h]⟩
        · rw [edgesIn_append, List.nodup_append]
          have he : edgesIn (.ask m :: lg) = edgesIn lg := by simp [edgesIn]
          rw [he]
          refine ⟨hE3, H.edgesNodup, ?_⟩
          rintro a ha b hb rfl
          rw [mem_edgesIn] at ha hb
          rw [hE4] at ha
          rw [H.edges] at hb
          have := (hE5 a).2 (Or.inr ha.2)
          simp [this] at hb
        · intro e
          have h5 := hE5 e
          have : Ev.edge e ∈ lgE ++ .ask m :: lg ↔ Ev.edge e ∈ lgE ∨ Ev.edge e ∈ lg := by simp
          rw [this, hE4, H.edges]
          simp only
          constructor
          · rintro (h | ⟨h1, m', es', h2, h3⟩)
            · exact ⟨h.1, m, es, by simp, h.2⟩
            · refine ⟨?_, m', es', by simp [h2], h3⟩
              by_contra hc
              have := h5.2 (Or.inl (by simpa using hc))
              simp [this] at h1
          · rintro ⟨h1, m', es', h2, h3⟩
            by_cases hes : e ∈ es
            · exact Or.inl ⟨h1, hes⟩
            · right
              refine ⟨?_, m', es', ?_, h3⟩
              · by_contra hc
                have := h5.1 (by simpa using hc)
                simp [h1, hes] at this
              · rcases List.mem_cons.1 h2 with h | h
                · cases h; exact absurd h3 hes
                · exact h
        · intro e
          rw [H.visE]
          simp only
          rw [hE5]
          constructor
          · rintro ((h | h) | ⟨m', es', h2, h3⟩)
            · exact Or.inl h
            · exact Or.inr ⟨m, es, by simp, h⟩
            · exact Or.inr ⟨m', es', by simp [h2], h3⟩
          · rintro (h | ⟨m', es', h2, h3⟩)
            · exact Or.inl (Or.inl h)
            · rcases List.mem_cons.1 h2 with h | h
              · cases h; exact Or.inl (Or.inr h3)
              · exact Or.inr ⟨m', es', h, h3⟩
      · simp only [hs, Bool.false_eq_true, if_false] at H ⊢
        refine ⟨lgE ++ .ask m :: lg, add, ?_⟩
        constructor
        · rw [H.log]; simp [hlog]
        · have hcons : nodesOf (.ask m :: lg) = nodesOf lg := by simp [nodesOf]
          rw [nodesOf_append, hnE, hcons, H.noNode]; rfl
        · rw [← htodo]; exact H.todo
        · exact H.nodup
        · intro x hx
          obtain ⟨h1, h2, h3, es', h4⟩ := H.addOk x hx
          simp only [hv] at h1
          exact ⟨h1, h2, by simp [h3], es', by simp [h4]⟩
        · intro x; rw [H.vis]; simp [hv]
        · intro x es' h
          rcases List.mem_cons.1 h with h | h
          · cases h
            right; exact ⟨by simpa using hs, by simp⟩
          · rcases H.all x es' h with h | h
            · exact Or.inl h
            · exact Or.inr ⟨h.1, by simp [h.2]⟩
        · intro x hx
          rcases List.mem_append.1 hx with hx | hx
          · exact absurd hx (haE x)
          · rcases List.mem_cons.1 hx with hx | hx
            · cases hx; exact ⟨hm', es, by simp⟩
            · obtain ⟨h1, es', h⟩ := H.ask x hx
              simp only [hv] at h1
              exact ⟨h1, es', by simp [h]⟩
        · rw [edgesIn_append, List.nodup_append]
          have he : edgesIn (.ask m :: lg) = edgesIn lg := by simp [edgesIn]
          rw [he]
          refine ⟨hE3, H.edgesNodup, ?_⟩
          rintro a ha b hb rfl
          rw [mem_edgesIn] at ha hb
          rw [hE4] at ha
          rw [H.edges] at hb
          have := (hE5 a).2 (Or.inr ha.2)
          simp [this] at hb
        · intro e
          have h5 := hE5 e
          have : Ev.edge e ∈ lgE ++ .ask m :: lg ↔ Ev.edge e ∈ lgE ∨ Ev.edge e ∈ lg := by simp
          rw [this, hE4, H.edges]
          simp only
          constructor
          · rintro (h | ⟨h1, m', es', h2, h3⟩)
            · exact ⟨h.1, m, es, by simp, h.2⟩
            · refine ⟨?_, m', es', by simp [h2], h3⟩
              by_contra hc
              have := h5.2 (Or.inl (by simpa using hc))
              simp [this] at h1
          · rintro ⟨h1, m', es', h2, h3⟩
            by_cases hes : e ∈ es
            · exact Or.inl ⟨h1, hes⟩
            · right
              refine ⟨?_, m', es', ?_, h3⟩
              · by_contra hc
                have := h5.1 (by simpa using hc)
                simp [h1, hes] at this
              · rcases List.mem_cons.1 h2 with h | h
                · cases h; exact absurd h3 hes
                · exact h
        · intro e
          rw [H.visE]
          simp only
          rw [hE5]
          constructor
          · rintro ((h | h) | ⟨m', es', h2, h3⟩)
            · exact Or.inl h
            · exact Or.inr ⟨m, es, by simp, h⟩
            · exact Or.inr ⟨m', es', by simp [h2], h3⟩
          · rintro (h | ⟨m', es', h2, h3⟩)
            · exact Or.inl (Or.inl h)
            · rcases List.mem_cons.1 h2 with h | h
              · cases h; exact Or.inl (Or.inr h3)
              · exact Or.inr ⟨m', es', h, h3⟩

/-- One step of a path: from a connecting node to a neighbour that should be visited. -/
def PStep (p q : Nat) : Prop := conn p = true ∧ Adj adj p q ∧ should q = true

/-- State of a traversal started at `r`. -/
structure TI (vis0 visE0 : Nat → Bool) (r : Nat) (t : TS) : Prop where
  vis : ∀ m, t.vis m = true ↔ vis0 m = true ∨ m ∈ t.todo ∨ m ∈ nodesOf t.log
  nodup : (nodesOf t.log ++ t.todo).Nodup
  fresh : ∀ m ∈ nodesOf t.log ++ t.todo, vis0 m = false
  path : ∀ m ∈ nodesOf t.log ++ t.todo, Relation.ReflTransGen (PStep adj conn should) r m
  asked : ∀ m ∈ nodesOf t.log ++ t.todo, m = r ∨ (should m = true ∧ Ev.ask m ∈ t.log)
  closed : ∀ n ∈ nodesOf t.log, conn n = true → ∀ m, Adj adj n m →
    t.vis m = true ∨ (should m = false ∧ Ev.ask m ∈ t.log)
  ask : ∀ m, Ev.ask m ∈ t.log → vis0 m = false ∧ ∃ n ∈ nodesOf t.log, conn n = true ∧ Adj adj n m
  edge : ∀ e, Ev.edge e ∈ t.log ↔ visE0 e = false ∧ ∃ n ∈ nodesOf t.log, conn n = true ∧ Inc adj n e
  visE : ∀ e, t.visE e = true ↔ visE0 e = true ∨ Ev.edge e ∈ t.log
  edgesNodup : (edgesIn t.log).Nodup
  start : r ∈ nodesOf t.log ++ t.todo

variable {adj conn should}

theorem TI.step_conn {vis0 visE0 : Nat → Bool} {r n : Nat} {rest : List Nat} {t : TS}
    {push : Nat → List Nat → List Nat} (hp : PushOk push)
    (H : TI adj conn should vis0 visE0 r t) (ht : t.todo = n :: rest) (hc : conn n = true) :
    TI adj conn should vis0 visE0 r (scanAdj should push (adj n) { t with
      vis := Function.update t.vis n true, todo := rest, log := t.log ++ [.node n] }) := by
  obtain ⟨lg, add, S⟩ := scanAdj_spec should hp (adj n) { t with
      vis := Function.update t.vis n true, todo := rest, log := t.log ++ [.node n] }
  generalize scanAdj should push (adj n) { t with
      vis := Function.update t.vis n true, todo := rest, log := t.log ++ [.node n] } = t' at *
  have hn1 : nodesOf t'.log = nodesOf t.log ++ [n] := by
    rw [S.log]; simp only [nodesOf_append, S.noNode]; simp [nodesOf]
  have hvn : t.vis n = true := (H.vis n).2 (Or.inr (Or.inl (by simp [ht])))
  have hu : Function.update t.vis n true = t.vis := by
    funext x; by_cases hx : x = n
    · subst hx; simp [hvn]
    · simp [Function.update_of_ne hx]
  have hvis := S.vis
  have haddOk := S.addOk
  have hall := S.all
  have hask := S.ask
  simp only [hu] at hvis haddOk hask
  have hperm : (nodesOf t'.log ++ t'.todo).Perm (add ++ (nodesOf t.log ++ t.todo)) := by
    rw [hn1, ht]
    refine (List.Perm.append_left _ S.todo).trans ?_
    simp only
    rw [List.perm_iff_count]; intro a; simp only [List.count_append, List.count_cons]
    simp; omega
  have hnin : n ∈ nodesOf t'.log := by simp [hn1]
  have hmem : ∀ m, m ∈ nodesOf t'.log ++ t'.todo ↔ m ∈ add ∨ m ∈ nodesOf t.log ++ t.todo := by
    intro m; rw [hperm.mem_iff, List.mem_append]
  have hnew : ∀ m ∈ add, vis0 m = false ∧ m ∉ nodesOf t.log ++ t.todo := by
    intro m hm
    have := (haddOk m hm).1
    have h2 : ¬ (vis0 m = true ∨ m ∈ t.todo ∨ m ∈ nodesOf t.log) := by
      rw [← H.vis]; simp [this]
    simp only [List.mem_append]
    refine ⟨by simpa using fun h => h2 (Or.inl h), ?_⟩
    rintro (h | h)
    · exact h2 (Or.inr (Or.inr h))
    · exact h2 (Or.inr (Or.inl h))
  have hlogin : ∀ ev, ev ∈ t.log → ev ∈ t'.log := by
    intro ev h; rw [S.log]; simp [h]
  have hlgin : ∀ ev, ev ∈ lg → ev ∈ t'.log := by
    intro ev h; rw [S.log]; simp [h]
  have hadj : ∀ m, Adj adj n m ↔ ∃ es, (m, es) ∈ adj n := fun m => Iff.rfl
  constructor
  · intro m
    rw [hvis, H.vis]
    have := hmem m
    simp only [List.mem_append] at this
    constructor
    · rintro ((h | h | h) | h)
      · exact Or.inl h
      · have := this.2 (Or.inr (Or.inr h)); tauto
      · have := this.2 (Or.inr (Or.inl h)); tauto
      · have := this.2 (Or.inl h); tauto
    · rintro (h | h | h)
      · exact Or.inl (Or.inl h)
      · have := this.1 (Or.inr h); tauto
      · have := this.1 (Or.inl h); tauto
  · rw [hperm.nodup_iff, List.nodup_append]
    refine ⟨S.nodup, H.nodup, ?_⟩
    rintro a ha b hb rfl
    exact (hnew a ha).2 hb
  · intro m hm
    rcases (hmem m).1 hm with h | h
    · exact (hnew m h).1
    · exact H.fresh m h
  · intro m hm
    rcases (hmem m).1 hm with h | h
    · refine (H.path n (by simp [ht])).tail ?_
      exact ⟨hc, (haddOk m h).2.2.2, (haddOk m h).2.1⟩
    · exact H.path m h
  · intro m hm
    rcases (hmem m).1 hm with h | h
    · exact Or.inr ⟨(haddOk m h).2.1, hlgin _ (haddOk m h).2.2.1⟩
    · rcases H.asked m h with h | h
      · exact Or.inl h
      · exact Or.inr ⟨h.1, hlogin _ h.2⟩
  · intro x hx hcx m hxm
    rw [hn1, List.mem_append, List.mem_singleton] at hx
    rcases hx with hx | rfl
    · rcases H.closed x hx hcx m hxm with h | h
      · left; rw [hvis]; exact Or.inl h
      · exact Or.inr ⟨h.1, hlogin _ h.2⟩
    · obtain ⟨es, hes⟩ := hxm
      rcases hall m es hes with h | h
      · exact Or.inl h
      · exact Or.inr ⟨h.1, hlgin _ h.2⟩
  · intro m hm
    rw [S.log] at hm
    simp only [List.mem_append, List.mem_singleton, reduceCtorEq, or_false] at hm
    rcases hm with hm | hm
    · obtain ⟨h1, x, hx, h2⟩ := H.ask m hm
      exact ⟨h1, x, by rw [hn1]; simp [hx], h2⟩
    · obtain ⟨h1, h2⟩ := hask m hm
      refine ⟨?_, n, hnin, hc, h2⟩
      by_contra hcon
      have := (H.vis m).2 (Or.inl (by simpa using hcon))
      simp [this] at h1
  · intro e
    have hl : Ev.edge e ∈ t'.log ↔ Ev.edge e ∈ t.log ∨ Ev.edge e ∈ lg := by
      rw [S.log]; simp
    rw [hl, H.edge, S.edges]
    simp only
    constructor
    · rintro (⟨h1, x, hx, h2⟩ | ⟨h1, h2⟩)
      · exact ⟨h1, x, by rw [hn1]; simp [hx], h2⟩
      · refine ⟨?_, n, hnin, hc, h2⟩
        by_contra hcon
        have := (H.visE e).2 (Or.inl (by simpa using hcon))
        simp [this] at h1
    · rintro ⟨h1, x, hx, hcx, h2⟩
      rw [hn1, List.mem_append, List.mem_singleton] at hx
      rcases hx with hx | rfl
      · exact Or.inl ⟨h1, x, hx, hcx, h2⟩
      · cases hve : t.visE e with
        | true =>
          left
          rcases (H.visE e).1 hve with h | h
          · simp [h] at h1
          · exact (H.edge e).1 h
        | false => exact Or.inr ⟨rfl, h2⟩
  · intro e
    rw [S.visE, S.log]
    simp only [List.mem_append, List.mem_singleton, reduceCtorEq, or_false]
    rw [H.visE, S.edges]
    simp only
    constructor
    · rintro ((h | h) | h)
      · exact Or.inl h
      · exact Or.inr (Or.inl h)
      · cases hve : t.visE e with
        | true =>
          rcases (H.visE e).1 hve with h' | h'
          · exact Or.inl h'
          · exact Or.inr (Or.inl h')
        | false => exact Or.inr (Or.inr ⟨rfl, h⟩)
    · rintro (h | h | h)
      · exact Or.inl (Or.inl h)
      · exact Or.inl (Or.inr h)
      · exact Or.inr h.2
  · rw [S.log]
    simp only [edgesIn_append]
    have : edgesIn [Ev.node n] = [] := by simp [edgesIn]
    rw [this, List.append_nil, List.nodup_append]
    refine ⟨H.edgesNodup, S.edgesNodup, ?_⟩
    rintro a ha b hb rfl
    rw [mem_edgesIn] at ha hb
    have h1 := (H.visE a).2 (Or.inr ha)
    have h2 := ((S.edges a).1 hb).1
    simp [h1] at h2
  · rw [hmem]; exact Or.inr H.start

theorem TI.step_end {vis0 visE0 : Nat → Bool} {r n : Nat} {rest : List Nat} {t : TS}
    (H : TI adj conn should vis0 visE0 r t) (ht : t.todo = n :: rest) (hc : conn n = false) :
    TI adj conn should vis0 visE0 r { t with
      vis := Function.update t.vis n true, todo := rest, log := t.log ++ [.node n] } := by
  have hn1 : nodesOf (t.log ++ [.node n]) = nodesOf t.log ++ [n] := by
    simp only [nodesOf_append]; simp [nodesOf]
  have hvn : t.vis n = true := (H.vis n).2 (Or.inr (Or.inl (by simp [ht])))
  have hu : Function.update t.vis n true = t.vis := by
    funext x; by_cases hx : x = n
    · subst hx; simp [hvn]
    · simp [Function.update_of_ne hx]
  have hl : nodesOf t.log ++ [n] ++ rest = nodesOf t.log ++ t.todo := by simp [ht]
  constructor
  · intro m; simp only [hu, hn1, H.vis, ht, List.mem_cons, List.mem_append, List.mem_singleton]; tauto
  · simpa only [hn1, hl] using H.nodup
  · simpa only [hn1, hl] using H.fresh
  · simpa only [hn1, hl] using H.path
  · simp only [hn1, hl]
    intro m hm
    rcases H.asked m hm with h | h
    · exact Or.inl h
    · exact Or.inr ⟨h.1, by simp [h.2]⟩
  · simp only [hn1, hu]
    intro x hx hcx m hxm
    rw [List.mem_append, List.mem_singleton] at hx
    rcases hx with hx | rfl
    · rcases H.closed x hx hcx m hxm with h | h
      · exact Or.inl h
      · exact Or.inr ⟨h.1, by simp [h.2]⟩
    · simp [hc] at hcx
  · intro m hm
    simp only [List.mem_append, List.mem_singleton, reduceCtorEq, or_false] at hm
    obtain ⟨h1, x, hx, h2⟩ := H.ask m hm
    exact ⟨h1, x, by simp only [hn1]; simp [hx], h2⟩
  · intro e
    simp only [List.mem_append, List.mem_singleton, reduceCtorEq, or_false, hn1]
    rw [H.edge]
    constructor
    · rintro ⟨h1, x, hx, h2⟩; exact ⟨h1, x, Or.inl hx, h2⟩
    · rintro ⟨h1, x, hx | rfl, h2⟩
      · exact ⟨h1, x, hx, h2⟩
      · simp [hc] at h2
  · intro e
    simp only [List.mem_append, List.mem_singleton, reduceCtorEq, or_false]
    exact H.visE e
  · have : edgesIn (t.log ++ [Ev.node n]) = edgesIn t.log := by
      simp only [edgesIn_append]; simp [edgesIn]
    simpa only [this] using H.edgesNodup
  · simpa only [hn1, hl] using H.start

/-- Fuel: the nodes to visit and those not visited yet. -/
theorem loop_spec {U : Finset Nat} {vis0 visE0 : Nat → Bool} {r : Nat}
    {push : Nat → List Nat → List Nat} (hp : PushOk push)
    (hU : ∀ n m, Adj adj n m → m ∈ U) (fuel : Nat) (t : TS)
    (H : TI adj conn should vis0 visE0 r t)
    (hf : t.todo.length + (U.filter fun m => t.vis m = false).card ≤ fuel) :
    ∃ t', loop adj conn should push fuel t = some t' ∧ t'.todo = [] ∧
      TI adj conn should vis0 visE0 r t' := by
  induction fuel generalizing t with
  | zero =>
    have : t.todo = [] := by
      have : t.todo.length = 0 := by omega
      simpa using this
    exact ⟨t, by simp [loop, this], this, H⟩
  | succ fuel ih =>
    cases ht : t.todo with
    | nil => exact ⟨t, by simp [loop, ht], ht, H⟩
    | cons n rest =>
      have hvn : t.vis n = true := (H.vis n).2 (Or.inr (Or.inl (by simp [ht])))
      have hu : Function.update t.vis n true = t.vis := by
        funext x; by_cases hx : x = n
        · subst hx; simp [hvn]
        · simp [Function.update_of_ne hx]
      rw [loop.eq_def]
      simp only [ht]
      rw [ht] at hf
      simp only [List.length_cons] at hf
      cases hc : conn n with
      | true =>
        simp only [if_true]
        obtain ⟨lg, add, S⟩ := scanAdj_spec should hp (adj n) { t with
          vis := Function.update t.vis n true, todo := rest, log := t.log ++ [.node n] }
        refine ih _ (H.step_conn hp ht hc) ?_
        generalize scanAdj should push (adj n) { t with
          vis := Function.update t.vis n true, todo := rest, log := t.log ++ [.node n] } = t' at *
        have hlen := S.todo.length_eq
        simp only [List.length_append] at hlen
        have haddOk := S.addOk
        have hvis := S.vis
        simp only [hu] at haddOk hvis
        have hcard : (U.filter fun m => t'.vis m = false).card + add.length ≤
            (U.filter fun m => t.vis m = false).card := by
          have hd : Disjoint (U.filter fun m => t'.vis m = false) add.toFinset := by
            rw [Finset.disjoint_left]
            intro a ha hb
            simp only [Finset.mem_filter, List.mem_toFinset] at ha hb
            have := (hvis a).2 (Or.inr hb)
            simp [this] at ha
          rw [← List.toFinset_card_of_nodup S.nodup, ← Finset.card_union_of_disjoint hd]
          apply Finset.card_le_card
          intro a ha
          simp only [Finset.mem_union, Finset.mem_filter, List.mem_toFinset] at ha ⊢
          rcases ha with ha | ha
          · refine ⟨ha.1, ?_⟩
            by_contra hcon
            have := (hvis a).2 (Or.inl (by simpa using hcon))
            simp [this] at ha
          · obtain ⟨h1, _, _, h4⟩ := haddOk a ha
            exact ⟨hU n a h4, h1⟩
        omega
      | false =>
        simp only [Bool.false_eq_true, if_false]
        refine ih _ (H.step_end ht hc) ?_
        simp only [hu]
        omega

/-- The result of a traversal from `r`: the calls made and what has been visited. -/
structure Visited (adj : Nat → List (Nat × List Nat)) (conn should : Nat → Bool)
    (vis0 visE0 : Nat → Bool) (r : Nat) (t : TS) : Prop where
  vis : ∀ m, t.vis m = true ↔ vis0 m = true ∨ m ∈ nodesOf t.log
  nodup : (nodesOf t.log).Nodup
  start : r ∈ nodesOf t.log
  fresh : ∀ m ∈ nodesOf t.log, vis0 m = false
  path : ∀ m ∈ nodesOf t.log, Relation.ReflTransGen (PStep adj conn should) r m
  asked : ∀ m ∈ nodesOf t.log, m = r ∨ (should m = true ∧ Ev.ask m ∈ t.log)
  closed : ∀ n ∈ nodesOf t.log, conn n = true → ∀ m, Adj adj n m →
    vis0 m = true ∨ m ∈ nodesOf t.log ∨ (should m = false ∧ Ev.ask m ∈ t.log)
  ask : ∀ m, Ev.ask m ∈ t.log → vis0 m = false ∧ ∃ n ∈ nodesOf t.log, conn n = true ∧ Adj adj n m
  edge : ∀ e, Ev.edge e ∈ t.log ↔ visE0 e = false ∧ ∃ n ∈ nodesOf t.log, conn n = true ∧ Inc adj n e
  visE : ∀ e, t.visE e = true ↔ visE0 e = true ∨ Ev.edge e ∈ t.log
  edgesNodup : (edgesIn t.log).Nodup

theorem loop_visited {U : List Nat} {vis0 visE0 : Nat → Bool} {r : Nat}
    {push : Nat → List Nat → List Nat} (hp : PushOk push)
    (hU : ∀ n m, Adj adj n m → m ∈ U) (hr : vis0 r = false) :
    ∃ t, loop adj conn should push (U.length + 1) ⟨vis0, visE0, [r], []⟩ = some t ∧
      Visited adj conn should vis0 visE0 r t := by
  have h0 : loop adj conn should push (U.length + 1) ⟨vis0, visE0, [r], []⟩ =
      loop adj conn should push (U.length + 1) ⟨Function.update vis0 r true, visE0, [r], []⟩ := by
    conv_lhs => rw [loop.eq_def]
    conv_rhs => rw [loop.eq_def]
    simp only [Function.update_idem]
  have H0 : TI adj conn should vis0 visE0 r ⟨Function.update vis0 r true, visE0, [r], []⟩ := by
    constructor
    · intro m
      by_cases hm : m = r
      · subst hm; simp
      · simp [Function.update_of_ne hm, hm, nodesOf]
    all_goals simp [nodesOf, edgesIn, hr, Relation.ReflTransGen.refl]
  have hf : ([r] : List Nat).length +
      (U.toFinset.filter fun m => Function.update vis0 r true m = false).card ≤ U.length + 1 := by
    have h1 : (U.toFinset.filter fun m => Function.update vis0 r true m = false).card ≤
        U.toFinset.card := Finset.card_filter_le _ _
    have h2 := List.toFinset_card_le U
    simp only [List.length_singleton]
    omega
  obtain ⟨t, ht, htodo, H⟩ := loop_spec (U := U.toFinset) hp
    (fun n m h => List.mem_toFinset.2 (hU n m h)) (U.length + 1) _ H0 hf
  refine ⟨t, h0.trans ht, ?_⟩
  have hl : nodesOf t.log ++ t.todo = nodesOf t.log := by simp [htodo]
  have hv := H.vis
  rw [htodo] at hv
  constructor
  · intro m; rw [hv]; simp
  · have := H.nodup; rwa [hl] at this
  · have := H.start; rwa [hl] at this
  · have := H.fresh; rwa [hl] at this
  · have := H.path; rwa [hl] at this
  · have := H.asked; rwa [hl] at this
  · intro n hn hc m hm
    rcases H.closed n hn hc m hm with h | h
    · rw [hv] at h; simp at h; tauto
    · exact Or.inr (Or.inr h)
  · exact H.ask
  · exact H.edge
  · exact H.visE
  · exact H.edgesNodup

end Edyn.Islands
