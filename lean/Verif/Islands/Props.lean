import Mathlib.Algebra.Order.Group.Int
import Verif.Islands.Hist

/-!
# Islands: the properties

C10 (every body that moves is in exactly one island), C11 (islands are split when they come apart),
C12 (sleeping), C54 (islands are the connected components).
-/

namespace Edyn.Islands

variable {T : Type}

/-! ### Specification -/

/-- Body `n` is a member of island `i`. -/
def Member (w : W T) (n i : Nat) : Prop := ∃ I, w.isl i = some I ∧ n ∈ I.nodes

/-- Constraint or contact `e` is a member of island `i`. -/
def EdgeMember (w : W T) (e i : Nat) : Prop := ∃ I, w.isl i = some I ∧ e ∈ I.edges

/-- The bodies can be reached from one another through edges between procedural bodies. -/
def Connected (w : W T) : Nat → Nat → Prop :=
  Relation.ReflTransGen fun p q => w.proc p = true ∧ w.proc q = true ∧
    ∃ x ∈ w.edges, (x.a = p ∧ x.b = q) ∨ (x.a = q ∧ x.b = p)

/-- Membership is as it should be. -/
structure WellPlaced (w : W T) : Prop where
  /-- a procedural body is in exactly one island -/
  body : ∀ n ∈ w.nodes, w.proc n = true → ∃! i, Member w n i
  /-- and refers to it -/
  bodyRef : ∀ n ∈ w.nodes, w.proc n = true → ∀ i, w.nres n = some i ↔ Member w n i
  /-- an edge is in at most one island, and refers to it -/
  edgeRef : ∀ x ∈ w.edges, ∀ i, w.eres x.id = some i ↔ EdgeMember w x.id i
  /-- it is in the islands of its procedural bodies -/
  edge : ∀ x ∈ w.edges, ∀ n, (x.a = n ∨ x.b = n) → w.proc n = true → ∀ i, Member w n i →
    EdgeMember w x.id i
  /-- with both of its bodies -/
  ends : ∀ x ∈ w.edges, ∀ i, EdgeMember w x.id i → Member w x.a i ∧ Member w x.b i
  /-- two procedural bodies joined by an edge are in the same island -/
  joined : ∀ x ∈ w.edges, w.proc x.a = true → w.proc x.b = true → ∀ i,
    Member w x.a i ↔ Member w x.b i
  /-- an island lists existing bodies and edges, each once -/
  real : ∀ i I, w.isl i = some I → I.nodes.Nodup ∧ I.edges.Nodup ∧ (∀ n ∈ I.nodes, n ∈ w.nodes) ∧
    ∀ e ∈ I.edges, ∃ x ∈ w.edges, x.id = e

theorem wellPlaced {w : W T} (C : Core w) (S : Settled w) : WellPlaced w := by
  have href : ∀ n ∈ w.nodes, w.proc n = true → ∀ i, w.nres n = some i ↔ Member w n i := by
    intro n hn hp i
    constructor
    · intro h
      obtain ⟨_, _, I, hI, hm⟩ := C.nIn n i h
      exact ⟨I, hI, hm⟩
    · rintro ⟨I, hI, hm⟩
      exact C.nOut i I n hI hm hp
  have eref : ∀ x ∈ w.edges, ∀ i, w.eres x.id = some i ↔ EdgeMember w x.id i := by
    intro x hx i
    constructor
    · intro h
      obtain ⟨_, I, hI, hm⟩ := C.eIn x.id i h
      exact ⟨I, hI, hm⟩
    · rintro ⟨I, hI, hm⟩
      exact C.eOut i I _ hI hm
  have hends : ∀ x ∈ w.edges, ∀ i, EdgeMember w x.id i → Member w x.a i ∧ Member w x.b i := by
    rintro x hx i ⟨I, hI, he⟩
    have := C.ends x hx i I (C.eOut i I _ hI he) hI
    exact ⟨⟨I, hI, this.1⟩, ⟨I, hI, this.2⟩⟩
  have hedge : ∀ x ∈ w.edges, ∀ n, (x.a = n ∨ x.b = n) → w.proc n = true → ∀ i, Member w n i →
      EdgeMember w x.id i := by
    rintro x hx n hn hp i ⟨I, hI, hm⟩
    exact (eref x hx i).1 (C.edge_of S hx hn hp (C.nOut i I n hI hm hp))
  refine ⟨?_, href, eref, hedge, hends, ?_, ?_⟩
  · intro n hn hp
    obtain ⟨i, hi⟩ := Option.ne_none_iff_exists'.1 (fun h => S n hn hp (Or.inl h))
    refine ⟨i, (href n hn hp i).1 hi, ?_⟩
    intro j hj
    have := (href n hn hp j).2 hj
    rw [hi] at this; simp at this; exact this.symm
  · intro x hx ha hb i
    exact ⟨fun h => (hends x hx i (hedge x hx _ (Or.inl rfl) ha i h)).2,
      fun h => (hends x hx i (hedge x hx _ (Or.inr rfl) hb i h)).1⟩
  · intro i I hI
    refine ⟨(C.nd i I hI).1, (C.nd i I hI).2, fun n hn => C.nNode i I n hI hn, fun e he => ?_⟩
    exact (C.eIn e i (C.eOut i I e hI he)).1

variable [AddCommGroup T] [LinearOrder T]

/-! ### C10 -/

/-- C10 in full: after every update, whatever has been created, destroyed and changed. -/
def C10FullStatement : Prop := ∀ (env : Env ℤ) (t₀ : ℤ) (ops : List (Op ℤ)) (time : ℤ)
  (fast : Nat → Bool) (w : W ℤ),
  run env (start t₀) (ops ++ [.update time fast]) = some w → WellPlaced w

/-- **C10**, for histories in which no body changes its kind: after every update each procedural body
is in exactly one island, references and member lists agree, edges are in the island of their
procedural bodies, and procedural bodies joined by an edge are in the same island. -/
theorem bodies_live_in_one_island_partial (env : Env T) (t₀ : T) (ops : List (Op T)) (time : T)
    (fast : Nat → Bool) (w : W T) (hk : ∀ n p, .setProcedural n p ∉ ops)
    (h : run env (start t₀) (ops ++ [.update time fast]) = some w) : WellPlaced w := by
  obtain ⟨w1, h1, h2⟩ := run_snoc env h
  have U := update_ok env (run_inv env ops _ _ (start_inv t₀) hk h1) h2
  exact wellPlaced U.inv.core U.settled

omit [AddCommGroup T] [LinearOrder T] in
theorem clean_step_aux {w w' : W T} (hcl : Clean w) (hE : ∀ e ∈ w'.newEdges, e ∈ w.newEdges)
    (hX : ∀ x ∈ w.edges, x.id ∈ w'.newEdges → x ∈ w'.edges) : Clean w' := by
  intro e he
  obtain ⟨x, hx, rfl⟩ := hcl e (hE e he)
  exact ⟨x, hX x hx he, rfl⟩

theorem step_clean (env : Env T) {w w' : W T} {op : Op T} (H : Inv w) (hcl : Clean w)
    (h : step env w op = some w') (hop : ∀ n p, op ≠ .setProcedural n p)
    (hop2 : ∀ e, op ≠ .removeEdge e false) : Clean w' := by
  cases op with
  | addNode n p s =>
    simp only [step, addNode] at h
    split at h
    · cases h
    · cases h; exact hcl
  | addEdge e a b =>
    simp only [step, addEdge] at h
    split at h
    · cases h
      intro e' he'
      simp only [List.mem_append, List.mem_singleton] at he'
      rcases he' with he' | rfl
      · obtain ⟨x, hx, rfl⟩ := hcl e' he'
        exact ⟨x, by simp [hx], rfl⟩
      · exact ⟨⟨e', a, b⟩, by simp, rfl⟩
    · cases h
  | removeEdge e d =>
    cases d with
    | false => exact absurd rfl (hop2 e)
    | true =>
      simp only [step] at h
      have hx : ∃ x ∈ w.edges, x.id = e := by
        unfold removeEdge at h
        split at h
        · rename_i hc; simpa using hc
        · cases h
      obtain ⟨x, hx, hxe⟩ := hx
      obtain ⟨w1, a1, a2, a3, a4, a5, a6, a7, a8, a9, a10, a11, a12, a13, a14, a15, a16, a17, a18, a19,
        a20⟩ := removeEdge_spec w H e true x hx hxe
      rw [h] at a1; cases a1
      apply clean_step_aux hcl
      · intro y hy; rw [a20] at hy; simp at hy; exact hy.1
      · intro y hy hn
        rw [a20] at hn; simp at hn
        rw [a5]; simp [hy, hn.2]
  | removeNode n =>
    simp only [step] at h
    by_cases hn : n ∈ w.nodes
    · obtain ⟨_, _, _, _, _, b, _⟩ := (removeNode_spec w H n hn).1 w' h
      apply clean_step_aux hcl
      · exact fun e he => (b e he).1
      · exact fun x hx he => (b _ he).2 x hx rfl
    · unfold removeNode at h; rw [if_neg hn] at h; cases h
  | setProcedural n p => exact absurd rfl (hop n p)
  | wakeUp i =>
    simp only [step] at h
    cases hi : w.isl i with
    | none => rw [hi] at h; simp at h
    | some I =>
      rw [hi] at h; simp only [Option.isSome_some, if_true] at h
      obtain ⟨w1, h1, C1, E1, _⟩ := wakeUp_spec w H.core i I hi
      rw [h] at h1; cases h1
      unfold Clean; rw [E1.newEdges, E1.edges]; exact hcl
  | sleepNow =>
    simp only [step] at h
    obtain ⟨w1, h1, C1, E1, _⟩ := sleepNow_spec w H.core
    rw [h] at h1; cases h1
    unfold Clean; rw [E1.newEdges, E1.edges]; exact hcl
  | update t f =>
    have U := update_ok env H h
    unfold Clean; rw [U.newEdges]; simp

theorem run_clean (env : Env T) (ops : List (Op T)) : ∀ (w w' : W T), Inv w → Clean w →
    FixedKinds ops → (∀ e, .removeEdge e false ∉ ops) → run env w ops = some w' → Clean w' := by
  induction ops with
  | nil => intro w w' _ hc _ _ h; simp [run] at h; subst h; exact hc
  | cons op ops ih =>
    intro w w' H hc hf hr h
    simp only [run] at h
    cases h1 : step env w op with
    | none => rw [h1] at h; cases h
    | some w1 =>
      rw [h1] at h; simp only at h
      exact ih w1 w' (step_inv env H h1 fun n p hc => hf n p (by simp [hc]))
        (step_clean env H hc h1 (fun n p hc => hf n p (by simp [hc])) fun e hc => hr e (by simp [hc]))
        (fun n p hc => hf n p (by simp [hc])) (fun e hc => hr e (by simp [hc])) h

/-- Updates never fail an assertion or touch something that does not exist, in histories in which no
body changes its kind and no constraint is cleared without its entity being destroyed. -/
theorem update_is_defined_partial (env : Env T) (t₀ : T) (ops : List (Op T)) (w : W T)
    (hk : ∀ n p, .setProcedural n p ∉ ops) (hr : ∀ e, .removeEdge e false ∉ ops)
    (h : run env (start t₀) ops = some w) (time : T) (fast : Nat → Bool) :
    ∃ w', update env time fast w = some w' := by
  have hc := run_clean env ops _ _ (start_inv t₀) (by unfold Clean; simp [start]) hk hr h
  obtain ⟨w', h', _⟩ := update_spec env time fast w (run_inv env ops _ _ (start_inv t₀) hk h) hc
  exact ⟨w', h'⟩

/-- Destroying a constraint, a contact or a procedural body never fails. -/
theorem destruction_is_defined (env : Env T) (t₀ : T) (ops : List (Op T)) (w : W T)
    (hk : ∀ n p, .setProcedural n p ∉ ops) (h : run env (start t₀) ops = some w) :
    (∀ x ∈ w.edges, ∃ w', removeEdge w x.id true = some w') ∧
    (∀ n ∈ w.nodes, w.proc n = true → ∃ w', removeNode w n = some w') := by
  have H := run_inv env ops _ _ (start_inv t₀) hk h
  refine ⟨fun x hx => ?_, fun n hn hp => (removeNode_spec w H n hn).2 hp⟩
  obtain ⟨w', h', _⟩ := removeEdge_spec w H x.id true x hx rfl
  exact ⟨w', h'⟩

/-! ### C11 -/

/-- Flags stay until the next update. -/
theorem step_split_mono (env : Env T) {w w' : W T} {op : Op T} (H : Inv w)
    (h : step env w op = some w') (hop : ∀ n p, op ≠ .setProcedural n p)
    (hu : ∀ t f, op ≠ .update t f) :
    (∀ i ∈ w.toSplit, i ∈ w'.toSplit) ∧ (∀ i ∈ w.toWake, i ∈ w'.toWake) := by
  cases op with
  | addNode n p s =>
    simp only [step, addNode] at h
    split at h
    · cases h
    · cases h; exact ⟨fun _ h => h, fun _ h => h⟩
  | addEdge e a b =>
    simp only [step, addEdge] at h
    split at h
    · cases h; exact ⟨fun _ h => h, fun _ h => h⟩
    · cases h
  | removeEdge e d => exact ⟨(removeEdge_removed w H e d h).split, (removeEdge_removed w H e d h).wake⟩
  | removeNode n =>
    simp only [step] at h
    by_cases hn : n ∈ w.nodes
    · have := ((removeNode_spec w H n hn).1 w' h).2.1
      exact ⟨this.split, this.wake⟩
    · unfold removeNode at h; rw [if_neg hn] at h; cases h
  | setProcedural n p => exact absurd rfl (hop n p)
  | wakeUp i =>
    simp only [step] at h
    cases hi : w.isl i with
    | none => rw [hi] at h; simp at h
    | some I =>
      rw [hi] at h; simp only [Option.isSome_some, if_true] at h
      obtain ⟨w1, h1, C1, E1, hw, _⟩ := wakeUp_spec w H.core i I hi
      rw [h] at h1; cases h1
      rw [E1.toSplit, hw]; exact ⟨fun _ h => h, fun _ h => h⟩
  | sleepNow =>
    simp only [step] at h
    obtain ⟨w1, h1, C1, E1, hw, _⟩ := sleepNow_spec w H.core
    rw [h] at h1; cases h1
    rw [E1.toSplit, hw]; exact ⟨fun _ h => h, fun _ h => h⟩
  | update t f => exact absurd rfl (hu t f)

theorem run_split_mono (env : Env T) (ops : List (Op T)) : ∀ (w w' : W T), Inv w → FixedKinds ops →
    (∀ t f, .update t f ∉ ops) → run env w ops = some w' →
    (∀ i ∈ w.toSplit, i ∈ w'.toSplit) ∧ (∀ i ∈ w.toWake, i ∈ w'.toWake) := by
  induction ops with
  | nil => intro w w' _ _ _ h; simp [run] at h; subst h; exact ⟨fun _ h => h, fun _ h => h⟩
  | cons op ops ih =>
    intro w w' H hf hu h
    simp only [run] at h
    cases h1 : step env w op with
    | none => rw [h1] at h; cases h
    | some w1 =>
      rw [h1] at h; simp only at h
      obtain ⟨a, b⟩ := step_split_mono env H h1 (fun n p hc => hf n p (by simp [hc]))
        fun t f hc => hu t f (by simp [hc])
      obtain ⟨c, d⟩ := ih w1 w' (step_inv env H h1 fun n p hc => hf n p (by simp [hc]))
        (fun n p hc => hf n p (by simp [hc])) (fun t f hc => hu t f (by simp [hc])) h
      exact ⟨fun i hi => c i (a i hi), fun i hi => d i (b i hi)⟩

/-- Island `i` has lost an edge or a procedural body in the step from `w` to `w'`. -/
def Lost (w w' : W T) (i : Nat) : Prop :=
  (∃ x ∈ w.edges, EdgeMember w x.id i ∧ ∀ y ∈ w'.edges, y.id ≠ x.id) ∨
    (∃ n, w.proc n = true ∧ Member w n i ∧ n ∉ w'.nodes)

theorem lost_flagged (env : Env T) {w w' : W T} {op : Op T} {i : Nat} (H : Inv w)
    (h : step env w op = some w') (hop : ∀ n p, op ≠ .setProcedural n p) (hl : Lost w w' i) :
    i ∈ w'.toSplit ∧ i ∈ w'.toWake := by
  have same : w'.edges = w.edges → w'.nodes = w.nodes → False := by
    intro h1 h2
    rcases hl with ⟨x, hx, _, hy⟩ | ⟨n, _, ⟨I, hI, hn⟩, hn'⟩
    · exact hy x (h1 ▸ hx) rfl
    · exact hn' (h2 ▸ H.core.nNode i I n hI hn)
  have rem : Removed w w' → (∀ n ∈ w.nodes, n ∉ w'.nodes → w'.nres n = none) →
      i ∈ w'.toSplit ∧ i ∈ w'.toWake := by
    intro R hgone
    rcases hl with ⟨x, hx, ⟨I, hI, he⟩, hy⟩ | ⟨n, hp, ⟨I, hI, hn⟩, hn'⟩
    · exact R.cut x hx (fun h => hy x h rfl) i (H.core.eOut i I _ hI he)
    · have h1 := H.core.nOut i I n hI hn hp
      exact R.gone n i h1 (by rw [hgone n (H.core.nNode i I n hI hn) hn']; simp)
  cases op with
  | addNode n p s =>
    exfalso
    simp only [step, addNode] at h
    split at h
    · cases h
    · cases h
      rcases hl with ⟨x, hx, _, hy⟩ | ⟨n', _, ⟨I, hI, hn⟩, hn'⟩
      · exact hy x hx rfl
      · exact hn' (by simp [H.core.nNode i I n' hI hn])
  | addEdge e a b =>
    exfalso
    simp only [step, addEdge] at h
    split at h
    · cases h
      rcases hl with ⟨x, hx, _, hy⟩ | ⟨n', _, ⟨I, hI, hn⟩, hn'⟩
      · exact hy x (by simp [hx]) rfl
      · exact hn' (H.core.nNode i I n' hI hn)
    · cases h
  | removeEdge e d =>
    apply rem (removeEdge_removed w H e d h)
    simp only [step] at h
    have hx : ∃ x ∈ w.edges, x.id = e := by
      unfold removeEdge at h
      split at h
      · rename_i hc; simpa using hc
      · cases h
    obtain ⟨x, hx, hxe⟩ := hx
    obtain ⟨w1, h1, _, h3, _⟩ := removeEdge_spec w H e d x hx hxe
    rw [h] at h1; cases h1
    intro n hn hn'; rw [h3] at hn'; exact absurd hn hn'
  | removeNode n =>
    simp only [step] at h
    by_cases hn : n ∈ w.nodes
    · obtain ⟨_, R, hnodes, _, hres, _⟩ := (removeNode_spec w H n hn).1 w' h
      apply rem R
      intro m hm hm'
      rw [hnodes] at hm'
      simp only [List.mem_filter, decide_eq_true_eq, not_and, not_not] at hm'
      rw [hres, if_pos (hm' hm)]
    · unfold removeNode at h; rw [if_neg hn] at h; cases h
  | setProcedural n p => exact absurd rfl (hop n p)
  | wakeUp i =>
    exfalso
    simp only [step] at h
    cases hi : w.isl i with
    | none => rw [hi] at h; simp at h
    | some I =>
      rw [hi] at h; simp only [Option.isSome_some, if_true] at h
      obtain ⟨w1, h1, C1, E1, _⟩ := wakeUp_spec w H.core i I hi
      rw [h] at h1; cases h1
      exact same E1.edges E1.nodes
  | sleepNow =>
    exfalso
    simp only [step] at h
    obtain ⟨w1, h1, C1, E1, _⟩ := sleepNow_spec w H.core
    rw [h] at h1; cases h1
    exact same E1.edges E1.nodes
  | update t f =>
    exfalso
    have U := update_ok env H h
    exact same U.edges U.nodes

/-- **C11**: an island that has lost an edge or a body since the last update and that still exists
after the next one is connected: any two of its procedural members can be reached from one another.
(That no member is lost and none is in two islands is C10.)

`pre`, `op`, `mid` and the final update are the whole history; `op` is the call by which the island
loses something, and there is no update in `mid`. -/
theorem island_is_split_partial (env : Env T) (t₀ : T) (pre mid : List (Op T)) (op : Op T) (time : T)
    (fast : Nat → Bool) (w₀ w₁ w : W T) (i : Nat)
    (hk : ∀ n p, .setProcedural n p ∉ pre ++ op :: mid) (hm : ∀ t f, .update t f ∉ mid)
    (h₀ : run env (start t₀) pre = some w₀) (h₁ : step env w₀ op = some w₁) (hl : Lost w₀ w₁ i)
    (h : run env (start t₀) (pre ++ op :: mid ++ [.update time fast]) = some w) :
    ∀ n m, w.proc n = true → w.proc m = true → Member w n i → Member w m i → Connected w n m := by
  obtain ⟨w2, h2, h3⟩ := run_snoc env h
  have H0 := run_inv env pre _ _ (start_inv t₀) (fun n p hc => hk n p (by simp [hc])) h₀
  have H1 := step_inv env H0 h₁ fun n p hc => hk n p (by simp [hc])
  have h12 : run env w₁ mid = some w2 := by
    rw [run_append, h₀] at h2
    simp only [Option.bind_some, run, h₁] at h2
    exact h2
  have hfl := lost_flagged env H0 h₁ (fun n p hc => hk n p (by simp [hc])) hl
  have hk2 : FixedKinds mid := fun n p hc => hk n p (by simp [hc])
  have hfl2 := (run_split_mono env mid w₁ w2 H1 hk2 hm h12).1 i hfl.1
  have H2 := run_inv env mid _ _ H1 hk2 h12
  have U := update_ok env H2 h3
  rintro n m hpn hpm ⟨I, hI, hn⟩ ⟨I', hI', hm'⟩
  have := U.flagged i hfl2 n m (U.inv.core.nOut i I n hI hn hpn) (U.inv.core.nOut i I' m hI' hm' hpm)
  unfold Connected
  rw [U.proc, U.edges]
  exact this

/-! ### C54 -/

/-- C54 in full: after every update, two procedural bodies are in the same island if and only if they
are connected through procedural bodies. -/
def C54FullStatement : Prop := ∀ (env : Env ℤ) (t₀ : ℤ) (ops : List (Op ℤ)) (time : ℤ)
  (fast : Nat → Bool) (w : W ℤ), (∀ n p, .setProcedural n p ∉ ops) →
  run env (start t₀) (ops ++ [.update time fast]) = some w →
  ∀ n ∈ w.nodes, ∀ m ∈ w.nodes, w.proc n = true → w.proc m = true →
    ((∃ i, Member w n i ∧ Member w m i) ↔ Connected w n m)

/-- In no update of the history an island that waits to be split is merged into another one. -/
def NoFlagLost (env : Env T) (w₀ : W T) (ops : List (Op T)) : Prop :=
  ∀ pre t f post w w', ops = pre ++ .update t f :: post → run env w₀ pre = some w →
    update env t f w = some w' →
    ∀ i ∈ w.toSplit, (∃ n, w.proc n = true ∧ Member w n i) → w'.isl i ≠ none

theorem run_conn (env : Env T) (t₀ : T) (ops : List (Op T)) : ∀ (w : W T),
    FixedKinds ops → NoFlagLost env (start t₀) ops → run env (start t₀) ops = some w → Conn w := by
  induction ops using List.reverseRecOn with
  | nil =>
    intro w _ _ h; simp [run] at h; subst h
    intro n m i hn; simp [start] at hn
  | append_singleton ops op ih =>
    intro w' hf hfl h
    obtain ⟨w, hw, hstep⟩ := run_snoc env h
    have hf' : FixedKinds ops := fun n p hc => hf n p (by simp [hc])
    have hc := ih w hf' (by
      intro pre t f post w1 w1' ho
      exact hfl pre t f (post ++ [op]) w1 w1' (by rw [ho]; simp)) hw
    have H := run_inv env ops _ _ (start_inv t₀) hf' hw
    apply step_conn env H hc hstep (fun n p hc => hf n p (by simp [hc]))
    unfold KeepsFlagged
    split
    · rename_i t f
      intro w2 h2 i hi hn
      refine hfl ops t f [] w w2 rfl hw h2 i hi ?_
      obtain ⟨n, hn⟩ := hn
      obtain ⟨_, hp, I, hI, hm⟩ := H.core.nIn n i hn
      exact ⟨n, hp, I, hI, hm⟩
    · trivial

/-- **C54**, for histories in which no flagged island is merged into another one: two procedural
bodies are in the same island if and only if they are connected.  One direction (connected bodies
share their island) needs no such hypothesis. -/
theorem islands_are_components_partial (env : Env T) (t₀ : T) (ops : List (Op T)) (time : T)
    (fast : Nat → Bool) (w : W T) (hk : ∀ n p, .setProcedural n p ∉ ops)
    (h : run env (start t₀) (ops ++ [.update time fast]) = some w) :
    (∀ n ∈ w.nodes, w.proc n = true → ∀ m, Connected w n m → ∀ i, Member w n i → Member w m i) ∧
    (NoFlagLost env (start t₀) (ops ++ [.update time fast]) →
      ∀ n ∈ w.nodes, ∀ m ∈ w.nodes, w.proc n = true → w.proc m = true →
        ((∃ i, Member w n i ∧ Member w m i) ↔ Connected w n m)) := by
  obtain ⟨w1, h1, h2⟩ := run_snoc env h
  have U := update_ok env (run_inv env ops _ _ (start_inv t₀) hk h1) h2
  have C := U.inv.core
  have hone : ∀ n, w.proc n = true → ∀ m, Connected w n m → ∀ i, Member w n i → Member w m i := by
    rintro n hp m hc i ⟨I, hI, hn⟩
    have := (linkI_of_linked C U.settled (C.nOut i I n hI hn hp) hc).1
    obtain ⟨_, _, J, hJ, hm⟩ := C.nIn m i this
    exact ⟨J, hJ, hm⟩
  refine ⟨fun n _ => hone n, ?_⟩
  intro hfl n hn m hm hpn hpm
  have hk' : FixedKinds (ops ++ [.update time fast]) := by
    intro x p hc
    simp only [List.mem_append, List.mem_singleton] at hc
    rcases hc with hc | hc
    · exact hk x p hc
    · cases hc
  have hc := run_conn env t₀ _ w hk' hfl h
  constructor
  · rintro ⟨i, ⟨I, hI, hn⟩, ⟨I', hI', hm⟩⟩
    exact linked_of_linkI (hc n m i (C.nOut i I n hI hn hpn) (C.nOut i I' m hI' hm hpm)
      (by rw [U.toSplit]; simp))
  · intro hcon
    obtain ⟨i, hi⟩ := Option.ne_none_iff_exists'.1 (fun h => U.settled n hn hpn (Or.inl h))
    obtain ⟨_, _, I, hI, hm'⟩ := C.nIn n i hi
    exact ⟨i, ⟨I, hI, hm'⟩, hone n hpn m hcon i ⟨I, hI, hm'⟩⟩

/-! ### C12 -/

/-- An island sleeps as a whole. -/
def SleepsAsAWhole (w : W T) : Prop :=
  ∀ i I, w.isl i = some I →
    (w.slI i = true → (∀ n ∈ I.nodes, w.proc n = true → w.slN n = true) ∧ ∀ e ∈ I.edges, w.slE e = true) ∧
    (w.slI i = false → (∀ n ∈ I.nodes, w.slN n = false) ∧ ∀ e ∈ I.edges, w.slE e = false)

/-- C12, first part, in full. -/
def C12FullStatement : Prop := ∀ (env : Env ℤ) (t₀ : ℤ) (ops : List (Op ℤ)) (w : W ℤ),
  run env (start t₀) ops = some w → SleepsAsAWhole w

/-- **C12**: at every moment a sleeping island has all its procedural bodies and all its edges marked
as sleeping, and an island that is awake has none; bodies that are not procedural are never marked.
(For histories in which no body changes its kind.) -/
theorem islands_sleep_as_a_whole_partial (env : Env T) (t₀ : T) (ops : List (Op T)) (w : W T)
    (hk : ∀ n p, .setProcedural n p ∉ ops) (h : run env (start t₀) ops = some w) :
    SleepsAsAWhole w ∧ ∀ n, w.proc n = false → w.slN n = false := by
  have C := (run_inv env ops _ _ (start_inv t₀) hk h).core
  exact ⟨fun i I hI => ⟨C.s1 i I hI, C.s2 i I hI⟩, C.s3⟩

/-- **C12**: an island with a body for which sleeping is disabled does not sleep, nor does the body
(as long as `put_all_to_sleep`, which only the extrapolation uses, is not called). -/
theorem sleeping_disabled_is_respected (env : Env T) (t₀ : T) (ops : List (Op T)) (w : W T)
    (hk : ∀ n p, .setProcedural n p ∉ ops) (hs : .sleepNow ∉ ops)
    (h : run env (start t₀) ops = some w) (n : Nat) (hn : w.nosleep n = true) :
    (∀ i, Member w n i → w.slI i = false) ∧ w.slN n = false := by
  have key : ∀ (ops : List (Op T)) (w w' : W T), Inv w → NoSl w → FixedKinds ops → .sleepNow ∉ ops →
      run env w ops = some w' → NoSl w' := by
    intro ops
    induction ops with
    | nil => intro w w' _ hc _ _ h; simp [run] at h; subst h; exact hc
    | cons op ops ih =>
      intro w w' H hc hf hr h
      simp only [run] at h
      cases h1 : step env w op with
      | none => rw [h1] at h; cases h
      | some w1 =>
        rw [h1] at h; simp only at h
        simp only [List.mem_cons, not_or] at hr
        exact ih w1 w' (step_inv env H h1 fun n p hc => hf n p (by simp [hc]))
          (step_noSl env H hc h1 (fun n p hc => hf n p (by simp [hc])) (Ne.symm hr.1))
          (fun n p hc => hf n p (by simp [hc])) hr.2 h
  have hN := key ops _ _ (start_inv t₀) (by intro i I hI; simp [start] at hI) hk hs h
  have C := (run_inv env ops _ _ (start_inv t₀) hk h).core
  have hm : ∀ i, Member w n i → w.slI i = false := by
    rintro i ⟨I, hI, hm⟩
    cases hsl : w.slI i with
    | false => rfl
    | true => have := hN i I hI hsl n hm; rw [hn] at this; cases this
  refine ⟨hm, ?_⟩
  cases hr : w.nres n with
  | none => exact C.s4 n hr
  | some i =>
    obtain ⟨_, _, I, hI, hmem⟩ := C.nIn n i hr
    exact (C.s2 i I hI (hm i ⟨I, hI, hmem⟩)).1 n hmem

/-- **C12**: if an island that was awake sleeps after an update, there is an update in the history,
made when the clock was more than `island_time_to_sleep` earlier, such that from then on in every
update, the last one included, all bodies of the island were slow and none had sleeping disabled.
(The clock of an update is the time passed to the update before it.  Bodies may change their kind, but
`put_all_to_sleep` is not called.) -/
theorem sleeps_only_after_rest (env : Env T) (t₀ : T) (ops : List (Op T)) (w w' : W T) (time : T)
    (fast : Nat → Bool) (hs : .sleepNow ∉ ops) (h : run env (start t₀) ops = some w)
    (h' : update env time fast w = some w') (i : Nat) (hi : w.slI i = false) (hi' : w'.slI i = true) :
    ∃ pre τ f mid w₀, ops = pre ++ .update τ f :: mid ∧ run env (start t₀) pre = some w₀ ∧
      w.lastTime - w₀.lastTime > env.timeToSleep ∧
      (∃ I, w'.isl i = some I ∧ ∀ n ∈ I.nodes, fast n = false ∧ w'.nosleep n = false) ∧
      ∀ a τ' f' b, .update τ f :: mid = a ++ .update τ' f' :: b →
        ∃ w₁ I, run env (start t₀) (pre ++ a ++ [.update τ' f']) = some w₁ ∧ w₁.isl i = some I ∧
          w₁.slI i = false ∧ ∀ n ∈ I.nodes, f' n = false ∧ w₁.nosleep n = false := by
  have S := stamps env (start t₀) (by simp [start]) ops w h hs
  obtain ⟨w1, w2, hT, hsl, hw'⟩ := update_parts env h'
  obtain ⟨c1, c2, c3, c4, c5, c6', c6⟩ := sleepAll_frame env fast hsl
  have hs2 : w2.slI i = true := by rw [hw'] at hi'; exact hi'
  rcases c5 i hs2 with h1 | ⟨I, t, hI, hst, hcs, hgt, _⟩
  · have := (hT.sleep i h1).1; rw [hi] at this; cases this
  · have hstw : w.stamp i = some t := by
      rcases hT.stamp i with h1 | ⟨h1, _⟩
      · rw [h1] at hst; cases hst
      · rw [← h1]; exact hst
    obtain ⟨_, _, _, pre, mid, hist, ⟨w0, τ, f, mid', g1, g2, g3⟩, rest⟩ := S i t hstw
    subst g3
    refine ⟨pre, τ, f, mid', w0, hist, g1, ?_, ⟨I, ?_, ?_⟩, rest⟩
    · rw [g2, ← hT.last]; exact hgt
    · rw [hw']; simp only [c1]; exact hI
    · intro n hn
      have := (List.all_eq_true.1 hcs) n hn
      simp at this
      rw [hw']; simp only [c3]
      exact ⟨this.2, this.1⟩

/-- **C12**: a call that wakes up an island removes the mark from the island and all its members. -/
theorem wake_up_wakes_everything (env : Env T) (t₀ : T) (ops : List (Op T)) (w w' : W T) (i : Nat)
    (hk : ∀ n p, .setProcedural n p ∉ ops) (h : run env (start t₀) ops = some w)
    (h' : step env w (.wakeUp i) = some w') :
    w'.slI i = false ∧ ∀ I, w'.isl i = some I →
      (∀ n ∈ I.nodes, w'.slN n = false) ∧ ∀ e ∈ I.edges, w'.slE e = false := by
  have H := run_inv env ops _ _ (start_inv t₀) hk h
  have C' := (step_inv env H h' (by simp)).core
  simp only [step] at h'
  cases hi : w.isl i with
  | none => rw [hi] at h'; simp at h'
  | some I =>
    rw [hi] at h'; simp only [Option.isSome_some, if_true] at h'
    obtain ⟨w1, h1, _, _, _, hs, _⟩ := wakeUp_spec w H.core i I hi
    rw [h'] at h1; cases h1
    exact ⟨hs, fun I' hI' => C'.s2 i I' hI' hs⟩

/-- **C12**: an island that sleeps and loses a body or an edge is awake after the next update. -/
theorem removal_wakes_island (env : Env T) (t₀ : T) (pre mid : List (Op T)) (op : Op T) (time : T)
    (fast : Nat → Bool) (w₀ w₁ w₂ w : W T) (i : Nat)
    (hk : ∀ n p, .setProcedural n p ∉ pre ++ op :: mid) (hm : ∀ t f, .update t f ∉ mid)
    (hs : .sleepNow ∉ pre ++ op :: mid)
    (h₀ : run env (start t₀) pre = some w₀) (h₁ : step env w₀ op = some w₁) (hl : Lost w₀ w₁ i)
    (h₂ : run env w₁ mid = some w₂) (hsl : w₂.slI i = true) (hex : w₂.isl i ≠ none)
    (h : update env time fast w₂ = some w) : w.slI i = false := by
  have H0 := run_inv env pre _ _ (start_inv t₀) (fun n p hc => hk n p (by simp [hc])) h₀
  have H1 := step_inv env H0 h₁ fun n p hc => hk n p (by simp [hc])
  have hfl := lost_flagged env H0 h₁ (fun n p hc => hk n p (by simp [hc])) hl
  have hk2 : FixedKinds mid := fun n p hc => hk n p (by simp [hc])
  have hfl2 := (run_split_mono env mid w₁ w₂ H1 hk2 hm h₂).2 i hfl.2
  have H2 := run_inv env mid _ _ H1 hk2 h₂
  have h02 : run env (start t₀) (pre ++ op :: mid) = some w₂ := by
    rw [run_append, h₀]
    simp only [Option.bind_some, run, h₁]
    exact h₂
  have S := stamps env (start t₀) (by simp [start]) _ w₂ h02 hs
  have hst : w₂.stamp i = none := by
    cases hst : w₂.stamp i with
    | none => rfl
    | some t => have := (S i t hst).2.2.1; rw [hsl] at this; cases this
  unfold update at h
  obtain ⟨a, h1, h⟩ := Option.bind_eq_some_iff.1 h
  obtain ⟨b, h2, h⟩ := Option.bind_eq_some_iff.1 h
  obtain ⟨c, h3, h⟩ := Option.bind_eq_some_iff.1 h
  obtain ⟨d, h4, h5⟩ := Option.map_eq_some_iff.1 h
  have hT := (wakeAll_tm h1).trans ((initNew_tm env h2).trans (split_tm env h3))
  obtain ⟨a', h1', _, _, _, K, _⟩ := wakeAll_spec w₂ H2.core
  rw [h1] at h1'; cases h1'
  have ha : a.slI i = false := K i hfl2 (by rw [← Option.ne_none_iff_isSome]; exact hex)
  obtain ⟨c1, c2, c3, c4, c5, _, _⟩ := sleepAll_frame env fast h4
  cases hw : w.slI i with
  | false => rfl
  | true =>
    exfalso
    have hd : d.slI i = true := by rw [← h5] at hw; exact hw
    rcases c5 i hd with hc | ⟨I, t, _, hc, _⟩
    · have := (((initNew_tm env h2).trans (split_tm env h3)).sleep i hc).1
      rw [ha] at this; cases this
    · rcases hT.stamp i with h' | ⟨h', _⟩
      · rw [h'] at hc; cases hc
      · rw [h', hst] at hc; cases hc

end Edyn.Islands
