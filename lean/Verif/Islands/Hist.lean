import Verif.Islands.Inv
import Verif.Islands.Timer

/-! # Islands: histories -/

namespace Edyn.Islands

variable {T : Type}

/-- Joined by an edge of island `i`. -/
def LinkI (w : W T) (i : Nat) (p q : Nat) : Prop :=
  w.proc p = true ∧ w.proc q = true ∧
    ∃ x ∈ w.edges, ((x.a = p ∧ x.b = q) ∨ (x.a = q ∧ x.b = p)) ∧ w.eres x.id = some i

/-- Islands that are not flagged are connected. -/
def Conn (w : W T) : Prop :=
  ∀ n m i, w.nres n = some i → w.nres m = some i → i ∉ w.toSplit →
    Relation.ReflTransGen (LinkI w i) n m

theorem linked_of_linkI {w : W T} {i n m : Nat} (h : Relation.ReflTransGen (LinkI w i) n m) :
    Linked w n m := by
  induction h with
  | refl => exact .refl
  | tail _ h ih =>
    obtain ⟨h1, h2, x, hx, h3, _⟩ := h
    exact ih.tail ⟨h1, h2, x, hx, h3⟩

/-- In a settled state paths of moving bodies stay in the island. -/
theorem linkI_of_linked {w : W T} (C : Core w) (S : Settled w) {i n m : Nat} (hn : w.nres n = some i)
    (h : Linked w n m) : w.nres m = some i ∧ Relation.ReflTransGen (LinkI w i) n m := by
  induction h with
  | refl => exact ⟨hn, .refl⟩
  | tail _ h ih =>
    rename_i b c _
    obtain ⟨h1, h2, x, hx, h3⟩ := h
    have hb : w.eres x.id = some i := C.edge_of S hx (v := b) (by tauto) h1 ih.1
    refine ⟨?_, ih.2.tail ⟨h1, h2, x, hx, h3, hb⟩⟩
    obtain ⟨_, I, hI, _⟩ := C.eIn _ _ hb
    have := C.ends x hx i I hb hI
    exact C.nOut i I c hI (by rcases h3 with ⟨_, rfl⟩ | ⟨rfl, _⟩; exact this.2; exact this.1) h2

/-- Bodies that must not sleep are in no sleeping island. -/
def NoSl (w : W T) : Prop :=
  ∀ i I, w.isl i = some I → w.slI i = true → ∀ n ∈ I.nodes, w.nosleep n = false

/-- All edges waiting to be processed are still there. -/
def Clean (w : W T) : Prop := ∀ e ∈ w.newEdges, ∃ x ∈ w.edges, x.id = e

/-- What `initNew` keeps of the state before it. -/
structure During (w₀ w : W T) : Prop where
  proc : w.proc = w₀.proc
  edges : w.edges = w₀.edges
  nosleep : w.nosleep = w₀.nosleep
  next : w₀.next ≤ w.next
  splitOld : ∀ i ∈ w₀.toSplit, i < w₀.next
  old : ∀ f n, w.nres n = some f → f < w₀.next → ∃ m, w₀.nres m = some f
  conn : Conn w₀ → (∃ f ∈ w₀.toSplit, f < w.next ∧ w.isl f = none ∧ ∃ m, w₀.nres m = some f) ∨
    ∀ n m i, w.nres n = some i → w.nres m = some i → i ∉ w₀.toSplit → Linked w₀ n m

theorem during_step {w₀ w w' : W T} {t r : Nat} {new : List Nat} {c : Coll} (C : Core w)
    (K : Comp w r new c) (A : Assigned w w' t c.islands c.nodes c.edges) (D : During w₀ w) :
    During w₀ w' := by
  have hlink : ∀ p q, (w.proc p = true ∧ w.proc q = true ∧ Joined w p q) → Link w₀ p q := by
    intro p q h
    unfold Link Joined
    rw [← D.proc, ← D.edges]
    exact h
  have hpath : ∀ n ∈ new, Linked w₀ r n := by
    intro n hn
    have := K.path n hn
    clear hn
    induction this with
    | refl => exact .refl
    | tail _ h ih => exact ih.tail (hlink _ _ h)
  constructor
  · rw [A.proc, D.proc]
  · rw [A.edges, D.edges]
  · rw [A.nosleep, D.nosleep]
  · exact le_trans D.next A.next.1
  · exact D.splitOld
  · intro f n hn hf
    rw [A.nres] at hn
    split at hn
    · simp only [Option.some.injEq] at hn
      subst hn
      rcases A.tIn with h | ⟨_, h, _⟩
      · obtain ⟨m, hm, _⟩ := K.cI2 t h
        exact D.old t m hm hf
      · have := D.next; omega
    · exact D.old f n hn hf
  · intro hc
    rcases D.conn hc with ⟨f, h1, h2, h3, h4⟩ | hD
    · left
      refine ⟨f, h1, lt_of_lt_of_le h2 A.next.1, ?_, h4⟩
      have hfD : f ∉ c.islands := by
        intro h
        obtain ⟨I, hI, _⟩ := K.ok.isl f h
        rw [h3] at hI; cases hI
      have hft : f ≠ t := by
        rintro rfl
        rcases A.tIn with h | ⟨_, h, _⟩
        · exact hfD h
        · omega
      rw [(A.kept f hfD hft).1]; exact h3
    · by_cases hx : ∃ f ∈ c.islands, f ≠ t ∧ f ∈ w₀.toSplit
      · obtain ⟨f, hf, hft, hfs⟩ := hx
        left
        obtain ⟨m, hm, _⟩ := K.cI2 f hf
        obtain ⟨_, _, J, hJ, _⟩ := C.nIn m f hm
        have hfn := C.fresh f J hJ
        exact ⟨f, hfs, lt_of_lt_of_le hfn A.next.1, A.gone f hf hft,
          D.old f m hm (D.splitOld f hfs)⟩
      · right
        intro n m i hn hm hi
        -- every member of island `t` is linked with `r`
        have key : t ∉ w₀.toSplit → ∀ n, w'.nres n = some t → Linked w₀ r n := by
          intro ht n hn
          rw [A.nres] at hn
          split at hn
          · rename_i hcase
            rcases hcase with ⟨h1, h2⟩ | ⟨d, hd, h⟩
            · rcases (K.cN n).1 h1 with ⟨h3, _⟩ | ⟨h3, _⟩
              · exact hpath n h3
              · rw [h2] at h3; cases h3
            · have hds : d ∉ w₀.toSplit := by
                by_cases hdt : d = t
                · rw [hdt]; exact ht
                · exact fun h => hx ⟨d, hd, hdt, h⟩
              obtain ⟨m, hm, hm'⟩ := K.cI2 d hd
              have hmp := (C.nIn m d hm).2.1
              have hrm : Linked w₀ r m := by
                rcases hm' with h | ⟨p, hp, hj⟩
                · exact hpath m h
                · exact (hpath p hp).tail (hlink _ _ ⟨(K.isProc p hp).1, hmp, hj⟩)
              exact hrm.trans (hD m n d hm h hds)
          · rename_i hcase
            exfalso
            have htl : t ∈ c.islands := by
              rcases A.tIn with h | ⟨_, h, _⟩
              · exact h
              · obtain ⟨_, _, J, hJ, _⟩ := C.nIn n t hn
                have := C.fresh t J hJ; omega
            exact hcase (Or.inr ⟨t, htl, hn⟩)
        by_cases hit : i = t
        · subst hit
          exact (key hi n hn).symm.trans (key hi m hm)
        · rw [A.nres] at hn hm
          split at hn
          · simp only [Option.some.injEq] at hn; exact absurd hn.symm hit
          · split at hm
            · simp only [Option.some.injEq] at hm; exact absurd hm.symm hit
            · exact hD n m i hn hm hi

theorem startNodes_clean {w : W T} {l : List Nat} (h : startNodes w = some l) : Clean w := by
  unfold startNodes at h
  obtain ⟨r, hr, -⟩ := Option.map_eq_some_iff.1 h
  clear h
  unfold Clean
  generalize w.newEdges = es at hr
  induction es generalizing r with
  | nil => simp
  | cons e es ih =>
    rw [List.mapM_cons] at hr
    obtain ⟨p, hp, hr⟩ := Option.bind_eq_some_iff.1 hr
    obtain ⟨q, hq, hr⟩ := Option.bind_eq_some_iff.1 hr
    intro e' he'
    rcases List.mem_cons.1 he' with rfl | he'
    · obtain ⟨x, hx, h, _⟩ := endsOf_eq hp
      exact ⟨x, hx, h⟩
    · exact ih q hq e' he'

section
variable [AddCommGroup T] [LinearOrder T]

/-- What `island_manager::update` does. -/
structure UpdOk (w w' : W T) (fast : Nat → Bool) : Prop where
  inv : Inv w'
  settled : Settled w'
  nodes : w'.nodes = w.nodes
  proc : w'.proc = w.proc
  edges : w'.edges = w.edges
  nosleep : w'.nosleep = w.nosleep
  newNodes : w'.newNodes = []
  newEdges : w'.newEdges = []
  toSplit : w'.toSplit = []
  toWake : w'.toWake = []
  flagged : ∀ i ∈ w.toSplit, ∀ n m, w'.nres n = some i → w'.nres m = some i → Linked w n m
  conn : Conn w → (∀ f ∈ w.toSplit, (∃ m, w.nres m = some f) → w'.isl f ≠ none) →
    ∀ n m j, w'.nres n = some j → w'.nres m = some j → Linked w n m
  woken : ∀ i ∈ w.toWake, w.isl i ≠ none → w'.slI i = true → ∃ I, w'.isl i = some I ∧
    ∀ n ∈ I.nodes, fast n = false

theorem Settled.track {w : W T} (S : Settled w) (h1 : w.newNodes = []) (h2 : w.newEdges = [])
    (C : Core w) : Track w := by
  constructor
  · rw [h2]; simp
  · rw [h1]; simp
  · intro x hx hnone
    right
    have := C.gEnds x hx
    constructor
    · cases h : w.proc x.a with
      | false => rfl
      | true => exact absurd (Or.inr ⟨x, hx, Or.inl rfl, hnone⟩) (S _ this.1 h)
    · cases h : w.proc x.b with
      | false => rfl
      | true => exact absurd (Or.inr ⟨x, hx, Or.inr rfl, hnone⟩) (S _ this.2 h)
  · intro n hn hp hnone
    exact absurd (Or.inl hnone) (S n hn hp)

theorem update_spec (env : Env T) (time : T) (fast : Nat → Bool) (w : W T) (H : Inv w)
    (hcl : Clean w) : ∃ w', update env time fast w = some w' ∧ UpdOk w w' fast := by
  obtain ⟨w1, h1, C1, E1, W1, K1, M1⟩ := wakeAll_spec w H.core
  have R1 : Track w1 := E1.track H.track
  have hcl1 : Clean w1 := by unfold Clean; rw [E1.newEdges, E1.edges]; exact hcl
  have hD1 : During w1 { w1 with newNodes := [], newEdges := [] } := by
    refine ⟨rfl, rfl, rfl, le_refl _, by rw [E1.toSplit, E1.next]; exact H.splitOld,
      fun f n h _ => ⟨n, h⟩, fun hc => Or.inr ?_⟩
    intro n m i hn hm hi
    exact linked_of_linkI (hc n m i hn hm hi)
  obtain ⟨w2, h2, C2, D2, g1, g2, g3, g4, g5, g6, g7, S2⟩ := initNew_spec env (During w1)
    (fun w w' t r new c C K A D => during_step C K A D) w1 C1 R1 hD1 hcl1
  obtain ⟨w3, h3, P⟩ := splits_spec env (w2.toSplit.filter fun i => (w2.isl i).isSome) w2 C2 S2
    (by rw [g6, E1.toSplit]; exact H.splitNd.filter _)
    (by
      intro i hi
      simp only [List.mem_filter] at hi
      exact Option.isSome_iff_exists.1 hi.2)
  have hs3 : split env w2 = some { w3 with toSplit := [] } := by
    unfold split; rw [h3]; rfl
  have C3 : Core ({ w3 with toSplit := [] } : W T) :=
    ⟨P.core.1, P.core.2, P.core.3, P.core.4, P.core.5, P.core.6, P.core.7, P.core.8, P.core.9,
      P.core.10, P.core.11, P.core.12, P.core.13, P.core.14, P.core.15, P.core.16, P.core.17, P.core.18⟩
  obtain ⟨w4, h4, C4, E4, W4, L4, sl4, st4⟩ := sleepAll_spec env fast _ C3
  have S4 : Settled w4 := E4.settled (w := { w3 with toSplit := [] }) P.settled
  refine ⟨{ w4 with lastTime := time }, ?_, ?_⟩
  · unfold update
    rw [h1]; simp only [Option.bind_some]
    rw [h2]; simp only [Option.bind_some]
    rw [hs3]; simp only [Option.bind_some]
    rw [h4]; rfl
  have C5 : Core ({ w4 with lastTime := time } : W T) :=
    ⟨C4.1, C4.2, C4.3, C4.4, C4.5, C4.6, C4.7, C4.8, C4.9, C4.10, C4.11, C4.12, C4.13, C4.14, C4.15,
      C4.16, C4.17, C4.18⟩
  have n4 : w4.newNodes = [] := by rw [E4.newNodes]; simp only; rw [P.graph.newNodes, g4]
  have e4 : w4.newEdges = [] := by rw [E4.newEdges]; simp only; rw [P.graph.newEdges, g5]
  have p4 : w4.proc = w.proc := by rw [E4.proc]; simp only; rw [P.graph.proc, g2, E1.proc]
  have ed4 : w4.edges = w.edges := by rw [E4.edges]; simp only; rw [P.graph.edges, g3, E1.edges]
  have nr4 : w4.nres = w3.nres := by rw [E4.nres]
  have ts4 : w4.toSplit = [] := by rw [E4.toSplit]
  have hL : ∀ n m, Linked w2 n m ↔ Linked w n m := by
    intro n m
    have : Link w2 = Link w := by
      funext p q; unfold Link Joined; rw [g2, g3, E1.proc, E1.edges]
    unfold Linked; rw [this]
  have hL1 : ∀ n m, Linked w1 n m ↔ Linked w n m := by
    intro n m
    have : Link w1 = Link w := by
      funext p q; unfold Link Joined; rw [E1.proc, E1.edges]
    unfold Linked; rw [this]
  have hids : ∀ n j, w2.nres n = some j → j ∈ w.toSplit →
      j ∈ (w2.toSplit.filter fun i => (w2.isl i).isSome) := by
    intro n j hn hj
    obtain ⟨_, _, J, hJ, _⟩ := C2.nIn n j hn
    simp only [List.mem_filter, hJ, Option.isSome_some, and_true]
    rw [g6, E1.toSplit]; exact hj
  constructor
  · refine ⟨C5, Settled.track (w := { w4 with lastTime := time }) S4 n4 e4 C5, ?_, ?_⟩
    · simp only [ts4]; exact List.nodup_nil
    · simp only [ts4]; simp
  · exact S4
  · simp only; rw [E4.nodes]; simp only; rw [P.graph.nodes, g1, E1.nodes]
  · exact p4
  · exact ed4
  · simp only; rw [E4.nosleep]; simp only; rw [P.graph.nosleep, D2.nosleep, E1.nosleep]
  · exact n4
  · exact e4
  · exact ts4
  · simp only; rw [W4]; simp only; rw [P.graph.toWake, g7, W1]
  · intro i hi n m hn hm
    simp only [nr4] at hn hm
    rcases P.linked n m i hn hm with h | ⟨hni, h, _⟩
    · exact (hL n m).1 h
    · exact absurd (hids n i h hi) hni
  · intro hc hkeep n m j hn hm
    simp only [nr4] at hn hm
    rcases P.linked n m j hn hm with h | ⟨hni, hn2, hm2⟩
    · exact (hL n m).1 h
    · have hjs : j ∉ w1.toSplit := by
        rw [E1.toSplit]
        exact fun h => hni (hids n j hn2 h)
      have hc1 : Conn w1 := by
        unfold Conn LinkI
        rw [E1.nres, E1.proc, E1.edges, E1.eres, E1.toSplit]
        exact hc
      rcases D2.conn hc1 with ⟨f, f1, f2, f3, f4⟩ | h
      · exfalso
        rw [E1.toSplit] at f1
        rw [E1.nres] at f4
        apply hkeep f f1 f4
        simp only
        rw [E4.isl]
        simp only
        rw [P.other f f2, f3]
        simp [f3]
      · exact (hL1 n m).1 (h n m j hn2 hm2 hjs)
  · intro i hi hne hs
    simp only at hs ⊢
    rcases sl4 i hs with h | ⟨I, t, h, _, hcs, _⟩
    · exfalso
      simp only at h
      have h3' := ((split_tm env hs3).sleep i h).1
      have h2' := ((initNew_tm env h2).sleep i h3').1
      rw [K1 i hi (by rw [← Option.ne_none_iff_isSome]; exact hne)] at h2'
      cases h2'
    · refine ⟨I, by rw [E4.isl]; exact h, ?_⟩
      intro n hn
      have := (List.all_eq_true.1 hcs) n hn
      simp at this
      exact this.2

theorem update_ok (env : Env T) {time : T} {fast : Nat → Bool} {w w' : W T} (H : Inv w)
    (h : update env time fast w = some w') : UpdOk w w' fast := by
  have hcl : Clean w := by
    unfold update at h
    obtain ⟨w1, h1, h⟩ := Option.bind_eq_some_iff.1 h
    obtain ⟨w2, h2, _⟩ := Option.bind_eq_some_iff.1 h
    unfold initNew at h2
    cases h3 : startNodes w1 with
    | none => rw [h3] at h2; cases h2
    | some l =>
      have := startNodes_clean h3
      obtain ⟨w1', h1', _, E1, _⟩ := wakeAll_spec w H.core
      rw [h1] at h1'; cases h1'
      unfold Clean at this ⊢
      rw [E1.newEdges, E1.edges] at this
      exact this
  obtain ⟨w1, h1, U⟩ := update_spec env time fast w H hcl
  rw [h] at h1; cases h1
  exact U

/-- The calls considered: no body changes its kind. -/
def FixedKinds (ops : List (Op T)) : Prop := ∀ n p, .setProcedural n p ∉ ops

omit [AddCommGroup T] [LinearOrder T] in
theorem SameIsl.inv {w w' : W T} (h : SameIsl w w') (C : Core w') (H : Inv w) : Inv w' :=
  ⟨C, h.track H.track, by rw [h.toSplit]; exact H.splitNd, by rw [h.toSplit, h.next]; exact H.splitOld⟩

theorem step_inv (env : Env T) {w w' : W T} {op : Op T} (H : Inv w) (h : step env w op = some w')
    (hop : ∀ n p, op ≠ .setProcedural n p) : Inv w' := by
  cases op with
  | addNode n p s => exact addNode_inv H h
  | addEdge e a b => exact addEdge_inv H h
  | removeEdge e d =>
    simp only [step] at h
    have hx : ∃ x ∈ w.edges, x.id = e := by
      unfold removeEdge at h
      split at h
      · rename_i hc; simpa using hc
      · cases h
    obtain ⟨x, hx, hxe⟩ := hx
    obtain ⟨w1, h1, h2, _⟩ := removeEdge_spec w H e d x hx hxe
    rw [h] at h1; cases h1; exact h2
  | removeNode n =>
    simp only [step] at h
    by_cases hn : n ∈ w.nodes
    · exact ((removeNode_spec w H n hn).1 w' h).1
    · unfold removeNode at h; rw [if_neg hn] at h; cases h
  | setProcedural n p => exact absurd rfl (hop n p)
  | wakeUp i =>
    simp only [step] at h
    cases hi : w.isl i with
    | none => rw [hi] at h; simp at h
    | some I =>
      rw [hi] at h; simp only [Option.isSome_some, if_true] at h
      obtain ⟨w1, h1, C1, E1, _⟩ := wakeUp_spec w H.core i I hi
      rw [h] at h1; cases h1
      exact E1.inv C1 H
  | sleepNow =>
    simp only [step] at h
    obtain ⟨w1, h1, C1, E1, _⟩ := sleepNow_spec w H.core
    rw [h] at h1; cases h1
    exact E1.inv C1 H
  | update t f => exact (update_ok env H h).inv

/-- The start state. -/
def start (t₀ : T) : W T := { lastTime := t₀ }

omit [AddCommGroup T] [LinearOrder T] in
theorem start_inv (t₀ : T) : Inv (start t₀) := by
  refine ⟨?_, ?_, by simp [start], by simp [start]⟩
  · constructor <;> simp [start]
  · constructor <;> simp [start]

theorem run_inv (env : Env T) (ops : List (Op T)) : ∀ (w w' : W T), Inv w → FixedKinds ops →
    run env w ops = some w' → Inv w' := by
  induction ops with
  | nil => intro w w' H _ h; simp [run] at h; subst h; exact H
  | cons op ops ih =>
    intro w w' H hf h
    simp only [run] at h
    cases h1 : step env w op with
    | none => rw [h1] at h; cases h
    | some w1 =>
      rw [h1] at h; simp only at h
      exact ih w1 w' (step_inv env H h1 fun n p hc => hf n p (by simp [hc]))
        (fun n p hc => hf n p (by simp [hc])) h

/-! ### Connectedness -/

theorem addNode_conn {w w' : W T} {n : Nat} {p s : Bool} (H : Inv w) (hc : Conn w)
    (h : addNode w n p s = some w') : Conn w' := by
  unfold addNode at h
  split at h
  · cases h
  rename_i hn
  cases h
  intro a b i ha hb hi
  have hne : ∀ m j, Function.update w.nres n none m = some j → w.nres m = some j := by
    intro m j hm
    by_cases hmn : m = n
    · subst hmn; simp at hm
    · simpa [Function.update_of_ne hmn] using hm
  have := hc a b i (hne a i ha) (hne b i hb) hi
  clear hb
  induction this with
  | refl => exact .refl
  | tail _ h ih =>
    obtain ⟨h1, h2, x, hx, h3, h4⟩ := h
    rename_i u v _
    have hu : u ≠ n := by
      rintro rfl
      have := H.core.gEnds x hx
      rcases h3 with ⟨rfl, _⟩ | ⟨_, rfl⟩
      · exact hn this.1
      · exact hn this.2
    have hv : v ≠ n := by
      rintro rfl
      have := H.core.gEnds x hx
      rcases h3 with ⟨_, rfl⟩ | ⟨rfl, _⟩
      · exact hn this.2
      · exact hn this.1
    refine ih.tail ⟨?_, ?_, x, hx, h3, h4⟩
    · simp only [Function.update_of_ne hu]; exact h1
    · simp only [Function.update_of_ne hv]; exact h2

theorem addEdge_conn {w w' : W T} {e a b : Nat} (H : Inv w) (hc : Conn w)
    (h : addEdge w e a b = some w') : Conn w' := by
  unfold addEdge at h
  split at h
  swap
  · cases h
  rename_i hcond
  cases h
  intro u v i hu hv hi
  have := hc u v i hu hv hi
  clear hv
  induction this with
  | refl => exact .refl
  | tail _ h ih =>
    obtain ⟨h1, h2, x, hx, h3, h4⟩ := h
    refine ih.tail ⟨h1, h2, x, by simp [hx], h3, ?_⟩
    simp only
    rw [Function.update_of_ne (hcond.2.2 x hx)]; exact h4

theorem Removed.conn {w w' : W T} (R : Removed w w') (hc : Conn w) : Conn w' := by
  intro u v i hu hv hi
  have := hc u v i (R.nres u i hu) (R.nres v i hv) (fun h => hi (R.split i h))
  clear hv
  induction this with
  | refl => exact .refl
  | tail _ h ih =>
    obtain ⟨h1, h2, x, hx, h3, h4⟩ := h
    have hx' : x ∈ w'.edges := by
      by_contra hcon
      exact hi (R.cut x hx hcon i h4).1
    exact ih.tail ⟨by rw [R.proc]; exact h1, by rw [R.proc]; exact h2, x, hx', h3,
      by rw [R.eKept x hx']; exact h4⟩

theorem SameIsl.conn {w w' : W T} (E : SameIsl w w') (hc : Conn w) : Conn w' := by
  unfold Conn LinkI
  rw [E.nres, E.proc, E.edges, E.eres, E.toSplit]
  exact hc

/-- No island that is flagged and has a moving body is merged into another one by this call. -/
def KeepsFlagged (env : Env T) (w : W T) : Op T → Prop
  | .update t f => ∀ w', update env t f w = some w' →
      ∀ i ∈ w.toSplit, (∃ n, w.nres n = some i) → w'.isl i ≠ none
  | _ => True

theorem step_conn (env : Env T) {w w' : W T} {op : Op T} (H : Inv w) (hc : Conn w)
    (h : step env w op = some w') (hop : ∀ n p, op ≠ .setProcedural n p)
    (hk : KeepsFlagged env w op) : Conn w' := by
  cases op with
  | addNode n p s => exact addNode_conn H hc h
  | addEdge e a b => exact addEdge_conn H hc h
  | removeEdge e d => exact (removeEdge_removed w H e d h).conn hc
  | removeNode n =>
    simp only [step] at h
    by_cases hn : n ∈ w.nodes
    · exact ((removeNode_spec w H n hn).1 w' h).2.1.conn hc
    · unfold removeNode at h; rw [if_neg hn] at h; cases h
  | setProcedural n p => exact absurd rfl (hop n p)
  | wakeUp i =>
    simp only [step] at h
    cases hi : w.isl i with
    | none => rw [hi] at h; simp at h
    | some I =>
      rw [hi] at h; simp only [Option.isSome_some, if_true] at h
      obtain ⟨w1, h1, C1, E1, _⟩ := wakeUp_spec w H.core i I hi
      rw [h] at h1; cases h1
      exact E1.conn hc
  | sleepNow =>
    simp only [step] at h
    obtain ⟨w1, h1, C1, E1, _⟩ := sleepNow_spec w H.core
    rw [h] at h1; cases h1
    exact E1.conn hc
  | update t f =>
    have U := update_ok env H h
    intro n m i hn hm _
    have := U.conn hc (hk w' h) n m i hn hm
    apply (linkI_of_linked U.inv.core U.settled hn ?_).2
    have hl : Link w' = Link w := by
      funext p q; unfold Link Joined; rw [U.proc, U.edges]
    unfold Linked; rw [hl]; exact this

/-! ### Bodies that must not sleep -/

theorem Tm.noSl {w w' : W T} (t : Tm w w') (h : NoSl w)
    (hn : ∀ i I, w.isl i = some I → ∀ n ∈ I.nodes, w'.nosleep n = w.nosleep n) : NoSl w' := by
  intro i I' hI' hs n hn'
  obtain ⟨h1, h2⟩ := t.sleep i hs
  obtain ⟨I, hI, h3⟩ := h2 I' hI'
  rw [hn i I hI n (h3 n hn')]
  exact h i I hI h1 n (h3 n hn')

theorem step_noSl (env : Env T) {w w' : W T} {op : Op T} (H : Inv w) (hc : NoSl w)
    (h : step env w op = some w') (hop : ∀ n p, op ≠ .setProcedural n p)
    (hk : op ≠ .sleepNow) : NoSl w' := by
  cases op with
  | addNode n p s =>
    have t := step_tm env h (by simp) (by simp)
    apply t.noSl hc
    intro i I hI m hm
    simp only [step, addNode] at h
    split at h
    · cases h
    · rename_i hn
      cases h
      have : m ≠ n := by rintro rfl; exact hn (H.core.nNode i I m hI hm)
      simp [Function.update_of_ne this]
  | addEdge e a b =>
    have t := step_tm env h (by simp) (by simp)
    apply t.noSl hc
    intro i I hI m hm
    simp only [step, addEdge] at h
    split at h
    · cases h; rfl
    · cases h
  | removeEdge e d =>
    have t := step_tm env h (by simp) (by simp)
    apply t.noSl hc
    intro i I hI m hm
    rw [(removeEdge_removed w H e d h).nosleep]
  | removeNode n =>
    have t := step_tm env h (by simp) (by simp)
    apply t.noSl hc
    intro i I hI m hm
    simp only [step] at h
    by_cases hn : n ∈ w.nodes
    · rw [((removeNode_spec w H n hn).1 w' h).2.1.nosleep]
    · unfold removeNode at h; rw [if_neg hn] at h; cases h
  | setProcedural n p => exact absurd rfl (hop n p)
  | wakeUp i =>
    have t := step_tm env h (by simp) (by simp)
    apply t.noSl hc
    intro j I hI m hm
    simp only [step] at h
    split at h
    · rw [(wakeUp_tm h).2.2.2.2.2.2]
    · cases h
  | sleepNow => exact absurd rfl hk
  | update t f =>
    have U := update_ok env H h
    obtain ⟨w1, w2, hT, hsl, hw'⟩ := update_parts env h
    obtain ⟨c1, c2, c3, c4, c5, _, _⟩ := sleepAll_frame env f hsl
    have hns : w1.nosleep = w.nosleep := by rw [← U.nosleep, hw', ← c3]
    have h1 : NoSl w1 := hT.noSl hc fun i I _ n _ => by rw [hns]
    intro i I hI hs n hn
    rw [U.nosleep]
    rw [hw'] at hI hs
    simp only [c1] at hI
    rcases c5 i hs with h | ⟨J, t', hJ, _, hcs, _⟩
    · have := h1 i I hI h n hn
      rw [hns] at this; exact this
    · rw [hI] at hJ; cases hJ
      have := (List.all_eq_true.1 hcs) n hn
      simp at this
      rw [hns] at this
      exact this.1

end

end Edyn.Islands
