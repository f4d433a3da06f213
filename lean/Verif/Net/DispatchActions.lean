import Verif.Net.ActionHistory

/-!
# Execution of client actions on the server (C27)

Models `dispatch_actions`, `src/edyn/networking/sys/server_side.cpp` 562-596, together with the
merging of received histories (`Verif.Net.ActionHistory`).

Simplifications: as in `Verif.Net.ActionHistory`; `import_action` is recorded in a log instead of
changing the registry; clients are not destroyed while entities own them (otherwise
`client_view.get` is undefined); the order in which the view visits entities is arbitrary and
may differ from call to call.
-/

set_option linter.unusedSectionVars false

namespace Edyn.Net.DispatchActions

open Edyn.Net.ActionHistory

variable {T : Type*} [AddCommGroup T] [LinearOrder T] [IsOrderedAddMonoid T] {D : Type*}

/-- The fields of `remote_client` that are used: `playout_delay` and
`last_executed_history_entry_timestamp` (`remote_client.hpp` 32, 50; initially zero). -/
structure Client (T : Type*) [Zero T] where
  delay : T
  lastExec : T := 0

/-- The inner loop, `server_side.cpp` 573-589.  `lastExec` is the member, which does not change
during the loop, `last` the local variable `last_timestamp`.  Returns the executed entries, the
entries that remain after the `erase` on line 594 and the final `last_timestamp`. -/
def scan (time delay lastExec : T) (last : T) :
    List (Entry T D) → List (Entry T D) × List (Entry T D) × T
  | [] => ([], [], last)
  | x :: xs =>
    if x.timestamp ≤ lastExec then scan time delay lastExec last xs
    else if x.timestamp > time - delay then ([], x :: xs, last)
    else
      let r := scan time delay lastExec x.timestamp xs
      (x :: r.1, r.2)

/-- An executed action: by which entity, at which time, with which delay. -/
structure Exec (T D : Type*) where
  entity : Nat
  entry : Entry T D
  time : T
  delay : T

/-- Server state: clients, histories of the entities, log of `import_action` calls.  `added` only
records what was ever merged into each history. -/
structure Srv (T D : Type*) [Zero T] where
  clients : Nat → Client T
  hist : Nat → History T D := fun _ => {}
  log : List (Exec T D) := []
  added : Nat → List (Entry T D) := fun _ => []

/-- The body of the loop over the entities, `server_side.cpp` 568-594. -/
def dispatchEntity (owner : Nat → Nat) (time : T) (s : Srv T D) (e : Nat) : Srv T D :=
  if (s.hist e).entries.isEmpty then s
  else
    let c := s.clients (owner e)
    let r := scan time c.delay c.lastExec c.lastExec (s.hist e).entries
    { s with
      clients := Function.update s.clients (owner e) { c with lastExec := r.2.2 }
      hist := Function.update s.hist e { (s.hist e) with entries := r.2.1 }
      log := s.log ++ r.1.map fun x => ⟨e, x, time, c.delay⟩ }

/-- `dispatch_actions`, `server_side.cpp` 562-596, for the order in which the view yields the
entities. -/
def dispatch (owner : Nat → Nat) (time : T) (s : Srv T D) (view : List Nat) : Srv T D :=
  view.foldl (dispatchEntity owner time) s

/-- The executions of the server: playout delays change, histories are merged, actions are
dispatched.  `owner` says which client owns each entity. -/
inductive Reach (owner : Nat → Nat) : Srv T D → Prop
  | init (delays : Nat → T) : Reach owner { clients := fun c => { delay := delays c } }
  | setDelay {s : Srv T D} (c : Nat) (d : T) (hs : Reach owner s) :
      Reach owner
        { s with clients := Function.update s.clients c { s.clients c with delay := d } }
  /-- A history for entity `e` arrived and was sorted. -/
  | merge {s : Srv T D} (e : Nat) (o : List (Entry T D)) {h' : History T D} (hs : Reach owner s)
      (ho : o.Pairwise fun a b => a.timestamp ≤ b.timestamp)
      (hm : ActionHistory.merge (s.hist e) o = some h') :
      Reach owner
        { s with
          hist := Function.update s.hist e h'
          added := Function.update s.added e
            (s.added e ++ h'.entries.drop (s.hist e).entries.length) }
  | dispatch {s : Srv T D} (time : T) (view : List Nat) (hs : Reach owner s)
      (hv : view.Nodup) (hall : ∀ e, (s.hist e).entries ≠ [] → e ∈ view) :
      Reach owner (dispatch owner time s view)

/-! ## Specification -/

/-- The actions of entity `e` executed so far, in order. -/
def executed (s : Srv T D) (e : Nat) : List (Entry T D) :=
  (s.log.filter fun x => x.entity == e).map (·.entry)

/-- **C27 as stated**: what was executed for an entity and what is still waiting is what was
added to its history, in order; nothing is executed early; after a dispatch nothing due waits. -/
def ExecutedExactlyOnce (T D : Type*) [AddCommGroup T] [LinearOrder T] (owner : Nat → Nat) : Prop :=
  ∀ s : Srv T D, Reach owner s →
    (∀ e, executed s e ++ (s.hist e).entries = s.added e) ∧
    (∀ x ∈ s.log, x.entry.timestamp + x.delay ≤ x.time) ∧
    (∀ (time : T) (view : List Nat), view.Nodup →
      (∀ e, (s.hist e).entries ≠ [] → e ∈ view) →
      ∀ e, ∀ x ∈ ((dispatch owner time s view).hist e).entries,
        time < x.timestamp + (s.clients (owner e)).delay)

/-! ## Lemmas -/

theorem scan_spec {time delay lastExec last : T} {l : List (Entry T D)}
    (hs : TSorted l) (hgt : ∀ x ∈ l, lastExec < x.timestamp) :
    let r := scan time delay lastExec last l
    r.1 ++ r.2.1 = l ∧ (∀ x ∈ r.1, x.timestamp + delay ≤ time) ∧
    (∀ x ∈ r.2.1, time < x.timestamp + delay) ∧
    r.2.2 = ((r.1.getLast?).map (·.timestamp)).getD last := by
  induction l generalizing last with
  | nil => simp [scan]
  | cons x xs ih =>
    have hs' := hs
    unfold TSorted at hs'
    rw [List.pairwise_cons] at hs'
    have h1 : ¬ x.timestamp ≤ lastExec := not_le.2 (hgt x (by simp))
    unfold scan
    rw [if_neg h1]
    split
    · rename_i h2
      have hx : time < x.timestamp + delay := sub_lt_iff_lt_add.1 h2
      refine ⟨rfl, by simp, ?_, rfl⟩
      intro y hy
      rcases List.mem_cons.1 hy with rfl | hy
      · exact hx
      · exact lt_of_lt_of_le hx (add_le_add_left (hs'.1 y hy) delay)
    · rename_i h2
      obtain ⟨i1, i2, i3, i4⟩ := ih (last := x.timestamp) hs'.2
        (fun y hy => hgt y (List.mem_cons_of_mem _ hy))
      refine ⟨by simp [i1], ?_, i3, ?_⟩
      · intro y hy
        rcases List.mem_cons.1 hy with rfl | hy
        · exact le_sub_iff_add_le.1 (not_lt.1 h2)
        · exact i2 y hy
      · simp only [i4, List.getLast?_cons]
        cases (scan time delay lastExec x.timestamp xs).1.getLast? <;> rfl

/-- What is known about an entity whose owner owns nothing else. -/
structure EntInv (owner : Nat → Nat) (s : Srv T D) (e : Nat) : Prop where
  exact : executed s e ++ (s.hist e).entries = s.added e
  sorted : TSorted (s.hist e).entries
  lastOk : ∀ x ∈ (s.hist e).entries.getLast?, x.timestamp = (s.hist e).last
  fresh : ∀ x ∈ (s.hist e).entries, (s.clients (owner e)).lastExec < x.timestamp
  execLe : (s.clients (owner e)).lastExec ≤ (s.hist e).last

theorem le_last {h : History T D} (hs : TSorted h.entries)
    (hl : ∀ x ∈ h.entries.getLast?, x.timestamp = h.last) :
    ∀ x ∈ h.entries, x.timestamp ≤ h.last := by
  intro x hx
  have hne : h.entries ≠ [] := List.ne_nil_of_mem hx
  have h1 := hl (h.entries.getLast hne) (by rw [List.getLast?_eq_some_getLast hne]; rfl)
  rw [← h1]
  rw [← List.dropLast_append_getLast hne] at hx
  unfold TSorted at hs
  rw [← List.dropLast_append_getLast hne, List.pairwise_append] at hs
  rcases List.mem_append.1 hx with hx | hx
  · exact hs.2.2 x hx _ (by simp)
  · rw [List.mem_singleton.1 hx]

theorem executed_append (s : Srv T D) (l : List (Exec T D)) (e : Nat)
    (cl : Nat → Client T) (hi : Nat → History T D) (ad : Nat → List (Entry T D)) :
    executed ⟨cl, hi, s.log ++ l, ad⟩ e =
      executed s e ++ (l.filter fun x => x.entity == e).map (·.entry) := by
  simp [executed]

theorem dispatchEntity_other {owner : Nat → Nat} (hinj : Function.Injective owner) {time : T}
    {s : Srv T D} {e f : Nat} (hne : e ≠ f) :
    (dispatchEntity owner time s f).hist e = s.hist e ∧
    (dispatchEntity owner time s f).clients (owner e) = s.clients (owner e) ∧
    (dispatchEntity owner time s f).added e = s.added e ∧
    executed (dispatchEntity owner time s f) e = executed s e := by
  unfold dispatchEntity
  split
  · exact ⟨rfl, rfl, rfl, rfl⟩
  · have ho : owner e ≠ owner f := fun h => hne (hinj h)
    refine ⟨Function.update_of_ne hne _ _, Function.update_of_ne ho _ _, rfl, ?_⟩
    rw [executed_append]
    have : (List.map (fun x => (⟨f, x, time, (s.clients (owner f)).delay⟩ : Exec T D))
        (scan time (s.clients (owner f)).delay (s.clients (owner f)).lastExec
          (s.clients (owner f)).lastExec (s.hist f).entries).1).filter
        (fun x => x.entity == e) = [] := by
      rw [List.filter_eq_nil_iff]
      intro x hx
      obtain ⟨y, _, rfl⟩ := List.mem_map.1 hx
      simpa using fun h => hne h.symm
    rw [this]
    simp

theorem EntInv.congr {owner : Nat → Nat} {s s' : Srv T D} {e : Nat} (h : EntInv owner s e)
    (h1 : s'.hist e = s.hist e) (h2 : (s'.clients (owner e)).lastExec =
      (s.clients (owner e)).lastExec) (h3 : s'.added e = s.added e)
    (h4 : executed s' e = executed s e) : EntInv owner s' e := by
  refine ⟨by rw [h4, h1, h3]; exact h.exact, by rw [h1]; exact h.sorted,
    by rw [h1]; exact h.lastOk, by rw [h1, h2]; exact h.fresh, by rw [h1, h2]; exact h.execLe⟩

theorem dispatchEntity_same {owner : Nat → Nat} {time : T} {s : Srv T D} {e : Nat}
    (h : EntInv owner s e) :
    EntInv owner (dispatchEntity owner time s e) e ∧
    (∀ x ∈ ((dispatchEntity owner time s e).hist e).entries,
      time < x.timestamp + (s.clients (owner e)).delay) ∧
    (dispatchEntity owner time s e).log = s.log ++
      (scan time (s.clients (owner e)).delay (s.clients (owner e)).lastExec
        (s.clients (owner e)).lastExec (s.hist e).entries).1.map
        (fun x => ⟨e, x, time, (s.clients (owner e)).delay⟩) := by
  by_cases hn : (s.hist e).entries.isEmpty
  · have : dispatchEntity owner time s e = s := by unfold dispatchEntity; rw [if_pos hn]
    rw [this]
    have hn' := List.isEmpty_iff.1 hn
    refine ⟨h, ?_, ?_⟩
    · rw [hn']; simp
    · rw [hn']; simp [scan]
  · obtain ⟨r1, r2, r3, r4⟩ := scan_spec (time := time)
      (delay := (s.clients (owner e)).delay)
      (last := (s.clients (owner e)).lastExec) h.sorted h.fresh
    set r := scan time (s.clients (owner e)).delay (s.clients (owner e)).lastExec
      (s.clients (owner e)).lastExec (s.hist e).entries with hr
    have hd : dispatchEntity owner time s e =
        { s with
          clients := Function.update s.clients (owner e)
            { s.clients (owner e) with lastExec := r.2.2 }
          hist := Function.update s.hist e { (s.hist e) with entries := r.2.1 }
          log := s.log ++ r.1.map fun x => ⟨e, x, time, (s.clients (owner e)).delay⟩ } := by
      unfold dispatchEntity
      rw [if_neg hn]
    have hh : (dispatchEntity owner time s e).hist e =
        { (s.hist e) with entries := r.2.1 } := by rw [hd]; simp
    have hc : ((dispatchEntity owner time s e).clients (owner e)).lastExec = r.2.2 := by
      rw [hd]; simp
    have hsplit : TSorted (r.1 ++ r.2.1) := by rw [r1]; exact h.sorted
    unfold TSorted at hsplit
    rw [List.pairwise_append] at hsplit
    have hle := le_last h.sorted h.lastOk
    -- the new executed timestamp is below the rest and not above the last one
    have hlast : r.2.2 = (s.clients (owner e)).lastExec ∨ ∃ y ∈ r.1, r.2.2 = y.timestamp ∧
        ∀ z ∈ r.1, z.timestamp ≤ y.timestamp := by
      rcases List.eq_nil_or_concat r.1 with h0 | ⟨l, y, h0⟩
      · left
        rw [r4, h0]
        rfl
      · right
        refine ⟨y, by rw [h0]; simp, by rw [r4, h0]; simp, ?_⟩
        intro z hz
        have hp := hsplit.1
        rw [h0, List.concat_eq_append] at hz hp
        rw [List.pairwise_append] at hp
        rcases List.mem_append.1 hz with hz | hz
        · exact hp.2.2 z hz y (by simp)
        · rw [List.mem_singleton.1 hz]
    refine ⟨⟨?_, ?_, ?_, ?_, ?_⟩, ?_, by rw [hd]⟩
    · have hadd : (dispatchEntity owner time s e).added = s.added := by rw [hd]
      rw [hh, hadd, hd, executed_append]
      have : (r.1.map (fun x => (⟨e, x, time, (s.clients (owner e)).delay⟩ : Exec T D))).filter
          (fun x => x.entity == e) =
          r.1.map (fun x => (⟨e, x, time, (s.clients (owner e)).delay⟩ : Exec T D)) := by
        rw [List.filter_eq_self]
        intro x hx
        obtain ⟨y, _, rfl⟩ := List.mem_map.1 hx
        simp
      rw [this, List.map_map, List.append_assoc]
      have hid : r.1.map ((fun x : Exec T D => x.entry) ∘
          fun x => (⟨e, x, time, (s.clients (owner e)).delay⟩ : Exec T D)) = r.1 := by
        rw [show ((fun x : Exec T D => x.entry) ∘
          fun x => (⟨e, x, time, (s.clients (owner e)).delay⟩ : Exec T D)) = id from rfl,
          List.map_id]
      rw [hid]
      simp only [r1]
      exact h.exact
    · rw [hh]; exact hsplit.2.1
    · rw [hh]
      intro x hx
      refine h.lastOk x ?_
      rw [← r1, List.getLast?_append]
      simp only [Option.mem_def] at hx ⊢
      rw [hx]
      rfl
    · rw [hh, hc]
      intro x hx
      rcases hlast with h1 | ⟨y, hy, h1, _⟩
      · rw [h1]
        exact h.fresh x (by rw [← r1]; exact List.mem_append_right _ hx)
      · rw [h1]
        -- executed entries are due and the rest is not
        have h2 := r2 y hy
        have h3 := r3 x hx
        exact lt_of_add_lt_add_right (lt_of_le_of_lt h2 h3)
    · rw [hh, hc]
      rcases hlast with h1 | ⟨y, hy, h1, _⟩
      · rw [h1]; exact h.execLe
      · rw [h1]
        exact hle y (by rw [← r1]; exact List.mem_append_left _ hy)
    · rw [hh]; exact r3

theorem dispatch_inv {owner : Nat → Nat} (hinj : Function.Injective owner) {time : T}
    {view : List Nat} {s : Srv T D} (hs : ∀ e, EntInv owner s e) :
    (∀ e, EntInv owner (dispatch owner time s view) e) ∧
    (∀ e, ((dispatch owner time s view).clients (owner e)).delay =
      (s.clients (owner e)).delay) ∧
    (∀ e ∈ view, ∀ x ∈ ((dispatch owner time s view).hist e).entries,
      time < x.timestamp + (s.clients (owner e)).delay) ∧
    (∀ e, e ∉ view → (dispatch owner time s view).hist e = s.hist e) ∧
    ((∀ x ∈ s.log, x.entry.timestamp + x.delay ≤ x.time) →
      ∀ x ∈ (dispatch owner time s view).log, x.entry.timestamp + x.delay ≤ x.time) := by
  induction view generalizing s with
  | nil => exact ⟨hs, fun _ => rfl, by simp, fun _ _ => rfl, fun h => h⟩
  | cons f fs ih =>
    have hstep : ∀ e, EntInv owner (dispatchEntity owner time s f) e := by
      intro e
      by_cases hef : e = f
      · subst hef
        exact (dispatchEntity_same (hs e)).1
      · obtain ⟨o1, o2, o3, o4⟩ := dispatchEntity_other hinj (time := time) (s := s) hef
        exact (hs e).congr o1 (by rw [o2]) o3 o4
    obtain ⟨i1, i2, i3, i4, i5⟩ := ih hstep
    have hdelay : ∀ e, ((dispatchEntity owner time s f).clients (owner e)).delay =
        (s.clients (owner e)).delay := by
      intro e
      by_cases hef : e = f
      · subst hef
        unfold dispatchEntity
        split <;> simp
      · rw [(dispatchEntity_other hinj (time := time) (s := s) hef).2.1]
    refine ⟨i1, fun e => (i2 e).trans (hdelay e), ?_, ?_, ?_⟩
    · intro e he x hx
      rcases List.mem_cons.1 he with rfl | he
      · by_cases hef : e ∈ fs
        · have := i3 e hef x hx
          rwa [hdelay] at this
        · have h1 : (dispatch owner time (dispatchEntity owner time s e) fs).hist e =
              (dispatchEntity owner time s e).hist e := i4 e hef
          have hx' : x ∈ ((dispatchEntity owner time s e).hist e).entries := by
            rw [← h1]; exact hx
          exact (dispatchEntity_same (hs e)).2.1 x hx'
      · have := i3 e he x hx
        rwa [hdelay] at this
    · intro e he
      have h1 : e ≠ f := fun h => he (by simp [h])
      have h2 : e ∉ fs := fun h => he (List.mem_cons_of_mem _ h)
      exact (i4 e h2).trans (dispatchEntity_other hinj (time := time) (s := s) h1).1
    · intro hlog
      refine i5 ?_
      intro x hx
      rw [(dispatchEntity_same (time := time) (hs f)).2.2, List.mem_append, List.mem_map] at hx
      rcases hx with hx | ⟨y, hy, rfl⟩
      · exact hlog x hx
      · exact (scan_spec (hs f).sorted (hs f).fresh).2.1 y hy

theorem reach_inv {owner : Nat → Nat} (hinj : Function.Injective owner) {s : Srv T D}
    (h : Reach owner s) :
    (∀ e, EntInv owner s e) ∧ ∀ x ∈ s.log, x.entry.timestamp + x.delay ≤ x.time := by
  induction h with
  | init delays =>
    refine ⟨fun e => ⟨rfl, List.Pairwise.nil, by simp, by simp, le_refl _⟩, by simp⟩
  | @setDelay s c d _ ih =>
    refine ⟨fun e => (ih.1 e).congr rfl ?_ rfl rfl, ih.2⟩
    by_cases hc : owner e = c
    · simp [hc]
    · simp [Function.update_of_ne hc]
  | @merge s e o h' _ ho hm ih =>
    refine ⟨fun f => ?_, ih.2⟩
    by_cases hf : f = e
    · subst hf
      have he := ih.1 f
      obtain ⟨m1, m2, m3, m4, _⟩ := merge_spec hm ho he.lastOk
      have hle := le_last he.sorted he.lastOk
      refine ⟨?_, ?_, ?_, ?_, ?_⟩
      · simp only [Function.update_self, m1, List.drop_left]
        rw [← List.append_assoc]
        congr 1
        exact he.exact
      · simp only [Function.update_self, m1]
        unfold TSorted
        rw [List.pairwise_append]
        refine ⟨he.sorted, ho.filter _, ?_⟩
        intro a ha b hb
        have := (List.mem_filter.1 hb).2
        simp only [gt_iff_lt, decide_eq_true_eq] at this
        exact le_trans (hle a ha) this.le
      · simp only [Function.update_self]
        exact m4
      · simp only [Function.update_self, m1]
        intro x hx
        rcases List.mem_append.1 hx with hx | hx
        · exact he.fresh x hx
        · have := (List.mem_filter.1 hx).2
          simp only [gt_iff_lt, decide_eq_true_eq] at this
          exact lt_of_le_of_lt he.execLe this
      · simp only [Function.update_self]
        exact le_trans he.execLe m2
    · exact (ih.1 f).congr (Function.update_of_ne hf _ _) rfl (Function.update_of_ne hf _ _) rfl
  | @dispatch s time view _ hv hall ih =>
    obtain ⟨d1, _, _, _, d5⟩ := dispatch_inv hinj (time := time) (view := view) ih.1
    exact ⟨d1, d5 ih.2⟩

/-! ## C27 -/

/-- **C27, partial: one entity per client.** If no client owns two entities, every action merged
into an entity's history is executed exactly once, in order, not before its timestamp plus the
playout delay, and at the first dispatch at which it is due.  What is missing: clients that own
several entities, for which the statement is false (`two_entities_lose_action`). -/
theorem actions_executed_once_partial (owner : Nat → Nat) (hinj : Function.Injective owner) :
    ExecutedExactlyOnce T D owner := by
  intro s h
  obtain ⟨h1, h2⟩ := reach_inv hinj h
  refine ⟨fun e => (h1 e).exact, h2, ?_⟩
  intro time view hv hall e x hx
  obtain ⟨_, _, d3, d4, _⟩ := dispatch_inv hinj (time := time) (view := view) h1
  by_cases he : e ∈ view
  · exact d3 e he x hx
  · rw [d4 e he] at hx
    exact absurd (hall e (List.ne_nil_of_mem hx)) he

/-- **C27 is false of the code**: when one client owns two entities, an action that is due can be
erased without having been executed, because the client has a single last executed timestamp. -/
theorem two_entities_lose_action : ¬ ExecutedExactlyOnce ℤ Nat (fun _ => 0) := by
  intro h
  have r0 : Reach (fun _ => 0) ({ clients := fun _ => { delay := 0 } } : Srv ℤ Nat) :=
    .init fun _ => 0
  have r1 := Reach.merge 1 [⟨10, 7⟩] (h' := ⟨[⟨10, 7⟩], 10⟩) r0 (by decide) rfl
  have r2 := Reach.merge 2 [⟨5, 8⟩] (h' := ⟨[⟨5, 8⟩], 5⟩) r1 (by decide) rfl
  have r3 := Reach.dispatch 20 [1, 2] r2 (by decide) (by
    intro e he
    by_contra hne
    apply he
    have h1 : e ≠ 1 := fun h => hne (by simp [h])
    have h2 : e ≠ 2 := fun h => hne (by simp [h])
    simp [Function.update_of_ne h1, Function.update_of_ne h2])
  have := (h _ r3).1 2
  revert this
  decide +kernel

/-- Non-vacuity: an execution with two clients in which two actions are executed. -/
example : ∃ s : Srv ℤ Nat, Reach id s ∧ (executed s 1).map (·.data) = [7, 8] ∧
    (executed s 2).map (·.data) = [] ∧ (s.hist 2).entries.length = 1 := by
  have r0 : Reach id ({ clients := fun _ => { delay := 3 } } : Srv ℤ Nat) := .init fun _ => 3
  have r1 := Reach.merge 1 [⟨5, 7⟩, ⟨5, 8⟩] (h' := ⟨[⟨5, 7⟩, ⟨5, 8⟩], 5⟩) r0 (by decide) rfl
  have r2 := Reach.merge 2 [⟨6, 9⟩] (h' := ⟨[⟨6, 9⟩], 6⟩) r1 (by decide) rfl
  have r3 := Reach.dispatch 8 [2, 1] r2 (by decide) (by
    intro e he
    by_contra hne
    apply he
    have h1 : e ≠ 1 := fun h => hne (by simp [h])
    have h2 : e ≠ 2 := fun h => hne (by simp [h])
    simp [Function.update_of_ne h1, Function.update_of_ne h2])
  exact ⟨_, r3, by decide +kernel, by decide +kernel, by decide +kernel⟩

end Edyn.Net.DispatchActions
