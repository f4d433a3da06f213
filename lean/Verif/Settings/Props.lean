import Verif.Settings.Model

/-!
# Settings reach the workers (C97)
-/

namespace Edyn.Cfg

variable {V K : Type}

/-! ## Specification -/

/-- The simulation worker once it has taken all messages that are on their way. -/
def World.settled (w : World V K) : Option (Worker V K) := w.worker.map fun p => p.2.foldl Worker.handle p.1

/-- The copies of the worker are those of the main registry, but for the default gravity and the role in the network. -/
structure Follows (w : World V K) (x : Worker V K) : Prop where
  settings : x.settings = { w.settings with gravity := x.settings.gravity, net := x.settings.net }
  paused : x.paused = w.settings.paused
  table : x.table = w.table
  ops : x.ops = w.ops
  results : x.results = x.settings.net.isClient

/-- The calls of init callbacks that a history asks for: one for each one that is set and is not the present one. -/
def initCalls : Option ℕ → List (Op V K) → List ℕ
  | _, [] => []
  | _, .set (.init none) :: os => initCalls none os
  | cur, .set (.init (some f)) :: os => (if cur = some f then [] else [f]) ++ initCalls (some f) os
  | cur, _ :: os => initCalls cur os

/-- Calls that change settings without telling the workers. -/
def Op.quiet : Op V K → Prop
  | .gravity _ | .initServer | .deinitServer => True
  | _ => False

/-- Calls that end in `refresh_settings`. -/
def Op.refreshes : Op V K → Prop
  | .set _ | .register _ _ | .unregister | .packet .. | .initClient => True
  | _ => False

/-! ## Proofs -/

theorem settled_toWorker (w : World V K) (m : Msg V K) : (w.toWorker m).settled = w.settled.map fun x => x.handle m := by
  unfold World.settled World.toWorker
  cases w.worker with
  | none => rfl
  | some p => simp [List.foldl_append]

theorem settled_toExtra (w : World V K) (m : Msg V K) : (w.toExtra m).settled = w.settled := rfl

theorem settled_refresh (w : World V K) : w.refresh.settled = w.settled.map fun x => x.handle (.settings w.settings) := by
  unfold World.refresh
  rw [settled_toExtra, settled_toWorker]

theorem settled_some {w : World V K} {x : Worker V K} (h : w.settled = some x) : w.worker.isSome := by
  unfold World.settled at h
  cases hw : w.worker with
  | none => rw [hw] at h; cases h
  | some => rfl

/-- Taking the present settings. -/
theorem follows_refresh {w w' : World V K} {x : Worker V K} (h : Follows w x) (ht : w'.table = w.table) (ho : w'.ops = w.ops)
    (hp : w'.settings.paused = w.settings.paused) : Follows w' (x.handle (.settings w'.settings)) :=
  ⟨rfl, by rw [hp]; exact h.paused, by rw [ht]; exact h.table, by rw [ho]; exact h.ops, rfl⟩

theorem initRun_self (f : Option ℕ) : initRun f f = [] := by cases f <;> simp [initRun]

theorem apply_paused {s s' : Settings V} {o : Setter V} (h : o.apply s = some s') : s'.paused = s.paused := by
  cases o <;> simp only [Setter.apply] at h
  case transient => split at h <;> cases h; rfl
  case callbacks => split at h <;> cases h; rfl
  all_goals cases h; rfl

theorem apply_init {s s' : Settings V} {o : Setter V} (h : o.apply s = some s') :
    s'.init = match o with | .init f => f | _ => s.init := by
  cases o <;> simp only [Setter.apply] at h
  case transient => split at h <;> cases h; rfl
  case callbacks => split at h <;> cases h; rfl
  all_goals cases h; rfl

theorem follows_init {w : World V K} {x : Worker V K} (h : Follows w x) : x.settings.init = w.settings.init := by rw [h.settings]

variable [LinearOrder V] [Zero V]

theorem unchanged {c c' : Client V} {o : ClientOp V} (h : o.apply c = some (c', false)) : c' = c := by
  cases o <;> simp only [ClientOp.apply] at h
  case rate v =>
    split at h <;> simp at h
    rw [← h.1, ← h.2]
  case roundTrip v =>
    split at h <;> simp at h
    rw [← h.1, ← h.2]
  case extrapolation v =>
    simp at h
    rw [← h.1, ← h.2]
  case toggle => simp at h
  case decay v =>
    split at h <;> simp at h
    rw [← h.1, ← h.2]

/-- One step. -/
theorem step_follows {d : Defaults V} {w w' : World V K} {o : Op V K} {x : Worker V K} (hx : w.settled = some x) (hf : Follows w x)
    (hs : step d w o = some w') : ∃ x', w'.settled = some x' ∧ Follows w' x' ∧ x'.inits = x.inits ++ initCalls w.settings.init [o] ∧
      (∀ os, initCalls w.settings.init (o :: os) = initCalls w.settings.init [o] ++ initCalls w'.settings.init os) ∧
      (¬ o.quiet → x.settings = w.settings → x'.settings = w'.settings) ∧ (o.refreshes → x'.settings = w'.settings) := by
  have hi := follows_init hf
  cases o with
  | set o =>
    simp only [step, Option.map_eq_some_iff] at hs
    obtain ⟨s, h1, rfl⟩ := hs
    have e : ({ w with settings := s } : World V K).settled = some x := hx
    have hin := apply_init h1
    refine ⟨x.handle (.settings s), by rw [settled_refresh, e]; rfl, follows_refresh (w' := World.refresh { w with settings := s }) hf rfl rfl (apply_paused h1),
      ?_, ?_, fun _ _ => rfl, fun _ => rfl⟩
    · change x.inits ++ initRun s.init x.settings.init = _
      rw [hi, hin]
      cases o <;> simp only [initCalls, initRun_self]
      rename_i f
      cases f <;> simp [initRun, initCalls, eq_comm]
    · intro os
      change _ = _ ++ initCalls s.init os
      rw [hin]
      cases o <;> simp only [initCalls, List.nil_append]
      rename_i f
      cases f <;> simp [initCalls]
  | client o =>
    simp only [step] at hs
    split at hs
    · rename_i c hc
      simp only [Option.map_eq_some_iff] at hs
      obtain ⟨⟨c', b⟩, h1, h2⟩ := hs
      cases b with
      | false =>
        simp only [Bool.false_eq_true, if_false] at h2
        have : w' = w := by
          rw [← h2, unchanged h1, ← hc]
        subst this
        exact ⟨x, hx, hf, by simp [initCalls], fun os => by simp [initCalls], fun _ h => h, fun h => h.elim⟩
      | true =>
        simp only [if_true] at h2
        subst h2
        have e : ({ w with settings := { w.settings with net := .client c' } } : World V K).settled = some x := hx
        refine ⟨x.handle (.settings { w.settings with net := .client c' }), by rw [settled_refresh, e]; rfl,
          follows_refresh (w' := World.refresh { w with settings := { w.settings with net := .client c' } }) hf rfl rfl rfl, ?_, fun os => rfl, fun _ _ => rfl, fun h => h.elim⟩
        change x.inits ++ initRun w.settings.init x.settings.init = _
        rw [hi, initRun_self]; rfl
    · cases hs
  | paused b =>
    simp only [step, Option.some.injEq] at hs
    rw [if_pos (settled_some hx)] at hs
    subst hs
    have e : ({ w with settings := { w.settings with paused := b } } : World V K).settled = some x := hx
    refine ⟨x.handle (.paused b), by rw [settled_toWorker, e]; rfl, ⟨?_, rfl, hf.table, hf.ops, hf.results⟩, by simp [Worker.handle, initCalls], fun os => rfl,
      fun _ h => ?_, fun h => h.elim⟩
    · change ({ x.settings with paused := b } : Settings V) = { w.settings with paused := b, gravity := x.settings.gravity, net := x.settings.net }
      have := hf.settings
      generalize x.settings = s at this ⊢
      rw [this]
    · change ({ x.settings with paused := b } : Settings V) = { w.settings with paused := b }
      rw [h]
  | gravity g =>
    simp only [step, Option.some.injEq] at hs
    subst hs
    exact ⟨x, hx, ⟨hf.settings, hf.paused, hf.table, hf.ops, hf.results⟩, by simp [initCalls], fun os => rfl, fun h => (h trivial).elim, fun h => h.elim⟩
  | table t =>
    simp only [step, Option.some.injEq] at hs
    subst hs
    have e : ({ w with table := t } : World V K).settled = some x := hx
    exact ⟨x.handle (.table t), by rw [settled_toExtra, settled_toWorker, e]; rfl, ⟨hf.settings, hf.paused, rfl, hf.ops, hf.results⟩, by simp [Worker.handle, initCalls],
      fun os => rfl, fun _ h => h, fun h => h.elim⟩
  | register f k =>
    simp only [step, Option.some.injEq] at hs
    have hp : ∀ s : Settings V, s.paused = w.settings.paused → s.init = w.settings.init →
        ((({ w with settings := s, ops := k } : World V K).refresh.toWorker (.ops k)).toExtra (.ops k)) = w' →
        ∃ x', w'.settled = some x' ∧ Follows w' x' ∧ x'.inits = x.inits ++ initCalls w.settings.init [(.register f k : Op V K)] ∧
      (∀ os : List (Op V K), initCalls w.settings.init (.register f k :: os) = initCalls w.settings.init [(.register f k : Op V K)] ++ initCalls w'.settings.init os) ∧
      (¬ (Op.register f k : Op V K).quiet → x.settings = w.settings → x'.settings = w'.settings) ∧
      ((Op.register f k : Op V K).refreshes → x'.settings = w'.settings) := by
      rintro s h1 h2 rfl
      have e : ({ w with settings := s, ops := k } : World V K).settled = some x := hx
      refine ⟨(x.handle (.settings s)).handle (.ops k), by rw [settled_toExtra, settled_toWorker, settled_refresh, e]; rfl,
        ⟨rfl, hf.paused.trans h1.symm, hf.table, rfl, rfl⟩, ?_, fun os => ?_, fun _ _ => rfl, fun _ => rfl⟩
      · change x.inits ++ initRun s.init x.settings.init = _
        rw [hi, h2, initRun_self]; rfl
      · change initCalls w.settings.init os = [] ++ initCalls s.init os
        rw [h2]; rfl
    exact hp _ (by cases f <;> rfl) (by cases f <;> rfl) hs
  | unregister =>
    simp only [step, Option.some.injEq] at hs
    subst hs
    have e : ({ w with settings := { w.settings with clear := none }, ops := 0 } : World V K).settled = some x := hx
    refine ⟨(x.handle (.settings { w.settings with clear := none })).handle (.ops 0), by rw [settled_toExtra, settled_toWorker, settled_refresh, e]; rfl,
        ⟨rfl, hf.paused, hf.table, rfl, rfl⟩, ?_, fun os => rfl, fun _ _ => rfl, fun _ => rfl⟩
    change x.inits ++ initRun w.settings.init x.settings.init = _
    rw [hi, initRun_self]; rfl
  | initClient =>
    simp only [step] at hs
    split at hs
    · cases hs
    · simp only [Option.some.injEq] at hs
      subst hs
      refine ⟨x.handle (.settings { w.settings with net := .client d.client }), ?_, ⟨rfl, hf.paused, hf.table, hf.ops, rfl⟩, ?_, fun os => rfl, fun _ _ => rfl, fun _ => rfl⟩
      · change (World.toWorker { w with settings := { w.settings with net := .client d.client } } _).settled = _
        have e : ({ w with settings := { w.settings with net := .client d.client } } : World V K).settled = some x := hx
        rw [settled_toWorker, e]; rfl
      · change x.inits ++ initRun w.settings.init x.settings.init = _
        rw [hi, initRun_self]; rfl
  | deinitClient =>
    simp only [step, Option.some.injEq] at hs
    subst hs
    exact ⟨x, hx, ⟨hf.settings, hf.paused, hf.table, hf.ops, hf.results⟩, by simp [initCalls], fun os => rfl, fun _ h => h, fun h => h.elim⟩
  | initServer =>
    simp only [step, Option.some.injEq] at hs
    subst hs
    exact ⟨x, hx, ⟨hf.settings, hf.paused, hf.table, hf.ops, hf.results⟩, by simp [initCalls], fun os => rfl, fun h => (h trivial).elim, fun h => h.elim⟩
  | deinitServer =>
    simp only [step, Option.some.injEq] at hs
    subst hs
    exact ⟨x, hx, ⟨hf.settings, hf.paused, hf.table, hf.ops, hf.results⟩, by simp [initCalls], fun os => rfl, fun h => (h trivial).elim, fun h => h.elim⟩
  | packet v g a b c e =>
    simp only [step] at hs
    split at hs
    · simp only [Option.some.injEq] at hs
      subst hs
      have e' : ({ w with settings := { w.settings with dt := v, gravity := g, velocity := a, position := b, restitution := c, individual := e } } : World V K).settled = some x := hx
      refine ⟨x.handle (.settings { w.settings with dt := v, gravity := g, velocity := a, position := b, restitution := c, individual := e }),
        by rw [settled_refresh, e']; rfl, ⟨rfl, hf.paused, hf.table, hf.ops, rfl⟩, ?_, fun os => rfl, fun _ _ => rfl, fun _ => rfl⟩
      change x.inits ++ initRun w.settings.init x.settings.init = _
      rw [hi, initRun_self]; rfl
    · cases hs
  | workerTakes =>
    simp only [step] at hs
    split at hs
    · rename_i y m q hw
      simp only [Option.some.injEq] at hs
      subst hs
      refine ⟨x, ?_, ⟨hf.settings, hf.paused, hf.table, hf.ops, hf.results⟩, by simp [initCalls], fun os => rfl, fun _ h => h, fun h => h.elim⟩
      unfold World.settled at hx ⊢
      rw [hw] at hx
      simpa using hx
    · simp only [Option.some.injEq] at hs
      subst hs
      exact ⟨x, hx, hf, by simp [initCalls], fun os => rfl, fun _ h => h, fun h => h.elim⟩
  | extraTakes =>
    simp only [step] at hs
    split at hs
    · simp only [Option.map_eq_some_iff] at hs
      obtain ⟨y, -, rfl⟩ := hs
      exact ⟨x, hx, ⟨hf.settings, hf.paused, hf.table, hf.ops, hf.results⟩, by simp [initCalls], fun os => rfl, fun _ h => h, fun h => h.elim⟩
    · simp only [Option.some.injEq] at hs
      subst hs
      exact ⟨x, hx, hf, by simp [initCalls], fun os => rfl, fun _ h => h, fun h => h.elim⟩

theorem run_follows {d : Defaults V} {os : List (Op V K)} {w w' : World V K} {x : Worker V K} (hx : w.settled = some x) (hf : Follows w x)
    (hr : run d w os = some w') : ∃ x', w'.settled = some x' ∧ Follows w' x' ∧ x'.inits = x.inits ++ initCalls w.settings.init os ∧
      ((∀ o ∈ os, ¬ o.quiet) → x.settings = w.settings → x'.settings = w'.settings) := by
  induction os generalizing w x with
  | nil =>
    simp only [run, Option.some.injEq] at hr
    subst hr
    exact ⟨x, hx, hf, by simp [initCalls], fun _ h => h⟩
  | cons o os ih =>
    simp only [run, Option.bind_eq_some_iff] at hr
    obtain ⟨w1, h1, h2⟩ := hr
    obtain ⟨x1, a1, a2, a3, a4, a5, -⟩ := step_follows hx hf h1
    obtain ⟨x', b1, b2, b3, b4⟩ := ih a1 a2 h2
    exact ⟨x', b1, b2, by rw [b3, a3, a4 os, List.append_assoc], fun hq he => b4 (fun o ho => hq o (List.mem_cons_of_mem _ ho)) (a5 (hq o List.mem_cons_self) he)⟩

/-- **C97, partial.** In asynchronous execution, whatever happened: once the simulation worker has taken the messages on their
way, its settings are those of the main registry, but for the default gravity and the role in the network, and it is paused
exactly if the simulation was paused last; its table of material pairs and its external components are the present ones; and it
has called the init callback once for each one that was set and was not the present one, and for nothing else.  Unless the
default gravity or a server were set up on the way, all settings are the same.  Missing: these. -/
theorem settings_partial {d : Defaults V} {dt : V} {tasks : ℕ × ℕ × ℕ} {t : K} {os : List (Op V K)} {w : World V K}
    (hr : run d (attach d .async dt tasks t) os = some w) : ∃ x, w.settled = some x ∧
      x.settings = { w.settings with gravity := x.settings.gravity, net := x.settings.net } ∧ x.paused = w.settings.paused ∧
      x.table = w.table ∧ x.ops = w.ops ∧ x.inits = initCalls none os ∧ ((∀ o ∈ os, ¬ o.quiet) → x.settings = w.settings) := by
  obtain ⟨x, h1, h2, h3, h4⟩ := run_follows (x := ⟨(attach d .async dt tasks t).settings, false, t, 0, false, []⟩) rfl ⟨rfl, rfl, rfl, rfl, rfl⟩ hr
  exact ⟨x, h1, h2.settings, h2.paused, h2.table, h2.ops, h3, fun hq => h4 hq rfl⟩

/-- Each call that ends in a refresh brings all settings over, those which were changed quietly before included. -/
theorem refresh_exact {d : Defaults V} {dt : V} {tasks : ℕ × ℕ × ℕ} {t : K} {os : List (Op V K)} {o : Op V K} {w : World V K}
    (ho : o.refreshes) (hr : run d (attach d .async dt tasks t) (os ++ [o]) = some w) : ∃ x, w.settled = some x ∧ x.settings = w.settings := by
  have split : ∀ (os : List (Op V K)) (w0 : World V K), run d w0 (os ++ [o]) = some w → ∃ w1, run d w0 os = some w1 ∧ step d w1 o = some w := by
    intro os
    induction os with
    | nil =>
      intro w0 h
      simp only [List.nil_append, run, Option.bind_eq_some_iff] at h
      obtain ⟨w1, h1, h2⟩ := h
      cases h2
      exact ⟨w0, rfl, h1⟩
    | cons a os ih =>
      intro w0 h
      simp only [List.cons_append, run, Option.bind_eq_some_iff] at h
      obtain ⟨w1, h1, h2⟩ := h
      obtain ⟨w2, h3, h4⟩ := ih w1 h2
      exact ⟨w2, by simp only [run, h1, Option.bind_some]; exact h3, h4⟩
  obtain ⟨w1, h1, h2⟩ := split os _ hr
  obtain ⟨x, e1, e2, -⟩ := run_follows (x := ⟨(attach d .async dt tasks t).settings, false, t, 0, false, []⟩) rfl ⟨rfl, rfl, rfl, rfl, rfl⟩ h1
  obtain ⟨x', f1, -, -, -, -, f2⟩ := step_follows e1 e2 h2
  exact ⟨x', f1, f2 ho⟩

/-- Nothing but `attach` gives or takes the part of the settings for asynchronous execution. -/
theorem step_async {d : Defaults V} {w w' : World V K} {o : Op V K} (hs : step d w o = some w') :
    w'.settings.async.isSome = w.settings.async.isSome ∧ w'.worker.isSome = w.worker.isSome := by
  cases o with
  | set o =>
    simp only [step, Option.map_eq_some_iff] at hs
    obtain ⟨s, h1, rfl⟩ := hs
    refine ⟨?_, by simp [World.refresh, World.toWorker, World.toExtra]⟩
    change s.async.isSome = _
    cases o <;> simp only [Setter.apply] at h1
    case transient => split at h1 <;> cases h1; simp [*]
    case callbacks => split at h1 <;> cases h1; rfl
    all_goals cases h1; rfl
  | client o =>
    simp only [step] at hs
    split at hs
    · simp only [Option.map_eq_some_iff] at hs
      obtain ⟨p, -, rfl⟩ := hs
      split <;> simp [World.refresh, World.toWorker, World.toExtra]
    · cases hs
  | paused b =>
    simp only [step, Option.some.injEq] at hs
    subst hs
    split <;> simp [World.toWorker]
  | register f k =>
    simp only [step, Option.some.injEq] at hs
    subst hs
    cases f <;> simp [World.refresh, World.toWorker, World.toExtra]
  | initClient =>
    simp only [step] at hs
    split at hs
    · cases hs
    · cases hs; simp [World.toWorker]
  | packet =>
    simp only [step] at hs
    split at hs
    · cases hs; simp [World.refresh, World.toWorker, World.toExtra]
    · cases hs
  | workerTakes =>
    simp only [step] at hs
    split at hs
    · rename_i h; cases hs; simp [h]
    · cases hs; simp
  | extraTakes =>
    simp only [step] at hs
    split at hs
    · simp only [Option.map_eq_some_iff] at hs
      obtain ⟨y, -, rfl⟩ := hs
      simp
    · cases hs; simp
  | _ =>
    simp only [step, Option.some.injEq] at hs
    subst hs
    simp [World.refresh, World.toWorker, World.toExtra]

theorem run_async {d : Defaults V} {os : List (Op V K)} {w w' : World V K} (hr : run d w os = some w') :
    w'.settings.async.isSome = w.settings.async.isSome ∧ w'.worker.isSome = w.worker.isSome := by
  induction os generalizing w with
  | nil => simp only [run, Option.some.injEq] at hr; subst hr; exact ⟨rfl, rfl⟩
  | cons o os ih =>
    simp only [run, Option.bind_eq_some_iff] at hr
    obtain ⟨w1, h1, h2⟩ := hr
    exact ⟨(ih h2).1.trans (step_async h1).1, (ih h2).2.trans (step_async h1).2⟩

/-- In asynchronous execution the worker can create contact points, whatever happened before. -/
theorem async_contacts {d : Defaults V} {dt : V} {tasks : ℕ × ℕ × ℕ} {t : K} {os : List (Op V K)} {w : World V K}
    (hr : run d (attach d .async dt tasks t) os = some w) : ∃ x, w.settled = some x ∧ (contactTransient x.settings).isSome ∧
      contactTransient x.settings = contactTransient w.settings := by
  obtain ⟨x, h1, h2, -⟩ := settings_partial hr
  have : contactTransient x.settings = contactTransient w.settings := by rw [h2]; rfl
  exact ⟨x, h1, by rw [this]; exact (run_async hr).1, this⟩

end Edyn.Cfg
