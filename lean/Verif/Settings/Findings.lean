import Verif.Settings.Props
import Mathlib.Data.Rat.Defs
import Mathlib.Algebra.Order.Ring.Unbundled.Rat

/-!
# The extrapolation worker, sequential execution, and findings (C97)
-/

namespace Edyn.Cfg

variable {V K : Type}

/-! ## The extrapolation worker -/

/-- Whenever there is an extrapolation worker, the registry is a client, and the worker can take the messages on their way;
then its copies are those of the main registry, but for the default gravity and whether the simulation is paused. -/
def FollowsX (w : World V K) : Prop :=
  ∀ x q, w.extra = some (x, q) → w.settings.net.isClient = true ∧ ∃ y, q.foldlM Extra.handle x = some y ∧
    y.settings = { w.settings with gravity := y.settings.gravity, paused := y.settings.paused } ∧ y.table = w.table ∧ y.ops = w.ops

theorem push_some {x y : Extra V K} {q : List (Msg V K)} (h : q.foldlM Extra.handle x = some y) (m : Msg V K) :
    (q ++ [m]).foldlM Extra.handle x = y.handle m := by
  rw [List.foldlM_append, h]
  simp

theorem toExtra_some {w : World V K} {m : Msg V K} {x : Extra V K} {q : List (Msg V K)} (h : (w.toExtra m).extra = some (x, q)) :
    ∃ q0, w.extra = some (x, q0) ∧ q = q0 ++ [m] := by
  simp only [World.toExtra, Option.map_eq_some_iff] at h
  obtain ⟨⟨a, b⟩, h1, h2⟩ := h
  cases h2
  exact ⟨b, h1, rfl⟩

/-- Sending the present settings. -/
theorem followsX_refresh {w w' : World V K} (h : FollowsX w) (he : w'.extra = w.extra) (ht : w'.table = w.table) (ho : w'.ops = w.ops)
    (hc : w.settings.net.isClient = true → w'.settings.net.isClient = true) : FollowsX w'.refresh := by
  intro x q hx
  obtain ⟨q0, h1, rfl⟩ := toExtra_some (w := w'.toWorker (.settings w'.settings)) hx
  have h1' : w.extra = some (x, q0) := he ▸ h1
  obtain ⟨c, y, e1, e2, e3, e4⟩ := h x q0 h1'
  refine ⟨hc c, { y with settings := w'.settings, inits := y.inits ++ initRun w'.settings.net.init y.settings.net.init }, ?_, rfl, e3.trans ht.symm, e4.trans ho.symm⟩
  rw [push_some e1]
  have hy : y.settings.net.isClient = true := by rw [e2]; exact c
  simp only [Extra.handle]
  rw [if_pos ⟨hc c, hy⟩]

/-- Sending something else. -/
theorem followsX_ops {w : World V K} (h : FollowsX { w with ops := k0 }) (k : ℕ) (hk : w.ops = k) : FollowsX (w.toExtra (.ops k)) := by
  intro x q hx
  obtain ⟨q0, h1, rfl⟩ := toExtra_some hx
  obtain ⟨c, y, e1, e2, e3, e4⟩ := h x q0 h1
  exact ⟨c, { y with ops := k }, by rw [push_some e1]; rfl, e2, e3, hk.symm⟩

theorem apply_client {s s' : Settings V} {o : Setter V} (h : o.apply s = some s') (hc : s.net.isClient = true) : s'.net.isClient = true := by
  cases o <;> simp only [Setter.apply] at h
  case transient => split at h <;> cases h; exact hc
  case callbacks => split at h <;> cases h; rfl
  all_goals cases h; exact hc

/-- Setting up a server, or taking it down. -/
def Op.server : Op V K → Prop
  | .initServer | .deinitServer => True
  | _ => False

variable [LinearOrder V] [Zero V]

theorem step_followsX {d : Defaults V} {w w' : World V K} {o : Op V K} (h : FollowsX w) (hns : ¬ o.server) (hs : step d w o = some w') :
    FollowsX w' := by
  cases o with
  | set o =>
    simp only [step, Option.map_eq_some_iff] at hs
    obtain ⟨s, h1, rfl⟩ := hs
    exact followsX_refresh (w' := { w with settings := s }) h rfl rfl rfl (apply_client h1)
  | client o =>
    simp only [step] at hs
    split at hs
    · rename_i c hc
      simp only [Option.map_eq_some_iff] at hs
      obtain ⟨⟨c', b⟩, h1, h2⟩ := hs
      cases b with
      | false =>
        simp only [Bool.false_eq_true, if_false] at h2
        rw [← h2, unchanged h1, ← hc]
        exact h
      | true =>
        simp only [if_true] at h2
        subst h2
        exact followsX_refresh (w' := { w with settings := { w.settings with net := .client c' } }) h rfl rfl rfl fun _ => rfl
    · cases hs
  | paused b =>
    simp only [step, Option.some.injEq] at hs
    have key : ∀ (v : Option (Worker V K × List (Msg V K))) (b' : Bool),
        FollowsX { w with settings := { w.settings with paused := b }, worker := v, seqPaused := b' } := by
      intro v b' x q hx
      obtain ⟨c, y, e1, e2, e3, e4⟩ := h x q hx
      refine ⟨c, y, e1, ?_, e3, e4⟩
      generalize y.settings = s at e2 ⊢
      rw [e2]
    split at hs
    · subst hs; exact key _ _
    · subst hs; exact key _ _
  | gravity g =>
    simp only [step, Option.some.injEq] at hs
    subst hs
    intro x q hx
    obtain ⟨c, y, e1, e2, e3, e4⟩ := h x q hx
    refine ⟨c, y, e1, ?_, e3, e4⟩
    generalize y.settings = s at e2 ⊢
    rw [e2]
  | table t =>
    simp only [step, Option.some.injEq] at hs
    subst hs
    intro x q hx
    obtain ⟨q0, h1, rfl⟩ := toExtra_some hx
    obtain ⟨c, y, e1, e2, e3, e4⟩ := h x q0 h1
    exact ⟨c, { y with table := t }, by rw [push_some e1]; rfl, e2, rfl, e4⟩
  | register f k =>
    simp only [step, Option.some.injEq] at hs
    have hp : ∀ s : Settings V, s.net = w.settings.net →
        FollowsX ((({ w with settings := s, ops := k } : World V K).refresh.toWorker (.ops k)).toExtra (.ops k)) := by
      intro s hn
      refine followsX_ops (k0 := w.ops) (w := ({ w with settings := s, ops := k } : World V K).refresh.toWorker (.ops k)) ?_ k rfl
      exact followsX_refresh (w' := { w with settings := s }) h rfl rfl rfl fun hc => by rw [← hc, ← hn]
    subst hs
    exact hp _ (by cases f <;> rfl)
  | unregister =>
    simp only [step, Option.some.injEq] at hs
    subst hs
    refine followsX_ops (k0 := w.ops)
      (w := ({ w with settings := { w.settings with clear := none }, ops := 0 } : World V K).refresh.toWorker (.ops 0)) ?_ 0 rfl
    exact followsX_refresh (w' := { w with settings := { w.settings with clear := none } }) h rfl rfl rfl fun hc => hc
  | initClient =>
    simp only [step] at hs
    split at hs
    · cases hs
    · cases hs
      intro x q hx
      cases hx
      exact ⟨rfl, _, rfl, rfl, rfl, rfl⟩
  | deinitClient =>
    simp only [step, Option.some.injEq] at hs
    subst hs
    intro x q hx
    cases hx
  | initServer => exact absurd trivial hns
  | deinitServer => exact absurd trivial hns
  | packet v g a b c e =>
    simp only [step] at hs
    split at hs
    · cases hs
      exact followsX_refresh
        (w' := { w with settings := { w.settings with dt := v, gravity := g, velocity := a, position := b, restitution := c, individual := e } })
        h rfl rfl rfl fun hc => hc
    · cases hs
  | workerTakes =>
    simp only [step] at hs
    split at hs
    · cases hs; exact h
    · cases hs; exact h
  | extraTakes =>
    simp only [step] at hs
    split at hs
    · rename_i x m q hw
      simp only [Option.map_eq_some_iff] at hs
      obtain ⟨y, h1, rfl⟩ := hs
      intro x' q' hx
      cases hx
      obtain ⟨c, z, e1, e2⟩ := h x (m :: q) hw
      refine ⟨c, z, ?_, e2⟩
      rw [List.foldlM_cons, h1] at e1
      exact e1
    · cases hs; exact h

/-- The extrapolation worker follows as well, in every mode of execution, as long as no server is set up in the same registry; and
none of its messages fails. -/
theorem extrapolation_settings {d : Defaults V} {mode : Mode} {dt : V} {tasks : ℕ × ℕ × ℕ} {t : K} {os : List (Op V K)} {w : World V K}
    (hos : ∀ o ∈ os, ¬ o.server) (hr : run d (attach d mode dt tasks t) os = some w) : FollowsX w := by
  have : ∀ (os : List (Op V K)) (w0 : World V K), FollowsX w0 → (∀ o ∈ os, ¬ o.server) → run d w0 os = some w → FollowsX w := by
    intro os
    induction os with
    | nil => intro w0 h _ hr; simp only [run, Option.some.injEq] at hr; subst hr; exact h
    | cons o os ih =>
      intro w0 h hos hr
      simp only [run, Option.bind_eq_some_iff] at hr
      obtain ⟨w1, h1, h2⟩ := hr
      exact ih w1 (step_followsX h (hos o List.mem_cons_self) h1) (fun o ho => hos o (List.mem_cons_of_mem _ ho)) h2
  exact this os _ (fun x q hx => by cases hx) hos hr

/-! ## Sequential execution -/

/-- The stepper is paused exactly if the settings say so. -/
theorem sequential_paused {d : Defaults V} {mode : Mode} {dt : V} {tasks : ℕ × ℕ × ℕ} {t : K} {os : List (Op V K)} {w : World V K}
    (hm : mode ≠ .async) (hr : run d (attach d mode dt tasks t) os = some w) : w.worker = none ∧ w.seqPaused = w.settings.paused := by
  have step1 : ∀ (w0 w1 : World V K) (o : Op V K), w0.worker = none → w0.seqPaused = w0.settings.paused → step d w0 o = some w1 →
      w1.worker = none ∧ w1.seqPaused = w1.settings.paused := by
    intro w0 w1 o hn hp hs
    have hn1 : w1.worker = none := by
      have := (step_async hs).2
      rw [hn] at this
      simpa using this
    refine ⟨hn1, ?_⟩
    cases o with
    | set o =>
      simp only [step, Option.map_eq_some_iff] at hs
      obtain ⟨s, h1, rfl⟩ := hs
      exact hp.trans (apply_paused h1).symm
    | client o =>
      simp only [step] at hs
      split at hs
      · simp only [Option.map_eq_some_iff] at hs
        obtain ⟨p, -, rfl⟩ := hs
        split <;> exact hp
      · cases hs
    | paused b =>
      simp only [step, hn, Option.some.injEq] at hs
      subst hs
      rfl
    | register f k =>
      simp only [step, Option.some.injEq] at hs
      subst hs
      cases f <;> exact hp
    | initClient =>
      simp only [step] at hs
      split at hs
      · cases hs
      · cases hs; exact hp
    | packet =>
      simp only [step] at hs
      split at hs
      · cases hs; exact hp
      · cases hs
    | workerTakes =>
      simp only [step, hn, Option.some.injEq] at hs
      subst hs; exact hp
    | extraTakes =>
      simp only [step] at hs
      split at hs
      · simp only [Option.map_eq_some_iff] at hs
        obtain ⟨y, -, rfl⟩ := hs
        exact hp
      · cases hs; exact hp
    | _ =>
      simp only [step, Option.some.injEq] at hs
      subst hs
      exact hp
  have : ∀ (os : List (Op V K)) (w0 : World V K), w0.worker = none → w0.seqPaused = w0.settings.paused → run d w0 os = some w →
      w.worker = none ∧ w.seqPaused = w.settings.paused := by
    intro os
    induction os with
    | nil => intro w0 h1 h2 hr; simp only [run, Option.some.injEq] at hr; subst hr; exact ⟨h1, h2⟩
    | cons o os ih =>
      intro w0 h1 h2 hr
      simp only [run, Option.bind_eq_some_iff] at hr
      obtain ⟨w1, h3, h4⟩ := hr
      obtain ⟨h5, h6⟩ := step1 w0 w1 o h1 h2 h3
      exact ih w1 h5 h6 h4
  exact this os _ (by simp [attach, hm]) rfl hr

/-! ## Findings -/

/-- In sequential execution the narrowphase accesses an empty optional in every step, whatever the application does. -/
theorem sequential_contacts {d : Defaults V} {mode : Mode} {dt : V} {tasks : ℕ × ℕ × ℕ} {t : K} {os : List (Op V K)} {w : World V K}
    (hm : mode ≠ .async) (hr : run d (attach d mode dt tasks t) os = some w) : contactTransient w.settings = none := by
  have := (run_async hr).1
  simp only [attach, hm, if_false, Option.isSome_none] at this
  unfold contactTransient
  simpa using this

/-- The full claim: every change reaches the workers, and the narrowphase can use the settings in every mode of execution. -/
def SettingsFull (V K : Type) [LinearOrder V] [Zero V] : Prop :=
  ∀ (d : Defaults V) (mode : Mode) (dt : V) (tasks : ℕ × ℕ × ℕ) (t : K) (os : List (Op V K)) (w : World V K),
    run d (attach d mode dt tasks t) os = some w →
    (∀ x, w.settled = some x → x.settings = w.settings) ∧ (contactTransient w.settings).isSome

/-- Some defaults: gravity of the earth and a client with the values of `client_network_settings`. -/
def usual : Defaults ℚ := ⟨(0, -49 / 5, 0), ⟨20, 0, true, 6, 1, none, none, none, none, none, none⟩⟩

/-- After `set_gravity` the worker keeps the old default gravity, which new bodies made by its callbacks get, until some other
setting changes. -/
theorem gravity_stale :
    ((run usual (attach usual .async (1 / 60) (0, 0, 0) ()) [.gravity (0, 0, 0)]).bind World.settled).map (·.settings.gravity) = some (0, -49 / 5, 0) ∧
    ((run usual (attach usual .async (1 / 60) (0, 0, 0) ()) [.gravity (0, 0, 0), .set (.velocity 8)]).bind World.settled).map (·.settings.gravity) = some (0, 0, 0) := by
  decide +kernel

/-- A client that became a server: its worker still is the one of a client. -/
theorem role_stale :
    ((run usual (attach usual .async (1 / 60) (0, 0, 0) ()) [.initClient, .deinitClient, .initServer]).bind World.settled).map (·.results) = some true := by
  decide +kernel

/-- A client on which a server is set up as well: the next change of a setting fails in its extrapolation worker. -/
theorem both_roles_fail :
    (run usual (attach usual .async (1 / 60) (0, 0, 0) ()) [.initClient, .initServer, .set (.dt 1), .extraTakes]).isNone := by decide +kernel

theorem SettingsFull_false : ¬ SettingsFull ℚ Unit := by
  intro h
  have h1 := (h usual .sequential 1 (0, 0, 0) () [] _ rfl).2
  exact absurd h1 (by decide +kernel)

/-- A history of an asynchronous client. -/
def session : List (Op ℚ Unit) :=
  [.set (.init (some 4)), .workerTakes, .set (.dt (1 / 120)), .initClient, .paused true, .client (.rate 30), .set (.init (some 5)), .workerTakes,
    .set (.init (some 5)), .packet (1 / 30) (0, 0, 0) 10 4 8 3, .extraTakes, .client (.rate 30), .paused false, .set (.callbacks (some 1) none none none none none),
    .register (some 7) 2, .extraTakes, .workerTakes, .set (.transient [3, 5])]

/-- It meets the hypotheses of the theorems: it is defined, without quiet calls and servers, and the worker ends with everything. -/
example : (∀ o ∈ session, ¬ o.quiet ∧ ¬ o.server) ∧
    ((run usual (attach usual .async (1 / 60) (0, 0, 0) ()) session).bind World.settled).map
      (fun x => (x.settings.dt, x.settings.velocity, x.paused)) = some (1 / 30, 10, false) ∧
    ((run usual (attach usual .async (1 / 60) (0, 0, 0) ()) session).bind World.settled).map
      (fun x => (x.settings.async, x.ops, x.inits)) = some (some (some [3, 5]), 2, [4, 5]) := by
  refine ⟨by simp [session, Op.quiet, Op.server], by decide +kernel, by decide +kernel⟩

end Edyn.Cfg
