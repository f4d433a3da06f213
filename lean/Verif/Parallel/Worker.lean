/-!
# Workers: starting, running jobs, stopping (C21)

`worker` of `include/edyn/parallel/worker.hpp` with `job_queue` of `src/edyn/parallel/job_queue.cpp`
and the start/stop protocol and the job placement of `src/edyn/parallel/job_dispatcher.cpp`.

The queue's operations hold its mutex, so they are atomic steps; `pop` blocks while the queue is
empty (no step is possible; the condition variable is notified after every push and its predicate is
checked under the mutex).  `m_running` and `m_size` are sequentially consistent atomics.
-/

namespace Edyn.Parallel.Worker

/-- `job::noop()` or a job of the user. -/
inductive Job where
  | noop
  | user (n : Nat)
deriving DecidableEq

/-- The worker thread: created but `run` has not stored `m_running` yet; about to pop; with a popped
job to run; after the job, about to decrement `m_size`; about to read `m_running`; returned. -/
inductive PC where
  | created
  | popping
  | running (j : Job)
  | ran
  | checking
  | exited
deriving DecidableEq

/-- State of `worker`, worker.hpp 56-58, and its thread.  `size` is the mathematical value of
`m_size`; the program stores it modulo `2 ^ 64`.  Ghosts: `pushed` are the jobs passed to `push_job`
in the order they entered the queue, `executed` those run, `unsized` counts the pushes whose
increment of `m_size` is still to come, `stopping` tells whether `stop` has stored, `stopped` whether
it has finished, `late` whether `stop` stored before `run` did, `after` the number of jobs started
since the store of `stop`. -/
structure S where
  isRunning : Bool := false
  queue : List Job := []
  size : Int := 0
  pc : PC := .created
  pushed : List Nat := []
  executed : List Job := []
  unsized : Nat := 0
  stopping : Bool := false
  stopped : Bool := false
  late : Bool := false
  after : Nat := 0
deriving DecidableEq

inductive Op where
  /-- `push_job`, worker.hpp 15-16: the push. -/
  | push (n : Nat)
  /-- `push_job`, worker.hpp 17: `++m_size`. -/
  | count
  /-- `stop`, worker.hpp 43: `m_running = false`. -/
  | stopStore
  /-- `stop`, worker.hpp 44: `m_queue.push(job::noop())`. -/
  | stopPush
  /-- the worker thread's next step. -/
  | work
deriving DecidableEq

/-- The worker thread: `run`, worker.hpp 20-32.  `none` when it is blocked or has returned. -/
def work (s : S) : Option S :=
  match s.pc with
  | .created => some { s with isRunning := true, pc := .popping, late := s.stopping }
  | .popping =>
    match s.queue with
    | [] => none
    | j :: js => some { s with
        queue := js, pc := .running j, after := if s.stopping then s.after + 1 else s.after }
  | .running j => some { s with executed := s.executed ++ [j], pc := .ran }
  | .ran => some { s with size := s.size - 1, pc := .checking }
  | .checking => some { s with pc := if s.isRunning then .popping else .exited }
  | .exited => none

/-- One step of some thread.  `stop` is called once (job_dispatcher.cpp 34-45). -/
def step (s : S) : Op → Option S
  | .push n => some { s with
      queue := s.queue ++ [.user n], pushed := s.pushed ++ [n], unsized := s.unsized + 1 }
  | .count =>
    if s.unsized > 0 then some { s with size := s.size + 1, unsized := s.unsized - 1 } else none
  | .stopStore => if s.stopping then none else some { s with isRunning := false, stopping := true }
  | .stopPush =>
    if s.stopping && !s.stopped then
      some { s with queue := s.queue ++ [.noop], stopped := true }
    else none
  | .work => work s

inductive Reach : S → Prop
  | init : Reach {}
  | step {s s' : S} {op : Op} : Reach s → step s op = some s' → Reach s'

/-- Runs of a schedule. -/
def exec (s : S) : List Op → Option S
  | [] => some s
  | op :: ops => match step s op with
    | none => none
    | some s => exec s ops

theorem reach_exec {s s' : S} {ops : List Op} (h : Reach s) (he : exec s ops = some s') :
    Reach s' := by
  induction ops generalizing s with
  | nil => cases he; exact h
  | cons op ops ih =>
    unfold exec at he
    cases hs : step s op with
    | none => rw [hs] at he; cases he
    | some s1 => rw [hs] at he; exact ih (.step h hs) he

/-! ### Specification -/

/-- The jobs of the user among a list of jobs, in order. -/
def users : List Job → List Nat
  | [] => []
  | .noop :: js => users js
  | .user n :: js => n :: users js

/-- The job in hand. -/
def inHand : PC → List Job
  | .running j => [j]
  | _ => []

theorem users_append (a b : List Job) : users (a ++ b) = users a ++ users b := by
  induction a with
  | nil => rfl
  | cons x xs ih => cases x <;> simp [users, ih]

/-- 1 while the job just run is not subtracted from `m_size`. -/
def owed : PC → Nat
  | .running _ => 1
  | .ran => 1
  | _ => 0

/-- Number of no-ops of `stop` that were run and subtracted. -/
def noops (l : List Job) : Nat := l.countP fun j => decide (j = .noop)

theorem noops_append (a b : List Job) : noops (a ++ b) = noops a + noops b := by
  simp [noops]

structure Inv (s : S) : Prop where
  fifo : users s.executed ++ users (inHand s.pc) ++ users s.queue = s.pushed
  size : s.size + s.unsized + noops s.executed + noops (inHand s.pc) =
    (users s.queue).length + owed s.pc
  noopCount : noops s.executed + noops (inHand s.pc) + noops s.queue = if s.stopped then 1 else 0
  stoppedStopping : s.stopped = true → s.stopping = true
  created : s.pc = .created → s.executed = [] ∧ s.after = 0
  runFlag : s.stopping = true → s.late = false → s.isRunning = false
  lateFlag : s.late = true → s.stopping = true
  one : s.late = false → s.after ≤ 1 ∧ (s.after = 1 → s.pc ≠ .popping) ∧
    (s.stopping = false → s.after = 0)
  wake : s.late = false → s.stopped = true → s.pc = .popping → .noop ∈ s.queue

theorem step_inv {s s' : S} {op : Op} (h : Inv s) (hs : step s op = some s') : Inv s' := by
  obtain ⟨i1, i2, i3, i4, i5, i6, i7, i8, i9⟩ := h
  cases op with
  | push n =>
    simp only [step, Option.some.injEq] at hs
    subst hs
    refine ⟨?_, ?_, ?_, i4, i5, i6, i7, i8, ?_⟩
    · simp only [users_append, ← i1]; simp [users]
    · simp only [users_append, List.length_append, users, List.length_singleton] at i2 ⊢
      omega
    · simp only [noops_append]
      have : noops [Job.user n] = 0 := rfl
      omega
    · intro h1 h2 h3
      exact List.mem_append_left _ (i9 h1 h2 h3)
  | count =>
    simp only [step] at hs
    split at hs
    · cases hs
      exact ⟨i1, by simp only at i2 ⊢; omega, i3, i4, i5, i6, i7, i8, i9⟩
    · cases hs
  | stopStore =>
    simp only [step] at hs
    split at hs
    · cases hs
    · rename_i hns
      cases hs
      refine ⟨i1, i2, i3, fun _ => rfl, i5, fun _ _ => rfl, fun _ => rfl, ?_, ?_⟩
      · intro hl
        obtain ⟨h1, h2, h3⟩ := i8 hl
        refine ⟨h1, h2, fun h => by simp at h⟩
      · intro h1 h2
        exact absurd (i4 h2) hns
  | stopPush =>
    simp only [step] at hs
    split at hs
    · rename_i hc
      cases hs
      have hst : s.stopped = false := by
        simp only [Bool.and_eq_true, Bool.not_eq_true'] at hc; exact hc.2
      have hsp : s.stopping = true := by
        simp only [Bool.and_eq_true] at hc; exact hc.1
      rw [hst] at i3
      refine ⟨?_, ?_, ?_, fun _ => hsp, i5, i6, i7, i8, ?_⟩
      · simp only [users_append, ← i1]; simp [users]
      · simp only [users_append, List.length_append, users, List.length_nil] at i2 ⊢
        omega
      · simp only [noops_append]
        have : noops [Job.noop] = 1 := rfl
        simp at i3 ⊢
        omega
      · intro _ _ _; simp
    · cases hs
  | work =>
    simp only [step, work] at hs
    cases hpc : s.pc with
    | created =>
      rw [hpc] at hs i1 i2 i3
      simp only [Option.some.injEq] at hs
      subst hs
      obtain ⟨hex, haf⟩ := i5 hpc
      refine ⟨i1, i2, i3, i4, by simp, ?_, fun h => h, ?_, ?_⟩
      · intro h1 h2
        rw [h1] at h2
        cases h2
      · intro _
        simp [haf]
      · intro h1 h2
        simp only at h1 h2
        rw [i4 h2] at h1
        cases h1
    | popping =>
      rw [hpc] at hs i1 i2 i3
      simp only at hs
      cases hq : s.queue with
      | nil => rw [hq] at hs; cases hs
      | cons j js =>
        rw [hq] at hs i1 i2 i3
        cases hs
        refine ⟨?_, ?_, ?_, i4, by simp, i6, i7, ?_, by simp⟩
        · rw [← i1]
          cases j <;> simp [users, inHand]
        · cases j <;> simp [inHand, owed, users, noops, List.countP_cons] at i2 ⊢ <;> omega
        · simp only [inHand, noops] at i3 ⊢
          rw [List.countP_cons] at i3
          simp [List.countP_cons] at i3 ⊢
          omega
        · intro hl
          obtain ⟨h1, h2, h3⟩ := i8 hl
          have h0 : s.after = 0 := by
            have : s.after ≠ 1 := fun h => h2 h hpc
            omega
          simp only
          refine ⟨?_, by simp, ?_⟩
          · split <;> omega
          · intro h; rw [h]; simpa using h0
    | running j =>
      rw [hpc] at hs i1 i2 i3
      simp only [Option.some.injEq] at hs
      subst hs
      refine ⟨?_, ?_, ?_, i4, by simp, i6, i7, ?_, by simp⟩
      · rw [← i1]; simp [users_append, users, inHand]
      · simp only [noops_append, inHand, owed] at i2 ⊢
        have : noops ([] : List Job) = 0 := rfl
        omega
      · simp only [noops_append, inHand] at i3 ⊢
        have : noops ([] : List Job) = 0 := rfl
        omega
      · intro hl
        obtain ⟨h1, h2, h3⟩ := i8 hl
        exact ⟨h1, by simp, h3⟩
    | ran =>
      rw [hpc] at hs i1 i2 i3
      simp only [Option.some.injEq] at hs
      subst hs
      refine ⟨i1, ?_, i3, i4, by simp, i6, i7, ?_, by simp⟩
      · simp only [inHand, owed] at i2 ⊢
        omega
      · intro hl
        obtain ⟨h1, h2, h3⟩ := i8 hl
        exact ⟨h1, by simp, h3⟩
    | checking =>
      rw [hpc] at hs i1 i2 i3
      simp only [Option.some.injEq] at hs
      subst hs
      have hne : (if s.isRunning = true then PC.popping else PC.exited) ≠ .created := by
        split <;> simp
      have hin : inHand (if s.isRunning = true then PC.popping else PC.exited) = [] := by
        split <;> rfl
      have how : owed (if s.isRunning = true then PC.popping else PC.exited) = 0 := by
        split <;> rfl
      refine ⟨?_, ?_, ?_, i4, fun h => absurd h hne, i6, i7, ?_, ?_⟩
      · simp only [hin]; exact i1
      · simp only [hin, how]; exact i2
      · simp only [hin]; exact i3
      · intro hl
        obtain ⟨h1, h2, h3⟩ := i8 hl
        refine ⟨h1, ?_, h3⟩
        intro ha hp
        by_cases hst : s.stopping = true
        · rw [i6 hst hl] at hp
          simp at hp
        · have := h3 (by simpa using hst)
          simp only at ha
          omega
      · intro hl hst hp
        rw [i6 (i4 hst) hl] at hp
        simp at hp
    | exited => rw [hpc] at hs; cases hs

theorem reach_inv {s : S} (h : Reach s) : Inv s := by
  induction h with
  | init =>
    refine ⟨rfl, rfl, rfl, by simp, by simp, by simp, by simp, by simp, by simp⟩
  | step _ hs ih => exact step_inv ih hs

/-! ### C21 -/

/-- **C21, order.** The jobs run so far, then the one in hand, then those queued, are exactly the jobs
pushed, in the order they were pushed: no job is lost from the queue, run twice or overtaken. -/
theorem jobs_fifo {s : S} (h : Reach s) :
    users s.executed ++ users (inHand s.pc) ++ users s.queue = s.pushed :=
  (reach_inv h).fifo

/-- A worker that has neither returned nor is blocked. -/
def Blocked (s : S) : Prop := s.pc = .popping ∧ s.queue = []

/-- The full claim: once `stop` has finished, the worker can be driven to its end by its own steps,
and when it has returned every job pushed before `stop` was called has been run. -/
def FullStatement : Prop :=
  ∀ s, Reach s → s.stopped = true →
    ¬ Blocked s ∧ (s.pc = .exited → ∀ before, Reach before → before.stopping = false →
      ∀ ops, exec before ops = some s → ∀ n ∈ before.pushed, .user n ∈ s.executed)

/-- The worker's own steps that remain once `m_running` is false. -/
def remaining : PC → Nat
  | .created => 5
  | .popping => 4
  | .running _ => 3
  | .ran => 2
  | .checking => 1
  | .exited => 0

/-- **C21 (partial).** If `run` had begun when `stop` was called then, after `stop`, the worker never
blocks, starts at most one more job and returns after at most four further steps of its own.
Missing: a `stop` that comes before `run` begins, and the jobs still queued; both are refuted
below. -/
theorem stop_terminates_partial {s : S} (h : Reach s) (hlate : s.late = false)
    (hbegun : s.pc ≠ .created) (hstop : s.stopped = true) :
    ¬ Blocked s ∧ s.after ≤ 1 ∧
    (s.pc ≠ .exited → ∃ s', step s .work = some s' ∧ s'.late = false ∧ s'.pc ≠ .created ∧
      s'.stopped = true ∧ remaining s'.pc < remaining s.pc) := by
  have hi := reach_inv h
  have hrun : s.isRunning = false := hi.runFlag (hi.stoppedStopping hstop) hlate
  refine ⟨?_, (hi.one hlate).1, ?_⟩
  · rintro ⟨h1, h2⟩
    have := hi.wake hlate hstop h1
    rw [h2] at this
    cases this
  · intro hne
    simp only [step, work]
    cases hpc : s.pc with
    | created => exact absurd hpc hbegun
    | popping =>
      cases hq : s.queue with
      | nil =>
        have := hi.wake hlate hstop hpc
        rw [hq] at this
        cases this
      | cons j js => exact ⟨_, rfl, hlate, by simp, hstop, by simp [remaining]⟩
    | running j => exact ⟨_, rfl, hlate, by simp, hstop, by simp [remaining]⟩
    | ran => exact ⟨_, rfl, hlate, by simp, hstop, by simp [remaining]⟩
    | checking => exact ⟨_, rfl, hlate, by simp [hrun], hstop, by simp [hrun, remaining]⟩
    | exited => exact absurd hpc hne

/-- A worker is stopped while it runs its second job: it ends after that job. -/
example : ∃ s, Reach s ∧ s.late = false ∧ s.stopped = true ∧ s.pc = .exited ∧
    users s.executed = [7, 8] := by
  have hr : exec {} [.work, .push 7, .count, .work, .push 8, .count, .work, .work, .work, .work,
      .stopStore, .work, .stopPush, .work, .work] = some
      { isRunning := false, queue := [.noop], size := 0, pc := .exited, pushed := [7, 8],
        executed := [.user 7, .user 8], unsized := 0, stopping := true, stopped := true,
        late := false, after := 0 } := by decide +kernel
  exact ⟨_, reach_exec .init hr, rfl, rfl, rfl, rfl⟩

/-- **Finding.** If `stop` runs before the new thread enters `run`, the flag it cleared is set again:
the worker takes the no-op and then blocks for ever, and the `join` of `job_dispatcher::stop` never
returns. -/
theorem stop_before_run_blocks : ∃ s, Reach s ∧ s.stopped = true ∧ Blocked s ∧
    step s .work = none ∧ step s .stopStore = none ∧ step s .stopPush = none := by
  have hr : exec {} [.stopStore, .stopPush, .work, .work, .work, .work, .work] = some
      { isRunning := true, queue := [], size := -1, pc := .popping, pushed := [],
        executed := [.noop], unsized := 0, stopping := true, stopped := true,
        late := true, after := 1 } := by decide +kernel
  exact ⟨_, reach_exec .init hr, rfl, ⟨rfl, rfl⟩, rfl, rfl, rfl⟩

/-- **Finding.** The worker returns after the job at hand when it sees the cleared flag: jobs pushed
before `stop` was called stay in the queue and never run. -/
theorem stop_drops_queued_jobs : ∃ s, Reach s ∧ s.stopped = true ∧ s.late = false ∧
    s.pc = .exited ∧ s.pushed = [1, 2] ∧ users s.executed = [1] := by
  have hr : exec {} [.work, .push 1, .count, .push 2, .count, .stopStore, .stopPush, .work, .work,
      .work, .work] = some
      { isRunning := false, queue := [.user 2, .noop], size := 1, pc := .exited, pushed := [1, 2],
        executed := [.user 1], unsized := 0, stopping := true, stopped := true,
        late := false, after := 1 } := by decide +kernel
  exact ⟨_, reach_exec .init hr, rfl, rfl, rfl, rfl, rfl⟩

/-- The full claim is false of the code. -/
theorem full_statement_false : ¬ FullStatement := by
  intro h
  obtain ⟨s, hr, h1, h2, _⟩ := stop_before_run_blocks
  exact (h s hr h1).1 h2

/-- **C21, job count.** `m_size` is the number of jobs pushed and not finished, less the increments
still to come and less the no-op of `stop` once it was taken off the queue. -/
theorem size_exact {s : S} (h : Reach s) :
    s.size + s.unsized + noops s.executed + noops (inHand s.pc) =
      (users s.queue).length + owed s.pc := by
  exact (reach_inv h).size

/-- **Finding.** A job can run before its increment: the counter then passes below zero, so
`worker::size` reports the largest `size_t` for an idle worker. -/
theorem size_underflows : ∃ s, Reach s ∧ s.size = -1 ∧ s.queue = [] ∧ s.pc = .popping ∧
    s.stopping = false := by
  have hr : exec {} [.work, .push 1, .work, .work, .work, .work] = some
      { isRunning := true, queue := [], size := -1, pc := .popping, pushed := [1],
        executed := [.user 1], unsized := 1, stopping := false, stopped := false,
        late := false, after := 0 } := by decide +kernel
  exact ⟨_, reach_exec .init hr, rfl, rfl, rfl, rfl⟩

/-! ### Placement of a job: `job_dispatcher::async` -/

/-- `SIZE_MAX`. -/
def sizeMax : Nat := 2 ^ 64 - 1

/-- The loop of `async`, job_dispatcher.cpp 65-81: `sizes` are the values read from each worker in
turn, `i` runs over the next `fuel` positions.  Returns the position of the worker chosen, or `none`
when the assertion of line 83 fails. -/
def place (sizes : List Nat) (i : Nat) : Nat → Nat → Option Nat → Option Nat
  | 0, _, best => best
  | fuel + 1, minNum, best =>
    let k := i % sizes.length
    let s := sizes.getD k 0
    if s = 0 then some k
    else if s < minNum then place sizes (i + 1) fuel s (some k)
    else place sizes (i + 1) fuel minNum best

/-- `job_dispatcher::async`, job_dispatcher.cpp 51-86. -/
def async (sizes : List Nat) (counter : Nat) : Option Nat :=
  if sizes.length = 1 then some 0
  else place sizes (counter % sizes.length) sizes.length sizeMax none

theorem place_spec (sizes : List Nat) (hlt : ∀ s ∈ sizes, s < sizeMax) (hne : sizes ≠ []) :
    ∀ fuel i minNum best,
      (∀ k, best = some k → k < sizes.length ∧ sizes.getD k 0 = minNum) →
      (best = none → minNum = sizeMax ∧ 0 < fuel) →
      ∃ k, place sizes i fuel minNum best = some k ∧ k < sizes.length ∧
        sizes.getD k 0 ≤ minNum ∧
        ∀ j, i ≤ j → j < i + fuel → sizes.getD k 0 ≤ sizes.getD (j % sizes.length) 0 := by
  have hpos : 0 < sizes.length := List.length_pos_iff.2 hne
  intro fuel
  induction fuel with
  | zero =>
    intro i minNum best hb hn
    cases best with
    | none => exact absurd (hn rfl).2 (by omega)
    | some k =>
      obtain ⟨h1, h2⟩ := hb k rfl
      exact ⟨k, rfl, h1, by omega, fun j h3 h4 => by omega⟩
  | succ fuel ih =>
    intro i minNum best hb hn
    have hk : i % sizes.length < sizes.length := Nat.mod_lt _ hpos
    unfold place
    simp only
    split
    · rename_i h0
      exact ⟨_, rfl, hk, by omega, fun j _ _ => by omega⟩
    · rename_i h0
      split
      · rename_i hlt2
        obtain ⟨k, h1, h2, h3, h4⟩ := ih (i + 1) _ (some (i % sizes.length))
          (by intro k hk2; cases hk2; exact ⟨hk, rfl⟩) (by simp)
        refine ⟨k, h1, h2, by omega, ?_⟩
        intro j hj1 hj2
        by_cases hji : j = i
        · subst hji; exact h3
        · exact h4 j (by omega) (by omega)
      · rename_i hge
        cases hbest : best with
        | none =>
          exfalso
          have hm := (hn hbest).1
          have hmem : sizes.getD (i % sizes.length) 0 ∈ sizes := by
            rw [List.getD_eq_getElem?_getD, List.getElem?_eq_getElem hk]
            exact List.getElem_mem hk
          have := hlt _ hmem
          omega
        | some k0 =>
          rw [hbest] at hb
          obtain ⟨k, h1, h2, h3, h4⟩ := ih (i + 1) minNum (some k0) hb (by simp)
          refine ⟨k, h1, h2, h3, ?_⟩
          intro j hj1 hj2
          by_cases hji : j = i
          · subst hji; omega
          · exact h4 j (by omega) (by omega)

/-- **C21, placement.** With at least one worker and no worker reporting `SIZE_MAX` jobs, `async`
gives the job to exactly one worker, and no worker was seen with fewer jobs. -/
theorem async_least_busy (sizes : List Nat) (counter : Nat) (hne : sizes ≠ [])
    (hlt : ∀ s ∈ sizes, s < sizeMax) :
    ∃ k, async sizes counter = some k ∧ k < sizes.length ∧
      ∀ j, j < sizes.length → sizes.getD k 0 ≤ sizes.getD j 0 := by
  have hpos : 0 < sizes.length := List.length_pos_iff.2 hne
  unfold async
  split
  · rename_i h1
    refine ⟨0, rfl, by omega, ?_⟩
    intro j hj
    have : j = 0 := by omega
    subst this
    omega
  · obtain ⟨k, h1, h2, h3, h4⟩ := place_spec sizes hlt hne sizes.length
      (counter % sizes.length) sizeMax none (by simp) (fun _ => ⟨rfl, hpos⟩)
    refine ⟨k, h1, h2, ?_⟩
    intro j hj
    have hc : counter % sizes.length < sizes.length := Nat.mod_lt _ hpos
    generalize counter % sizes.length = st at hc h4
    by_cases hjs : st ≤ j
    · have := h4 j hjs (by omega)
      rwa [Nat.mod_eq_of_lt hj] at this
    · have := h4 (j + sizes.length) (by omega) (by omega)
      rwa [Nat.add_mod_right, Nat.mod_eq_of_lt hj] at this

example : async [3, 1, 2] 2 = some 1 ∧ async [3, 0, 0] 2 = some 2 := by decide +kernel

/-- **Finding.** When every worker's counter has just underflowed no worker is chosen and the
assertion fails. -/
theorem async_all_underflowed : async [sizeMax, sizeMax] 0 = none := by decide +kernel

end Edyn.Parallel.Worker
