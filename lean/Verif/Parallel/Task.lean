import Mathlib.Data.List.Perm.Basic
import Mathlib.Data.List.Range
import Mathlib.Algebra.BigOperators.Group.List.Basic

/-!
# Parallel tasks (C19)

Models `src/edyn/context/task.cpp` as transition systems: `enqueue_task_wait_default` (blocking) and
`enqueue_task_default` (asynchronous).  Every step is one atomic operation, one critical section, or
the return of the user's task function, of one thread; the steps of all threads interleave freely
and a queued job may start at any time.

Simplifications: sequentially consistent memory (the code uses relaxed atomics, so visibility of the
*data written by the tasks* is not covered); `size_t` counters do not wrap around; all jobs count as
queued from the start (they are dispatched one by one); the job queue itself is the subject of C21.
-/

namespace Edyn.Parallel.Task

/-- The half open index ranges handed to the task. -/
abbrev Range := Nat × Nat

/-- The indices of a sequence of ranges, in order. -/
def indices (rs : List Range) : List Nat := rs.flatMap fun r => List.range' r.1 (r.2 - r.1)

/-- Replacement of one list element, seen as a decomposition. -/
theorem set_decomp {α : Type*} {l : List α} {i : Nat} {a : α} (h : l[i]? = some a) :
    ∃ pre post, l = pre ++ a :: post ∧ ∀ b, l.set i b = pre ++ b :: post := by
  induction l generalizing i with
  | nil => simp at h
  | cons x xs ih =>
    cases i with
    | zero =>
      simp only [List.getElem?_cons_zero, Option.some.injEq] at h
      subst h
      exact ⟨[], xs, rfl, fun b => rfl⟩
    | succ i =>
      simp only [List.getElem?_cons_succ] at h
      obtain ⟨pre, post, h1, h2⟩ := ih h
      exact ⟨x :: pre, post, by rw [h1]; rfl, fun b => by rw [List.set_cons_succ, h2]; rfl⟩

theorem indices_append (a b : List Range) : indices (a ++ b) = indices a ++ indices b :=
  List.flatMap_append

theorem indices_perm {a b : List Range} (h : a.Perm b) : (indices a).Perm (indices b) :=
  h.flatMap_right _

/-- One more chunk. -/
theorem indices_claim {started : List Range} {current last chunk : Nat}
    (h : indices started = List.range (min current last)) (hlt : current < last) :
    indices (started ++ [(current, min (current + chunk) last)]) =
      List.range (min (current + chunk) last) := by
  rw [indices_append, h]
  have h1 : min current last = current := by omega
  rw [h1]
  simp only [indices, List.flatMap_cons, List.flatMap_nil, List.append_nil]
  have h2 : min (current + chunk) last = current + (min (current + chunk) last - current) := by
    omega
  conv_rhs => rw [h2]
  rw [List.range_eq_range', List.range_eq_range']
  have := List.range'_append (s := 0) (m := current)
    (n := min (current + chunk) last - current) (step := 1)
  simpa using this

namespace Blocking

/-- Where a thread is: a queued job; at the head of the loop of `run_parallel_for`; in the user's
task; past the loop; done (for the caller: returned). -/
inductive PC where
  | pending
  | loop
  | task (b e : Nat)
  | leaving
  | finished
deriving DecidableEq

/-- `parallel_for_context`, lines 14-67, and the threads.  `jobs` are the dispatched jobs, `caller`
the thread that called `enqueue_task_wait`.  Ghosts: `started` and `done_` are the ranges with which
the task was called and from which it returned. -/
structure S where
  current : Nat := 0
  last : Nat
  chunk : Nat
  count : Nat
  isDone : Bool := false
  jobs : List PC
  caller : PC := .loop
  started : List Range := []
  returned : List Range := []
deriving DecidableEq

/-- `enqueue_task_wait_default`, lines 186-197: `unsigned` arithmetic wraps around in `size - 1`. -/
def init (size numWorkers : Nat) : S :=
  let numJobs := min numWorkers ((size + 4294967295) % 4294967296)
  { last := size
    chunk := max (size / (numWorkers + 1)) 1
    count := numJobs
    jobs := List.replicate numJobs .pending }

/-- `run_parallel_for`, lines 69-80: one step of a thread in the loop.  The result is the new shared
state and the new position. -/
def loopStep (s : S) : PC → Option (S × PC)
  | .loop =>
    let b := s.current
    let s := { s with current := s.current + s.chunk }
    if b ≥ s.last then some (s, .leaving)
    else
      let e := min (b + s.chunk) s.last
      some ({ s with started := s.started ++ [(b, e)] }, .task b e)
  | .task b e => some ({ s with returned := s.returned ++ [(b, e)] }, .loop)
  | _ => none

/-- `decrement`, lines 38-61.  `none`: the assertion fails. -/
def decrement (s : S) : Option S :=
  if s.count > 0 then
    some { s with count := s.count - 1, isDone := decide (s.count - 1 = 0) }
  else none

/-- One step of a job, `parallel_for_job_func`, lines 82-91. -/
def jobStep (s : S) : PC → Option (S × PC)
  | .pending => some (s, .loop)
  | .leaving => (decrement s).map fun s => (s, .finished)
  | pc => loopStep s pc

/-- One step of the caller, lines 203-214: the wait returns when `done` is set. -/
def callerStep (s : S) : PC → Option (S × PC)
  | .leaving => if s.jobs.length = 0 ∨ s.isDone = true then some (s, .finished) else none
  | pc => loopStep s pc

/-- A step of job `i`, or of the caller. -/
def step (s : S) : Option Nat → Option S
  | none => (callerStep s s.caller).map fun r => { r.1 with caller := r.2 }
  | some i =>
    match s.jobs[i]? with
    | none => none
    | some pc => (jobStep s pc).map fun r => { r.1 with jobs := r.1.jobs.set i r.2 }

/-- Reachable states of one call. -/
inductive Reach (size numWorkers : Nat) : S → Prop
  | init : Reach size numWorkers (init size numWorkers)
  | step {s s' : S} {t : Option Nat} : Reach size numWorkers s → step s t = some s' →
      Reach size numWorkers s'

/-! ### Invariant -/

/-- The range a thread is working on. -/
def active : PC → List Range
  | .task b e => [(b, e)]
  | _ => []

/-- The thread is past the loop. -/
def past : PC → Bool
  | .leaving => true
  | .finished => true
  | _ => false

structure Inv (size : Nat) (s : S) : Prop where
  last : s.last = size
  chunk : 0 < s.chunk
  cover : indices s.started = List.range (min s.current s.last)
  perm : s.started.Perm (s.returned ++ (s.jobs.flatMap active ++ active s.caller))
  count : s.count = s.jobs.countP fun pc => decide (pc ≠ .finished)
  isDone : s.isDone = true → s.count = 0
  isDone' : s.count = 0 → s.jobs.length = 0 ∨ s.isDone = true
  pastJob : ∀ pc ∈ s.jobs, past pc = true → s.last ≤ s.current
  pastCaller : past s.caller = true → s.last ≤ s.current
  callerNot : s.caller ≠ .pending
  ret : s.caller = .finished → s.count = 0

theorem init_inv (size numWorkers : Nat) : Inv size (init size numWorkers) := by
  unfold init
  simp only
  generalize min numWorkers ((size + 4294967295) % 4294967296) = n
  refine ⟨rfl, by simp only; omega, by simp [indices], ?_, ?_, by simp, ?_, ?_, by simp [past],
    by simp, by simp⟩
  · simp only [active]
    induction n with
    | zero => simp
    | succ n ih => rw [List.replicate_succ]; simpa [active] using ih
  · simp only
    induction n with
    | zero => rfl
    | succ n ih => rw [List.replicate_succ, List.countP_cons]; simp only [← ih]; simp
  · intro h
    left
    simpa using h
  · intro pc hpc
    rw [List.eq_of_mem_replicate hpc]
    simp [past]

/-- The step relation of a thread in the loop, in terms of the invariant's ingredients. -/
theorem loopStep_cases {s s' : S} {pc pc' : PC} (h : loopStep s pc = some (s', pc')) :
    (pc = .loop ∧ s.last ≤ s.current ∧ pc' = .leaving ∧
      s' = { s with current := s.current + s.chunk }) ∨
    (pc = .loop ∧ s.current < s.last ∧
      pc' = .task s.current (min (s.current + s.chunk) s.last) ∧
      s' = { s with
        current := s.current + s.chunk
        started := s.started ++ [(s.current, min (s.current + s.chunk) s.last)] }) ∨
    (∃ b e, pc = .task b e ∧ pc' = .loop ∧
      s' = { s with returned := s.returned ++ [(b, e)] }) := by
  cases pc with
  | loop =>
    simp only [loopStep] at h
    split at h
    · cases h
      exact Or.inl ⟨rfl, by assumption, rfl, rfl⟩
    · cases h
      exact Or.inr (Or.inl ⟨rfl, by omega, rfl, rfl⟩)
  | task b e =>
    simp only [loopStep, Option.some.injEq, Prod.mk.injEq] at h
    exact Or.inr (Or.inr ⟨b, e, rfl, h.2.symm, h.1.symm⟩)
  | pending => simp [loopStep] at h
  | leaving => simp [loopStep] at h
  | finished => simp [loopStep] at h

theorem step_inv {size : Nat} {s s' : S} {t : Option Nat} (h : Inv size s)
    (hs : step s t = some s') : Inv size s' := by
  obtain ⟨i1, i2, i3, i4, i5, i6, i6', i7, i8, i9, i10⟩ := h
  cases t with
  | none =>
    simp only [step, Option.map_eq_some_iff] at hs
    obtain ⟨⟨s1, pc1⟩, h1, rfl⟩ := hs
    simp only
    by_cases hl : s.caller = .leaving
    · rw [hl] at h1
      simp only [callerStep] at h1
      split at h1
      · rename_i hw
        cases h1
        refine ⟨i1, i2, i3, ?_, i5, i6, i6', i7, fun _ => i8 (by rw [hl]; rfl), by simp, ?_⟩
        · rw [hl] at i4; exact i4
        · intro _
          rcases hw with hw | hw
          · have : s.jobs = [] := List.length_eq_zero_iff.1 hw
            show s.count = 0
            rw [i5, this]
            rfl
          · exact i6 hw
      · cases h1
    · have h1' : loopStep s s.caller = some (s1, pc1) := by
        revert h1 hl
        cases s.caller <;> simp [callerStep]
      rcases loopStep_cases h1' with ⟨hp, hc, rfl, rfl⟩ | ⟨hp, hc, rfl, rfl⟩ | ⟨b, e, hp, rfl, rfl⟩
      · refine ⟨i1, i2, ?_, ?_, i5, i6, i6', ?_, ?_, by simp, by simp⟩
        · simp only
          rw [i3]
          congr 1
          omega
        · rw [hp] at i4; exact i4
        · intro pc hpc hpast; exact le_trans (i7 pc hpc hpast) (by simp)
        · intro _; exact le_trans hc (by simp)
      · refine ⟨i1, i2, indices_claim i3 hc, ?_, i5, i6, i6', ?_, by simp [past], by simp, by simp⟩
        · rw [hp] at i4
          simp only [active, List.append_nil] at i4 ⊢
          rw [← List.append_assoc]
          exact i4.append_right _
        · intro pc hpc hpast; exact le_trans (i7 pc hpc hpast) (by simp)
      · refine ⟨i1, i2, i3, ?_, i5, i6, i6', i7, by simp [past], by simp, by simp⟩
        rw [hp] at i4
        simp only [active, List.append_nil] at i4 ⊢
        refine i4.trans ?_
        rw [List.append_assoc]
        exact (List.perm_append_comm).append_left _
  | some i =>
    simp only [step] at hs
    cases hj : s.jobs[i]? with
    | none => rw [hj] at hs; cases hs
    | some pc =>
      rw [hj] at hs
      simp only [Option.map_eq_some_iff] at hs
      obtain ⟨⟨s1, pc1⟩, h1, rfl⟩ := hs
      obtain ⟨pre, post, hd, hset⟩ := set_decomp hj
      simp only
      -- the other threads do not change
      have hcount : ∀ q : PC, (pre ++ q :: post).countP (fun pc => decide (pc ≠ .finished)) =
          pre.countP (fun pc => decide (pc ≠ .finished)) +
          post.countP (fun pc => decide (pc ≠ .finished)) + (if q = .finished then 0 else 1) := by
        intro q
        rw [List.countP_append, List.countP_cons]
        by_cases hq : q = .finished <;> simp [hq] <;> omega
      have hact : ∀ q : PC, (pre ++ q :: post).flatMap active =
          pre.flatMap active ++ (active q ++ post.flatMap active) := by
        intro q; rw [List.flatMap_append, List.flatMap_cons]
      have hmem : ∀ q x : PC, x ∈ pre ++ q :: post → x = q ∨ x ∈ s.jobs := by
        intro q x hx
        rcases List.mem_append.1 hx with hx | hx
        · exact Or.inr (by rw [hd]; exact List.mem_append_left _ hx)
        · rcases List.mem_cons.1 hx with hx | hx
          · exact Or.inl hx
          · exact Or.inr (by rw [hd]; exact List.mem_append_right _ (List.mem_cons_of_mem _ hx))
      have hpc : pc ∈ s.jobs := by rw [hd]; simp
      rw [hd, hcount] at i5
      rw [hd, hact] at i4
      have hlen : ∀ q : PC, (pre ++ q :: post).length = s.jobs.length := by
        intro q; rw [hd]; simp
      have hne0 : s.jobs.length ≠ 0 := by rw [hd]; simp
      cases pc with
      | finished => simp [jobStep, loopStep] at h1
      | pending =>
        simp only [jobStep, Option.some.injEq, Prod.mk.injEq] at h1
        obtain ⟨rfl, rfl⟩ := h1
        refine ⟨i1, i2, i3, ?_, ?_, i6, ?_, ?_, i8, i9, i10⟩
        · simp only [hset]; rw [hact]; exact i4
        · simp only [hset]; rw [hcount]; simpa using i5
        · simp only [hset, hlen]; exact i6'
        · simp only [hset]
          intro q hq hpast
          rcases hmem _ _ hq with rfl | hq
          · simp [past] at hpast
          · exact i7 q hq hpast
      | leaving =>
        simp only [jobStep, Option.map_eq_some_iff, Prod.mk.injEq] at h1
        obtain ⟨s2, h2, rfl, rfl⟩ := h1
        unfold decrement at h2
        split at h2
        · rename_i hpos
          cases h2
          have hcur := i7 _ hpc rfl
          refine ⟨i1, i2, i3, ?_, ?_, ?_, ?_, ?_, i8, i9, ?_⟩
          · simp only [hset]; rw [hact]; exact i4
          · simp only [hset]; rw [hcount]
            simp only [if_true]
            simp only [reduceCtorEq, if_false] at i5
            omega
          · intro hdone
            simpa using hdone
          · intro h0
            right
            simpa using h0
          · simp only [hset]
            intro q hq hpast
            rcases hmem _ _ hq with rfl | hq
            · exact hcur
            · exact i7 q hq hpast
          · intro hret
            have := i10 hret
            simp only
            omega
        · cases h2
      | loop =>
        have h1' : loopStep s .loop = some (s1, pc1) := h1
        rcases loopStep_cases h1' with ⟨_, hc, rfl, rfl⟩ | ⟨_, hc, rfl, rfl⟩ | ⟨b, e, hp, _⟩
        · refine ⟨i1, i2, ?_, ?_, ?_, i6, ?_, ?_, ?_, i9, i10⟩
          · simp only
            rw [i3]
            congr 1
            omega
          · simp only [hset]; rw [hact]; exact i4
          · simp only [hset]; rw [hcount]; simpa using i5
          · simp only [hset, hlen]; exact i6'
          · intro q _ _
            exact le_trans hc (by simp)
          · intro _; exact le_trans hc (by simp)
        · refine ⟨i1, i2, indices_claim i3 hc, ?_, ?_, i6, ?_, ?_, ?_, i9, i10⟩
          · simp only [hset]; rw [hact]
            simp only [active, List.nil_append] at i4 ⊢
            refine (i4.append_right _).trans ?_
            simp only [List.append_assoc]
            refine List.Perm.append_left _ (List.Perm.append_left _ ?_)
            rw [← List.append_assoc]
            exact List.perm_append_comm
          · simp only [hset]; rw [hcount]; simpa using i5
          · simp only [hset, hlen]; exact i6'
          · simp only [hset]
            intro q hq hpast
            rcases hmem _ _ hq with rfl | hq
            · simp [past] at hpast
            · exact le_trans (i7 q hq hpast) (by simp)
          · intro hpast; exact le_trans (i8 hpast) (by simp)
        · cases hp
      | task b e =>
        have h1' : loopStep s (.task b e) = some (s1, pc1) := h1
        rcases loopStep_cases h1' with ⟨hp, _⟩ | ⟨hp, _⟩ | ⟨b', e', hp, rfl, rfl⟩
        · cases hp
        · cases hp
        · cases hp
          refine ⟨i1, i2, i3, ?_, ?_, i6, ?_, ?_, i8, i9, i10⟩
          · simp only [hset]; rw [hact]
            simp only [active, List.nil_append] at i4 ⊢
            refine i4.trans ?_
            simp only [List.append_assoc]
            refine List.Perm.append_left _ ?_
            rw [← List.append_assoc (List.flatMap active pre),
              ← List.append_assoc [(b, e)] (List.flatMap active pre)]
            exact List.perm_append_comm.append_right _
          · simp only [hset]; rw [hcount]; simpa using i5
          · simp only [hset, hlen]; exact i6'
          · simp only [hset]
            intro q hq hpast
            rcases hmem _ _ hq with rfl | hq
            · simp [past] at hpast
            · exact i7 q hq hpast

theorem reach_inv {size numWorkers : Nat} {s : S} (h : Reach size numWorkers s) : Inv size s := by
  induction h with
  | init => exact init_inv size numWorkers
  | step _ hs ih => exact step_inv ih hs

/-! ### C19, blocking -/

/-- **C19, at most once.** At every moment of every interleaving, no index was handed to the task
twice, and all indices are below the size. -/
theorem wait_at_most_once {size numWorkers : Nat} {s : S} (h : Reach size numWorkers s) :
    (indices s.started).Nodup ∧ ∀ i ∈ indices s.started, i < size := by
  obtain ⟨i1, _, i3, _⟩ := reach_inv h
  rw [i3]
  refine ⟨List.nodup_range, fun i hi => ?_⟩
  rw [List.mem_range] at hi
  omega

/-- **C19, exactly once.** When `enqueue_task_wait` returns, the task has returned from ranges that
together contain every index below the size exactly once; no call is still in progress and all jobs
have let go of the shared context (which is about to be destroyed, with its counter at zero). -/
theorem wait_exactly_once {size numWorkers : Nat} {s : S} (h : Reach size numWorkers s)
    (hr : s.caller = .finished) :
    (indices s.returned).Perm (List.range size) ∧ (∀ pc ∈ s.jobs, pc = .finished) ∧
      s.count = 0 := by
  obtain ⟨i1, i2, i3, i4, i5, i6, i6', i7, i8, i9, i10⟩ := reach_inv h
  have hc := i10 hr
  have hfin : ∀ pc ∈ s.jobs, pc = .finished := by
    rw [hc] at i5
    have := List.countP_eq_zero.1 i5.symm
    intro pc hpc
    have := this pc hpc
    simpa using this
  have hact : s.jobs.flatMap active = [] := by
    rw [List.flatMap_eq_nil_iff]
    intro pc hpc
    rw [hfin pc hpc]
    rfl
  rw [hact, hr] at i4
  simp only [active, List.append_nil] at i4
  have hcur := i8 (by rw [hr]; rfl)
  refine ⟨?_, hfin, hc⟩
  refine (indices_perm i4.symm).trans ?_
  rw [i3, i1, Nat.min_eq_right (by omega)]

/-- **C19, assertions.** The assertion in `decrement` never fails. -/
theorem wait_decrement_defined {size numWorkers : Nat} {s : S} (h : Reach size numWorkers s)
    {i : Nat} (hi : s.jobs[i]? = some .leaving) : (step s (some i)).isSome = true := by
  have hinv := reach_inv h
  obtain ⟨pre, post, hd, _⟩ := set_decomp hi
  have : 0 < s.count := by
    rw [hinv.count, List.countP_pos_iff]
    exact ⟨.leaving, by rw [hd]; simp, by simp⟩
  simp [step, hi, jobStep, decrement, this]

/-- Upper bound on the steps that remain. -/
def weight : PC → Nat
  | .pending => 3
  | .loop => 2
  | .task _ _ => 3
  | .leaving => 1
  | .finished => 0

def measure (s : S) : Nat :=
  3 * (s.last - s.current) + (s.jobs.map weight).sum + weight s.caller

/-- **C19, termination.** Whatever the schedule, every step brings the call closer to its end. -/
theorem wait_terminates {size numWorkers : Nat} {s s' : S} {t : Option Nat}
    (h : Reach size numWorkers s) (hs : step s t = some s') : measure s' < measure s := by
  have hchunk := (reach_inv h).chunk
  cases t with
  | none =>
    simp only [step, Option.map_eq_some_iff] at hs
    obtain ⟨⟨s1, pc1⟩, h1, rfl⟩ := hs
    by_cases hl : s.caller = .leaving
    · rw [hl] at h1
      simp only [callerStep] at h1
      split at h1
      · cases h1
        simp only [measure, hl, weight]
        omega
      · cases h1
    · have h1' : loopStep s s.caller = some (s1, pc1) := by
        revert h1 hl
        cases s.caller <;> simp [callerStep]
      rcases loopStep_cases h1' with ⟨hp, hc, rfl, rfl⟩ | ⟨hp, hc, rfl, rfl⟩ | ⟨b, e, hp, rfl, rfl⟩
        <;> simp only [measure, hp, weight] <;> omega
  | some i =>
    simp only [step] at hs
    cases hj : s.jobs[i]? with
    | none => rw [hj] at hs; cases hs
    | some pc =>
      rw [hj] at hs
      simp only [Option.map_eq_some_iff] at hs
      obtain ⟨⟨s1, pc1⟩, h1, rfl⟩ := hs
      obtain ⟨pre, post, hd, hset⟩ := set_decomp hj
      have hsum : ∀ q : PC, ((pre ++ q :: post).map weight).sum =
          (pre.map weight).sum + (post.map weight).sum + weight q := by
        intro q; simp; omega
      have hs0 : measure s = 3 * (s.last - s.current) +
          ((pre.map weight).sum + (post.map weight).sum + weight pc) + weight s.caller := by
        unfold measure; rw [hd, hsum]
      rw [hs0]
      cases pc with
      | finished => simp [jobStep, loopStep] at h1
      | pending =>
        simp only [jobStep, Option.some.injEq, Prod.mk.injEq] at h1
        obtain ⟨rfl, rfl⟩ := h1
        simp only [measure, hset]
        rw [hsum]
        simp only [weight]
        omega
      | leaving =>
        simp only [jobStep, Option.map_eq_some_iff, Prod.mk.injEq] at h1
        obtain ⟨s2, h2, rfl, rfl⟩ := h1
        unfold decrement at h2
        split at h2
        · cases h2
          simp only [measure, hset]
          rw [hsum]
          simp only [weight]
          omega
        · cases h2
      | loop =>
        have h1' : loopStep s .loop = some (s1, pc1) := h1
        rcases loopStep_cases h1' with ⟨_, hc, rfl, rfl⟩ | ⟨_, hc, rfl, rfl⟩ | ⟨b, e, hp, _⟩
        · simp only [measure, hset]; rw [hsum]; simp only [weight]; omega
        · simp only [measure, hset]; rw [hsum]; simp only [weight]; omega
        · cases hp
      | task b e =>
        have h1' : loopStep s (.task b e) = some (s1, pc1) := h1
        rcases loopStep_cases h1' with ⟨hp, _⟩ | ⟨hp, _⟩ | ⟨b', e', hp, rfl, rfl⟩
        · cases hp
        · cases hp
        · simp only [measure, hset]; rw [hsum]; simp only [weight]; omega

/-- **C19, no deadlock.** As long as the call has not returned some thread can proceed; with
`wait_terminates`, the call returns under every schedule in which the workers run their jobs. -/
theorem wait_progress {size numWorkers : Nat} {s : S} (h : Reach size numWorkers s)
    (hr : s.caller ≠ .finished) : ∃ t, (step s t).isSome = true := by
  have hinv := reach_inv h
  cases hc : s.caller with
  | finished => exact absurd hc hr
  | pending => exact absurd hc hinv.callerNot
  | loop =>
    refine ⟨none, ?_⟩
    simp only [step, hc, callerStep, loopStep]
    split <;> rfl
  | task b e => exact ⟨none, by simp [step, hc, callerStep, loopStep]⟩
  | leaving =>
    by_cases hd : s.jobs.length = 0 ∨ s.isDone = true
    · exact ⟨none, by simp only [step, hc, callerStep, if_pos hd]; rfl⟩
    · have hpos : 0 < s.count := by
        by_contra h0
        exact hd (hinv.isDone' (by omega))
      rw [hinv.count, List.countP_pos_iff] at hpos
      obtain ⟨pc, hpc, hne⟩ := hpos
      obtain ⟨i, hi⟩ := List.mem_iff_getElem?.1 hpc
      refine ⟨some i, ?_⟩
      cases pc with
      | finished => simp at hne
      | pending => simp [step, hi, jobStep]
      | leaving => exact wait_decrement_defined h hi
      | loop =>
        simp only [step, hi, jobStep, loopStep]
        split <;> rfl
      | task b e => simp [step, hi, jobStep, loopStep]

/-- Two workers, five indices: an interleaving that returns. -/
example : ∃ s, Reach 5 2 s ∧ s.caller = .finished ∧ s.returned = [(0, 1), (1, 2), (3, 4), (2, 3),
    (4, 5)] := by
  let ts : List (Option Nat) := [none, some 0, some 0, none, some 0, none, some 1, some 1, some 1,
    none, some 0, some 0, none, some 0, some 1, some 0, some 1, none]
  have key : ∀ (ts : List (Option Nat)) (s s' : S), Reach 5 2 s →
      ts.foldlM (fun s t => step s t) s = some s' → Reach 5 2 s' := by
    intro ts
    induction ts with
    | nil => intro s s' h h'; cases h'; exact h
    | cons t ts ih =>
      intro s s' h h'
      simp only [List.foldlM_cons, Option.bind_eq_bind] at h'
      cases hs : step s t with
      | none => rw [hs] at h'; cases h'
      | some s1 => rw [hs] at h'; exact ih s1 s' (.step h hs) h'
  cases hr : ts.foldlM (fun s t => step s t) (init 5 2) with
  | none => exact absurd hr (by decide +kernel)
  | some s =>
    refine ⟨s, key ts _ s .init hr, ?_, ?_⟩
    · have : (ts.foldlM (fun s t => step s t) (init 5 2)).map (·.caller) = some .finished := by
        decide +kernel
      rw [hr] at this
      simpa using this
    · have : (ts.foldlM (fun s t => step s t) (init 5 2)).map (·.returned) =
          some [(0, 1), (1, 2), (3, 4), (2, 3), (4, 5)] := by
        decide +kernel
      rw [hr] at this
      simpa using this

end Blocking

end Edyn.Parallel.Task
