import Verif.Parallel.Task

/-!
# Asynchronous parallel tasks (C19)

`enqueue_task_default` of `src/edyn/context/task.cpp`; see `Verif.Parallel.Task` for the modelling
conventions.  The `int` completion counter is a natural number: sizes are below `2 ^ 31`.
-/

namespace Edyn.Parallel.Task.Async

/-- Where a job is: queued; at the head of the loop; in the user's task; back from it but not counted
yet; about to call the completion; past the loop; done. -/
inductive PC where
  | pending
  | loop
  | task (b e : Nat)
  | ran (b e : Nat)
  | completing
  | leaving
  | finished
deriving DecidableEq

/-- `parallel_for_async_context`, lines 93-119, and the jobs.  Ghosts: `started`/`returned` as in the
blocking case, `completions` counts the calls of the completion, `deleted` tells whether the context
was freed. -/
structure S where
  current : Nat := 0
  last : Nat
  chunk : Nat
  completed : Nat := 0
  ref : Nat
  jobs : List PC
  started : List Range := []
  returned : List Range := []
  completions : Nat := 0
  deleted : Bool := false
deriving DecidableEq

/-- `enqueue_task_default`, lines 159-184, with `numWorkers > 0`. -/
def init (size numWorkers : Nat) : S :=
  let ceil := size / numWorkers + (if size % numWorkers ≠ 0 then 1 else 0)
  let numJobs := min numWorkers size
  { last := size
    chunk := max ceil 1
    ref := numJobs
    jobs := List.replicate numJobs .pending }

/-- One step of `parallel_for_async_job_func`, lines 121-157.  `none`: nothing to do, a failed
assertion, or an access to the context after it was deleted. -/
def jobStep (s : S) (pc : PC) : Option (S × PC) :=
  if s.deleted then none
  else match pc with
  | .pending => some (s, .loop)
  | .loop =>
    let b := s.current
    let e := min (b + s.chunk) s.last
    let s := { s with current := s.current + s.chunk }
    if b ≥ e then some (s, .leaving)
    else some ({ s with started := s.started ++ [(b, e)] }, .task b e)
  | .task b e => some ({ s with returned := s.returned ++ [(b, e)] }, .ran b e)
  | .ran b e =>
    let completed := s.completed + (e - b)
    if completed ≤ s.last then
      some ({ s with completed := completed },
        if completed = s.last then .completing else .loop)
    else none
  | .completing => some ({ s with completions := s.completions + 1 }, .leaving)
  | .leaving =>
    if s.ref > 0 then
      some ({ s with ref := s.ref - 1, deleted := decide (s.ref - 1 = 0) }, .finished)
    else none
  | .finished => none

/-- A step of job `i`. -/
def step (s : S) (i : Nat) : Option S :=
  match s.jobs[i]? with
  | none => none
  | some pc => (jobStep s pc).map fun r => { r.1 with jobs := r.1.jobs.set i r.2 }

/-- Reachable states of one call. -/
inductive Reach (size numWorkers : Nat) : S → Prop
  | init : Reach size numWorkers (init size numWorkers)
  | step {s s' : S} {i : Nat} : Reach size numWorkers s → step s i = some s' →
      Reach size numWorkers s'

/-! ### Invariant -/

/-- The range in the user's task. -/
def active : PC → List Range
  | .task b e => [(b, e)]
  | _ => []

/-- The number of indices processed but not counted. -/
def uncounted : PC → Nat
  | .ran b e => e - b
  | _ => 0

/-- Ranges are not empty. -/
def Proper : PC → Prop
  | .task b e => b < e
  | .ran b e => b < e
  | _ => True

def past : PC → Bool
  | .completing => true
  | .leaving => true
  | .finished => true
  | _ => false

structure Inv (size numJobs : Nat) (s : S) : Prop where
  last : s.last = size
  chunk : 0 < s.chunk
  njobs : s.jobs.length = numJobs
  cover : indices s.started = List.range (min s.current s.last)
  perm : s.started.Perm (s.returned ++ s.jobs.flatMap active)
  counted : (indices s.returned).length = s.completed + (s.jobs.map uncounted).sum
  proper : ∀ pc ∈ s.jobs, Proper pc
  compl : s.completions + s.jobs.countP (fun pc => decide (pc = .completing)) =
    if s.completed = s.last ∧ 0 < s.last then 1 else 0
  pastJob : ∀ pc ∈ s.jobs, past pc = true → s.last ≤ s.current
  ref : s.ref = s.jobs.countP fun pc => decide (pc ≠ .finished)
  deleted : s.deleted = true ↔ s.ref = 0 ∧ 0 < numJobs

theorem init_inv (size numWorkers : Nat) :
    Inv size (min numWorkers size) (init size numWorkers) := by
  unfold init
  simp only
  generalize min numWorkers size = n
  refine ⟨rfl, by simp only; omega, by simp, by simp [indices], ?_, ?_, ?_, ?_, ?_, ?_,
    by simp⟩
  · simp only
    induction n with
    | zero => simp
    | succ n ih => rw [List.replicate_succ]; simpa [active] using ih
  · simp only
    induction n with
    | zero => rfl
    | succ n ih => rw [List.replicate_succ]; simpa [uncounted] using ih
  · intro pc hpc
    rw [List.eq_of_mem_replicate hpc]
    trivial
  · have : (List.replicate n PC.pending).countP (fun pc => decide (pc = .completing)) = 0 := by
      rw [List.countP_eq_zero]
      intro pc hpc
      rw [List.eq_of_mem_replicate hpc]
      simp
    simp only [this, Nat.zero_add]
    rw [if_neg]
    omega
  · intro pc hpc
    rw [List.eq_of_mem_replicate hpc]
    simp [past]
  · simp only
    induction n with
    | zero => rfl
    | succ n ih => rw [List.replicate_succ, List.countP_cons]; simp only [← ih]; simp

theorem length_indices_active {l : List PC} {b e : Nat} (h : PC.task b e ∈ l) :
    e - b ≤ (indices (l.flatMap active)).length := by
  induction l with
  | nil => cases h
  | cons x xs ih =>
    rw [List.flatMap_cons, indices_append, List.length_append]
    rcases List.mem_cons.1 h with rfl | h
    · simp [active, indices]
    · exact le_trans (ih h) (by omega)

theorem uncounted_le {l : List PC} {b e : Nat} (h : PC.ran b e ∈ l) :
    e - b ≤ (l.map uncounted).sum := by
  induction l with
  | nil => cases h
  | cons x xs ih =>
    rw [List.map_cons, List.sum_cons]
    rcases List.mem_cons.1 h with rfl | h
    · simp [uncounted]
    · exact le_trans (ih h) (by omega)

/-- Indices claimed: counted, uncounted, and in progress. -/
theorem Inv.total {size n : Nat} {s : S} (h : Inv size n s) :
    s.completed + (s.jobs.map uncounted).sum + (indices (s.jobs.flatMap active)).length =
      min s.current s.last := by
  have h1 := (indices_perm h.perm).length_eq
  rw [indices_append, List.length_append, h.cover, List.length_range, h.counted] at h1
  exact h1.symm

theorem step_inv {size n : Nat} {s s' : S} {i : Nat} (h : Inv size n s)
    (hs : step s i = some s') : Inv size n s' := by
  have htot := h.total
  obtain ⟨i1, i2, i0, i3, i4, i5, i6, i7, i8, i9, i10⟩ := h
  simp only [step] at hs
  cases hj : s.jobs[i]? with
  | none => rw [hj] at hs; cases hs
  | some pc =>
    rw [hj] at hs
    simp only [Option.map_eq_some_iff] at hs
    obtain ⟨⟨s1, pc1⟩, h1, rfl⟩ := hs
    obtain ⟨pre, post, hd, hset⟩ := set_decomp hj
    unfold jobStep at h1
    by_cases hdel : s.deleted = true
    · rw [if_pos hdel] at h1; cases h1
    rw [if_neg hdel] at h1
    have hcF : ∀ q : PC, (pre ++ q :: post).countP (fun pc => decide (pc ≠ .finished)) =
        pre.countP (fun pc => decide (pc ≠ .finished)) +
        post.countP (fun pc => decide (pc ≠ .finished)) + (if q = .finished then 0 else 1) := by
      intro q
      rw [List.countP_append, List.countP_cons]
      by_cases hq : q = .finished <;> simp [hq] <;> omega
    have hcC : ∀ q : PC, (pre ++ q :: post).countP (fun pc => decide (pc = .completing)) =
        pre.countP (fun pc => decide (pc = .completing)) +
        post.countP (fun pc => decide (pc = .completing)) + (if q = .completing then 1 else 0) := by
      intro q
      rw [List.countP_append, List.countP_cons]
      by_cases hq : q = .completing <;> simp [hq] <;> omega
    have hact : ∀ q : PC, (pre ++ q :: post).flatMap active =
        pre.flatMap active ++ (active q ++ post.flatMap active) := by
      intro q; rw [List.flatMap_append, List.flatMap_cons]
    have hunc : ∀ q : PC, ((pre ++ q :: post).map uncounted).sum =
        (pre.map uncounted).sum + (post.map uncounted).sum + uncounted q := by
      intro q; simp; omega
    have hmem : ∀ q x : PC, x ∈ pre ++ q :: post → x = q ∨ x ∈ s.jobs := by
      intro q x hx
      rcases List.mem_append.1 hx with hx | hx
      · exact Or.inr (by rw [hd]; exact List.mem_append_left _ hx)
      · rcases List.mem_cons.1 hx with hx | hx
        · exact Or.inl hx
        · exact Or.inr (by rw [hd]; exact List.mem_append_right _ (List.mem_cons_of_mem _ hx))
    have hpc : pc ∈ s.jobs := by rw [hd]; simp
    have hlen : ∀ q : PC, (pre ++ q :: post).length = n := by
      intro q; rw [← i0, hd]; simp
    have hprop := i6 pc hpc
    rw [hd, hact] at i4
    rw [hd, hunc] at i5
    rw [hd, hcC] at i7
    rw [hd, hcF] at i9
    rw [hd, hunc, hact] at htot
    have hj6 : ∀ q : PC, Proper q → ∀ x ∈ pre ++ q :: post, Proper x := by
      intro q hq x hx
      rcases hmem _ _ hx with rfl | hx
      · exact hq
      · exact i6 x hx
    have hj8 : ∀ (q : PC) (c : Nat), s.current ≤ c → (past q = true → s.last ≤ c) →
        ∀ x ∈ pre ++ q :: post, past x = true → s.last ≤ c := by
      intro q c hc hq x hx hp
      rcases hmem _ _ hx with rfl | hx
      · exact hq hp
      · exact le_trans (i8 x hx hp) hc
    cases pc with
    | finished => cases h1
    | pending =>
      simp only [Option.some.injEq, Prod.mk.injEq] at h1
      obtain ⟨rfl, rfl⟩ := h1
      refine ⟨i1, i2, ?_, i3, ?_, ?_, ?_, ?_, ?_, ?_, i10⟩ <;> simp only [hset]
      · exact hlen _
      · rw [hact]; exact i4
      · rw [hunc]; exact i5
      · exact hj6 _ trivial
      · rw [hcC]; simpa using i7
      · exact hj8 _ _ le_rfl (by simp [past])
      · rw [hcF]; simpa using i9
    | loop =>
      simp only at h1
      split at h1
      · rename_i hge
        cases h1
        have hcur : s.last ≤ s.current := by omega
        refine ⟨i1, i2, ?_, ?_, ?_, ?_, ?_, ?_, ?_, ?_, i10⟩ <;> simp only [hset]
        · exact hlen _
        · rw [i3]; congr 1; omega
        · rw [hact]; exact i4
        · rw [hunc]; exact i5
        · exact hj6 _ trivial
        · rw [hcC]; simpa using i7
        · exact hj8 _ _ (by omega) (fun _ => by omega)
        · rw [hcF]; simpa using i9
      · rename_i hlt
        cases h1
        have hcur : s.current < s.last := by omega
        refine ⟨i1, i2, ?_, indices_claim i3 hcur, ?_, ?_, ?_, ?_, ?_, ?_, i10⟩ <;>
          simp only [hset]
        · exact hlen _
        · rw [hact]
          simp only [active, List.nil_append] at i4 ⊢
          refine (i4.append_right _).trans ?_
          simp only [List.append_assoc]
          refine List.Perm.append_left _ (List.Perm.append_left _ ?_)
          exact List.perm_append_comm
        · rw [hunc]; exact i5
        · refine hj6 _ ?_
          show _ < _
          omega
        · rw [hcC]; simpa using i7
        · exact hj8 _ _ (by omega) (by simp [past])
        · rw [hcF]; simpa using i9
    | task b e =>
      simp only [Option.some.injEq, Prod.mk.injEq] at h1
      obtain ⟨rfl, rfl⟩ := h1
      refine ⟨i1, i2, ?_, i3, ?_, ?_, ?_, ?_, ?_, ?_, i10⟩ <;> simp only [hset]
      · exact hlen _
      · rw [hact]
        simp only [active, List.nil_append] at i4 ⊢
        refine i4.trans ?_
        simp only [List.append_assoc]
        refine List.Perm.append_left _ ?_
        rw [← List.append_assoc, ← List.append_assoc]
        exact List.perm_append_comm.append_right _
      · rw [hunc, indices_append, List.length_append, i5]
        simp only [uncounted, indices, List.flatMap_cons, List.flatMap_nil, List.append_nil,
          List.length_range']
        omega
      · exact hj6 _ hprop
      · rw [hcC]; simpa using i7
      · exact hj8 _ _ le_rfl (by simp [past])
      · rw [hcF]; simpa using i9
    | ran b e =>
      have hbe : b < e := hprop
      simp only at h1
      split at h1
      · rename_i hle
        simp only [Option.some.injEq, Prod.mk.injEq] at h1
        obtain ⟨rfl, rfl⟩ := h1
        have hnot : ¬ (s.completed = s.last ∧ 0 < s.last) := by omega
        rw [if_neg hnot] at i7
        have hq : ∀ q : PC, (q = .completing ∨ q = .loop) → active q = [] ∧ uncounted q = 0 ∧
            Proper q ∧ q ≠ .finished := by
          rintro q (rfl | rfl) <;> exact ⟨rfl, rfl, trivial, by simp⟩
        have hsum : (pre.map uncounted).sum + (post.map uncounted).sum + (e - b) ≤
            min s.current s.last - s.completed := by
          simp only [uncounted] at htot
          omega
        by_cases hfull : s.completed + (e - b) = s.last
        · rw [if_pos hfull]
          refine ⟨i1, i2, ?_, i3, ?_, ?_, ?_, ?_, ?_, ?_, i10⟩ <;> simp only [hset]
          · exact hlen _
          · rw [hact]; exact i4
          · rw [hunc]; simp only [uncounted] at i5 ⊢; omega
          · exact hj6 _ trivial
          · rw [hcC]
            simp only [reduceCtorEq, if_false, if_true] at i7 ⊢
            rw [if_pos ⟨hfull, by omega⟩]
            omega
          · refine hj8 _ _ le_rfl (fun _ => ?_)
            omega
          · rw [hcF]; simpa using i9
        · rw [if_neg hfull]
          refine ⟨i1, i2, ?_, i3, ?_, ?_, ?_, ?_, ?_, ?_, i10⟩ <;> simp only [hset]
          · exact hlen _
          · rw [hact]; exact i4
          · rw [hunc]; simp only [uncounted] at i5 ⊢; omega
          · exact hj6 _ trivial
          · rw [hcC]
            simp only [reduceCtorEq, if_false] at i7 ⊢
            rw [if_neg (by omega)]
            omega
          · exact hj8 _ _ le_rfl (by simp [past])
          · rw [hcF]; simpa using i9
      · cases h1
    | completing =>
      simp only [Option.some.injEq, Prod.mk.injEq] at h1
      obtain ⟨rfl, rfl⟩ := h1
      refine ⟨i1, i2, ?_, i3, ?_, ?_, ?_, ?_, ?_, ?_, i10⟩ <;> simp only [hset]
      · exact hlen _
      · rw [hact]; exact i4
      · rw [hunc]; exact i5
      · exact hj6 _ trivial
      · rw [hcC]
        simp only [if_true, reduceCtorEq, if_false] at i7 ⊢
        omega
      · exact hj8 _ _ le_rfl (fun _ => i8 _ hpc rfl)
      · rw [hcF]; simpa using i9
    | leaving =>
      simp only at h1
      split at h1
      · rename_i hpos
        cases h1
        refine ⟨i1, i2, ?_, i3, ?_, ?_, ?_, ?_, ?_, ?_, ?_⟩ <;> simp only [hset]
        · exact hlen _
        · rw [hact]; exact i4
        · rw [hunc]; exact i5
        · exact hj6 _ trivial
        · rw [hcC]; simpa using i7
        · exact hj8 _ _ le_rfl (fun _ => i8 _ hpc rfl)
        · rw [hcF]
          simp only [reduceCtorEq, if_false, if_true] at i9 ⊢
          omega
        · have : 0 < n := by rw [← hlen PC.leaving]; simp; omega
          simp [this]
      · cases h1

theorem reach_inv {size numWorkers : Nat} {s : S} (h : Reach size numWorkers s) :
    Inv size (min numWorkers size) s := by
  induction h with
  | init => exact init_inv size numWorkers
  | step _ hs ih => exact step_inv ih hs

/-! ### C19, asynchronous -/

/-- **C19, at most once.** At every moment no index was handed to the task twice. -/
theorem async_at_most_once {size numWorkers : Nat} {s : S} (h : Reach size numWorkers s) :
    (indices s.started).Nodup ∧ ∀ i ∈ indices s.started, i < size := by
  have hi := reach_inv h
  rw [hi.cover, hi.last]
  refine ⟨List.nodup_range, fun i hi => ?_⟩
  rw [List.mem_range] at hi
  omega

theorem all_counted {size n : Nat} {s : S} (h : Inv size n s) (hc : s.completed = s.last) :
    (indices s.returned).Perm (List.range size) ∧ ∀ pc ∈ s.jobs, active pc = [] := by
  have htot := h.total
  have hact : ∀ pc ∈ s.jobs, active pc = [] := by
    intro pc hpc
    cases pc with
    | task b e =>
      have h1 := length_indices_active hpc
      have h2 : b < e := h.proper _ hpc
      omega
    | _ => rfl
  refine ⟨?_, hact⟩
  have hnil : s.jobs.flatMap active = [] := by
    rw [List.flatMap_eq_nil_iff]; exact hact
  have hp := h.perm
  rw [hnil, List.append_nil] at hp
  refine (indices_perm hp.symm).trans ?_
  rw [h.cover, ← h.last]
  have : min s.current s.last = s.last := by omega
  rw [this]

/-- **C19, completion.** The completion is called at most once, and only after the task has returned
from ranges that together contain every index exactly once; no call of the task is in progress
then. -/
theorem async_completion {size numWorkers : Nat} {s : S} (h : Reach size numWorkers s) :
    s.completions ≤ 1 ∧
    (s.completions = 1 ∨ .completing ∈ s.jobs →
      (indices s.returned).Perm (List.range size) ∧ ∀ pc ∈ s.jobs, ∀ b e, pc ≠ .task b e) := by
  have hi := reach_inv h
  have hc := hi.compl
  have hle : s.completions ≤ 1 := by
    split at hc <;> omega
  refine ⟨hle, fun hone => ?_⟩
  have hpos : 0 < s.completions + s.jobs.countP (fun pc => decide (pc = .completing)) := by
    rcases hone with h1 | h1
    · omega
    · have : 0 < s.jobs.countP (fun pc => decide (pc = .completing)) := by
        rw [List.countP_pos_iff]
        exact ⟨_, h1, by simp⟩
      omega
  have hfull : s.completed = s.last := by
    by_contra hne
    rw [if_neg (fun h => hne h.1)] at hc
    omega
  obtain ⟨h1, h2⟩ := all_counted hi hfull
  refine ⟨h1, ?_⟩
  rintro pc hpc b e rfl
  have := h2 _ hpc
  simp [active] at this

/-- **C19, end.** When all jobs are done and the size is not zero, the task has processed every index
exactly once, the completion was called exactly once, and the context was freed. -/
theorem async_exactly_once {size numWorkers : Nat} {s : S} (h : Reach size numWorkers s)
    (hw : 0 < numWorkers) (hsz : 0 < size) (hfin : ∀ pc ∈ s.jobs, pc = .finished) :
    (indices s.returned).Perm (List.range size) ∧ s.completions = 1 ∧ s.deleted = true := by
  have hi := reach_inv h
  have hne : s.jobs ≠ [] := by
    intro h0
    have := hi.njobs
    rw [h0] at this
    simp at this
    omega
  obtain ⟨pc, hpc⟩ := List.exists_mem_of_ne_nil _ hne
  have hcur : s.last ≤ s.current := hi.pastJob pc hpc (by rw [hfin pc hpc]; rfl)
  have htot := hi.total
  have h1 : s.jobs.flatMap active = [] := by
    rw [List.flatMap_eq_nil_iff]
    intro q hq
    rw [hfin q hq]
    rfl
  have h2 : (s.jobs.map uncounted).sum = 0 := by
    clear * - hfin
    generalize s.jobs = l at hfin
    induction l with
    | nil => rfl
    | cons x xs ih =>
      rw [List.map_cons, List.sum_cons, hfin x List.mem_cons_self,
        ih (fun q hq => hfin q (List.mem_cons_of_mem _ hq))]
      rfl
  rw [h1, h2] at htot
  simp only [indices, List.flatMap_nil, List.length_nil, Nat.add_zero] at htot
  have hfull : s.completed = s.last := by omega
  have hlast := hi.last
  refine ⟨(all_counted hi hfull).1, ?_, ?_⟩
  · have hc := hi.compl
    rw [if_pos ⟨hfull, by omega⟩] at hc
    have : s.jobs.countP (fun pc => decide (pc = .completing)) = 0 := by
      rw [List.countP_eq_zero]
      intro q hq
      rw [hfin q hq]
      simp
    omega
  · rw [hi.deleted]
    refine ⟨?_, by omega⟩
    rw [hi.ref, List.countP_eq_zero]
    intro q hq
    rw [hfin q hq]
    simp

/-- **C19, assertions and lifetime.** A job that is not done can always proceed: no assertion fails
and the context is never accessed after it was freed. -/
theorem async_step_defined {size numWorkers : Nat} {s : S} (h : Reach size numWorkers s)
    {i : Nat} {pc : PC} (hj : s.jobs[i]? = some pc) (hpc : pc ≠ .finished) :
    (step s i).isSome = true := by
  have hi := reach_inv h
  have htot := hi.total
  have hmem : pc ∈ s.jobs := List.mem_of_getElem? hj
  have href : 0 < s.ref := by
    rw [hi.ref, List.countP_pos_iff]
    exact ⟨pc, hmem, by simpa using hpc⟩
  have hdel : ¬ s.deleted = true := by
    intro hd
    have := (hi.deleted.1 hd).1
    omega
  simp only [step, hj, Option.isSome_map]
  unfold jobStep
  rw [if_neg hdel]
  cases pc with
  | finished => exact absurd rfl hpc
  | pending => rfl
  | loop =>
    simp only
    split <;> rfl
  | task b e => rfl
  | ran b e =>
    have := uncounted_le hmem
    have hle : s.completed + (e - b) ≤ s.last := by omega
    simp only [hle, if_true]
    rfl
  | completing => rfl
  | leaving =>
    simp only [href, gt_iff_lt, if_true]
    rfl

/-- Upper bound on the steps that remain. -/
def weight : PC → Nat
  | .pending => 3
  | .loop => 2
  | .task _ _ => 4
  | .ran _ _ => 3
  | .completing => 2
  | .leaving => 1
  | .finished => 0

def measure (s : S) : Nat := 3 * (s.last - s.current) + (s.jobs.map weight).sum

/-- **C19, termination.** Every step brings the jobs closer to their end. -/
theorem async_terminates {size numWorkers : Nat} {s s' : S} {i : Nat}
    (h : Reach size numWorkers s) (hs : step s i = some s') : measure s' < measure s := by
  have hchunk := (reach_inv h).chunk
  simp only [step] at hs
  cases hj : s.jobs[i]? with
  | none => rw [hj] at hs; cases hs
  | some pc =>
    rw [hj] at hs
    simp only [Option.map_eq_some_iff] at hs
    obtain ⟨⟨s1, pc1⟩, h1, rfl⟩ := hs
    obtain ⟨pre, post, hd, hset⟩ := set_decomp hj
    have hsum : ∀ q : PC, ((pre ++ q :: post).map weight).sum =
        (pre.map weight).sum + (post.map weight).sum + weight q := by
      intro q; simp; omega
    have hs0 : measure s = 3 * (s.last - s.current) +
        ((pre.map weight).sum + (post.map weight).sum + weight pc) := by
      unfold measure; rw [hd, hsum]
    rw [hs0]
    unfold jobStep at h1
    split at h1
    · cases h1
    cases pc with
    | finished => cases h1
    | pending => cases h1; simp only [measure, hset]; rw [hsum]; simp only [weight]; omega
    | loop =>
      simp only at h1
      split at h1
      · cases h1; simp only [measure, hset]; rw [hsum]; simp only [weight]; omega
      · cases h1; simp only [measure, hset]; rw [hsum]; simp only [weight]; omega
    | task b e => cases h1; simp only [measure, hset]; rw [hsum]; simp only [weight]; omega
    | ran b e =>
      simp only at h1
      split at h1
      · cases h1
        simp only [measure, hset]
        rw [hsum]
        have : weight (if s.completed + (e - b) = s.last then PC.completing else PC.loop) = 2 := by
          split <;> rfl
        rw [this]
        simp only [weight]
        omega
      · cases h1
    | completing => cases h1; simp only [measure, hset]; rw [hsum]; simp only [weight]; omega
    | leaving =>
      simp only at h1
      split at h1
      · cases h1; simp only [measure, hset]; rw [hsum]; simp only [weight]; omega
      · cases h1

/-- **Finding.** For size zero no job is dispatched: the completion is never called and the context
is never freed. -/
theorem async_size_zero (numWorkers : Nat) {s : S} (h : Reach 0 numWorkers s) :
    s = init 0 numWorkers ∧ s.completions = 0 ∧ s.deleted = false := by
  have key : s = init 0 numWorkers := by
    induction h with
    | init => rfl
    | step _ hs ih =>
      subst ih
      simp [step, init] at hs
  subst key
  exact ⟨rfl, rfl, rfl⟩

/-- Two workers, three indices. -/
example : ∃ s, Reach 3 2 s ∧ (∀ pc ∈ s.jobs, pc = .finished) ∧ s.completions = 1 ∧
    s.returned = [(2, 3), (0, 2)] := by
  let ts : List Nat := [0, 1, 0, 1, 1, 0, 1, 0, 1, 0, 1, 0]
  have key : ∀ (ts : List Nat) (s s' : S), Reach 3 2 s →
      ts.foldlM (fun s t => step s t) s = some s' → Reach 3 2 s' := by
    intro ts
    induction ts with
    | nil => intro s s' h h'; cases h'; exact h
    | cons t ts ih =>
      intro s s' h h'
      simp only [List.foldlM_cons, Option.bind_eq_bind] at h'
      cases hs : step s t with
      | none => rw [hs] at h'; cases h'
      | some s1 => rw [hs] at h'; exact ih s1 s' (.step h hs) h'
  cases hr : ts.foldlM (fun s t => step s t) (init 3 2) with
  | none => exact absurd hr (by decide +kernel)
  | some s =>
    have h1 : (ts.foldlM (fun s t => step s t) (init 3 2)).map
        (fun s => (s.jobs, s.completions, s.returned)) =
        some ([.finished, .finished], 1, [(2, 3), (0, 2)]) := by decide +kernel
    rw [hr] at h1
    simp only [Option.map_some, Option.some.injEq, Prod.mk.injEq] at h1
    refine ⟨s, key ts _ s .init hr, ?_, h1.2.1, h1.2.2⟩
    rw [h1.1]
    simp

end Edyn.Parallel.Task.Async
