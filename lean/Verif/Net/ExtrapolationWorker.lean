/-!
# The extrapolation worker's request queue (C46)

`extrapolation_worker` of `src/edyn/networking/extrapolation/extrapolation_worker.cpp`: how requests
sent to the worker are received, kept, dropped and processed, and how the worker's thread sleeps.

`message_queue` holds its mutex in `push` and `consume` (see `Verif.Parallel.MessageQueue`); a push
publishes its signal while it holds it, which stores `m_has_messages` and notifies the condition
variable without holding the worker's `m_mutex`.  `m_cv.wait(lock, pred)` evaluates `pred` and, if it is false, blocks: a
notification between the two is lost because the notifier does not take the mutex.  Processing a
request (`extrapolate`) is one step; its effect on the registry is not modelled.
-/

namespace Edyn.Net.ExtrapolationWorker

/-- A message: an extrapolation request (named by a number) or one of the other six types. -/
inductive Msg where
  | request (n : Nat)
  | other
deriving DecidableEq

/-- The thread: evaluating the predicate of `wait` (line 552-555); found it false, not blocked yet;
blocked; at line 559; at line 561; at the condition of line 566; returned. -/
inductive PC where
  | checking
  | toBlock
  | blocked
  | updating
  | taking
  | deciding
  | exited
deriving DecidableEq

/-- The mutex of the message queue: free, or held by a sender that has pushed, or has also stored
`m_has_messages`. -/
inductive Lock where
  | free
  | pushed
  | stored
deriving DecidableEq

/-- Members of `extrapolation_worker` (extrapolation_worker.hpp 84-88).  Ghosts: messages
`sent`; requests `received`, `processed` and `dropped` (each with the requests pending right after it was dropped). -/
structure S where
  queue : List Msg := []
  hasMessages : Bool := false
  running : Bool := true
  requests : List Nat := []
  pc : PC := .checking
  lock : Lock := .free
  sent : List Msg := []
  received : List Nat := []
  processed : List Nat := []
  dropped : List (Nat × List Nat) := []
deriving DecidableEq

def maxRequests : Nat := 3

/-- `on_extrapolation_request`, lines 146-152, or one of the other handlers, which do not touch
`m_requests`. -/
def receive (s : S) : Msg → S
  | .other => s
  | .request n =>
    if s.requests.length = maxRequests then
      { s with
        requests := s.requests.tail ++ [n]
        received := s.received ++ [n]
        dropped := s.dropped ++ (s.requests.head?.toList.map fun r => (r, s.requests.tail ++ [n])) }
    else { s with requests := s.requests ++ [n], received := s.received ++ [n] }

/-- `m_message_queue.update()`, line 559. -/
def update (s : S) : S := s.queue.foldl receive { s with queue := [] }

inductive Op where
  /-- a sender pushes a message. -/
  | push (m : Msg)
  /-- a sender stores `m_has_messages` (line 278). -/
  | store
  /-- a sender notifies (line 279). -/
  | notify
  /-- the worker's thread. -/
  | work
  /-- `stop` (lines 118-121), as one step. -/
  | stop
deriving DecidableEq

/-- The worker's thread, lines 545-569.  `none` while blocked, while a sender
holds the queue, and after it has returned. -/
def work (s : S) : Option S :=
  match s.pc with
  | .checking =>
    if s.hasMessages then some { s with hasMessages := false, pc := .updating }
    else if !s.running then some { s with pc := .updating }
    else some { s with pc := .toBlock }
  | .toBlock => some { s with pc := .blocked }
  | .blocked => none
  | .updating => if s.lock = .free then some { update s with pc := .taking } else none
  | .taking =>
    match s.requests with
    | [] => some { s with pc := .deciding }
    | r :: rs => some { s with requests := rs, processed := s.processed ++ [r], pc := .deciding }
  | .deciding =>
    if !s.requests.isEmpty && s.hasMessages then
      some { s with hasMessages := false, pc := .updating }
    else if s.running then some { s with pc := .checking }
    else some { s with pc := .exited }
  | .exited => none

/-- A notification: effective only if the thread is blocked. -/
def wake (s : S) : S := if s.pc = .blocked then { s with pc := .checking } else s

def step (s : S) : Op → Option S
  | .push m =>
    if s.lock = .free then
      some { s with queue := s.queue ++ [m], sent := s.sent ++ [m], lock := .pushed }
    else none
  | .store => if s.lock = .pushed then some { s with hasMessages := true, lock := .stored } else none
  | .notify => if s.lock = .stored then some (wake { s with lock := .free }) else none
  | .work => work s
  | .stop => some (wake { s with running := false })

inductive Reach : S → Prop
  | init : Reach {}
  | step {s s' : S} {op : Op} : Reach s → step s op = some s' → Reach s'

def exec (s : S) : List Op → Option S
  | [] => some s
  | op :: ops => match step s op with
    | none => none
    | some s => exec s ops

theorem reach_exec {s s' : S} {ops : List Op} (h : Reach s) (he : exec s ops = some s') :
    Reach s' := by
  induction ops generalizing s with
  | nil => cases he; exact h
  | cons op ops ih =>
    unfold exec at he
    cases hs : step s op with
    | none => rw [hs] at he; cases he
    | some s1 => rw [hs] at he; exact ih (.step h hs) he

/-! ### Specification -/

/-- The requests among a list of messages, in order. -/
def requestsOf : List Msg → List Nat
  | [] => []
  | .request n :: ms => n :: requestsOf ms
  | .other :: ms => requestsOf ms

theorem requestsOf_append (a b : List Msg) :
    requestsOf (a ++ b) = requestsOf a ++ requestsOf b := by
  induction a with
  | nil => rfl
  | cons x xs ih => cases x <;> simp [requestsOf, ih]

/-- Every received request was processed, dropped or is pending, and each exactly once; processed
ones in order; pending ones are the newest; drops only in favour of three newer ones. -/
structure Kept (s : S) : Prop where
  pending : ∃ older, s.received = older ++ s.requests ∧ s.processed.Sublist older
  bounded : s.requests.length ≤ maxRequests
  once : s.received.Perm (s.processed ++ s.dropped.map (·.1) ++ s.requests)
  drops : ∀ d ∈ s.dropped, d.2.length = maxRequests ∧
    ∃ a b, s.received = a ++ d.1 :: d.2 ++ b

theorem receive_kept {s : S} (m : Msg) (h : Kept s) : Kept (receive s m) := by
  obtain ⟨⟨older, h1, h2⟩, h3, h4, h5⟩ := h
  cases m with
  | other => exact ⟨⟨older, h1, h2⟩, h3, h4, h5⟩
  | request n =>
    simp only [receive]
    split
    · rename_i hfull
      cases hr : s.requests with
      | nil => rw [hr] at hfull; cases hfull
      | cons r rs =>
        rw [hr] at h1 h3 h4 hfull
        refine ⟨⟨older ++ [r], by simp [h1], ?_⟩, by simpa using h3, ?_, ?_⟩
        · exact h2.trans (List.sublist_append_left _ _)
        · simp only [List.head?_cons, Option.toList_some, List.map_cons, List.map_nil,
            List.map_append, List.tail_cons]
          refine (h4.append_right [n]).trans ?_
          simp [List.append_assoc]
        · intro d hd
          simp only [List.head?_cons, Option.toList_some, List.map_cons, List.map_nil,
            List.mem_append, List.mem_singleton, List.tail_cons] at hd
          rcases hd with hd | hd
          · obtain ⟨h6, a, b, h7⟩ := h5 d hd
            exact ⟨h6, a, b ++ [n], by simp [h7]⟩
          · subst hd
            refine ⟨by simpa using hfull, older, [], ?_⟩
            simp [h1]
    · rename_i hne
      refine ⟨⟨older, by simp [h1], h2⟩, ?_, ?_, ?_⟩
      · simp only [List.length_append, List.length_singleton]
        omega
      · refine (h4.append_right [n]).trans ?_
        simp [List.append_assoc]
      · intro d hd
        obtain ⟨h6, a, b, h7⟩ := h5 d hd
        exact ⟨h6, a, b ++ [n], by simp [h7]⟩

theorem foldl_receive_kept (ms : List Msg) {s : S} (h : Kept s) : Kept (ms.foldl receive s) := by
  induction ms generalizing s with
  | nil => exact h
  | cons m ms ih => exact ih (receive_kept m h)

theorem receive_fields (s : S) (m : Msg) :
    (receive s m).queue = s.queue ∧ (receive s m).sent = s.sent ∧
    (receive s m).received = s.received ++ requestsOf [m] ∧
    (receive s m).processed = s.processed ∧ (receive s m).hasMessages = s.hasMessages ∧
    (receive s m).running = s.running ∧ (receive s m).pc = s.pc := by
  cases m with
  | other => simp [receive, requestsOf]
  | request n => simp only [receive]; split <;> simp [requestsOf]

theorem foldl_receive_fields (ms : List Msg) (s : S) :
    (ms.foldl receive s).queue = s.queue ∧ (ms.foldl receive s).sent = s.sent ∧
    (ms.foldl receive s).received = s.received ++ requestsOf ms ∧
    (ms.foldl receive s).processed = s.processed := by
  induction ms generalizing s with
  | nil => simp [requestsOf]
  | cons m ms ih =>
    rw [List.foldl_cons]
    obtain ⟨h1, h2, h3, h4⟩ := ih (receive s m)
    obtain ⟨g1, g2, g3, g4, -⟩ := receive_fields s m
    refine ⟨h1.trans g1, h2.trans g2, ?_, h4.trans g4⟩
    rw [h3, g3, List.append_assoc, ← requestsOf_append]
    rfl

/-- What holds at every moment. -/
structure Inv (s : S) : Prop where
  kept : Kept s
  all : requestsOf s.sent = s.received ++ requestsOf s.queue

theorem Inv.congr {s s' : S} (h : Inv s) (h1 : s'.requests = s.requests)
    (h2 : s'.received = s.received) (h3 : s'.processed = s.processed)
    (h4 : s'.dropped = s.dropped) (h5 : s'.sent = s.sent) (h6 : s'.queue = s.queue) : Inv s' := by
  obtain ⟨⟨a, b, c, d⟩, e⟩ := h
  refine ⟨⟨?_, ?_, ?_, ?_⟩, ?_⟩
  · rw [h1, h2, h3]; exact a
  · rw [h1]; exact b
  · rw [h1, h2, h3, h4]; exact c
  · rw [h2, h4]; exact d
  · rw [h5, h6, h2]; exact e

theorem wake_inv {s : S} (h : Inv s) : Inv (wake s) := by
  unfold wake
  split
  · exact h.congr rfl rfl rfl rfl rfl rfl
  · exact h

theorem step_inv {s s' : S} {op : Op} (h : Inv s) (hs : step s op = some s') : Inv s' := by
  cases op with
  | push m =>
    simp only [step] at hs
    split at hs
    case isFalse => cases hs
    cases hs
    refine ⟨?_, ?_⟩
    · obtain ⟨a, b, c, d⟩ := h.kept
      exact ⟨a, b, c, d⟩
    · simp only [requestsOf_append, h.all, List.append_assoc]
  | store =>
    simp only [step] at hs
    split at hs
    · cases hs; exact h.congr rfl rfl rfl rfl rfl rfl
    · cases hs
  | notify =>
    simp only [step] at hs
    split at hs
    · cases hs; exact wake_inv (h.congr rfl rfl rfl rfl rfl rfl)
    · cases hs
  | stop =>
    simp only [step, Option.some.injEq] at hs
    subst hs
    exact wake_inv (h.congr rfl rfl rfl rfl rfl rfl)
  | work =>
    simp only [step, work] at hs
    cases hpc : s.pc with
    | checking =>
      rw [hpc] at hs
      simp only at hs
      split at hs
      · cases hs; exact h.congr rfl rfl rfl rfl rfl rfl
      · split at hs <;> cases hs <;> exact h.congr rfl rfl rfl rfl rfl rfl
    | toBlock =>
      rw [hpc] at hs
      cases hs
      exact h.congr rfl rfl rfl rfl rfl rfl
    | blocked => rw [hpc] at hs; cases hs
    | updating =>
      rw [hpc] at hs
      simp only at hs
      split at hs
      case isFalse => cases hs
      cases hs
      have h0 : Kept { s with queue := [] } := by
        obtain ⟨a, b, c, d⟩ := h.kept
        exact ⟨a, b, c, d⟩
      have h1 := foldl_receive_kept s.queue h0
      obtain ⟨g1, g2, g3, g4⟩ := foldl_receive_fields s.queue { s with queue := [] }
      refine Inv.congr (s := update s) ⟨h1, ?_⟩ rfl rfl rfl rfl rfl rfl
      show requestsOf (update s).sent = (update s).received ++ requestsOf (update s).queue
      unfold update
      rw [g1, g2, g3]
      simp [requestsOf, h.all]
    | taking =>
      rw [hpc] at hs
      simp only at hs
      cases hr : s.requests with
      | nil => rw [hr] at hs; cases hs; exact h.congr hr.symm rfl rfl rfl rfl rfl
      | cons r rs =>
        rw [hr] at hs
        cases hs
        obtain ⟨⟨older, h1, h2⟩, h3, h4, h5⟩ := h.kept
        rw [hr] at h1 h3 h4
        refine ⟨⟨⟨older ++ [r], by simp [h1], h2.append (List.Sublist.refl _)⟩, ?_, ?_, h5⟩, h.all⟩
        · simp only [List.length_cons] at h3; simp only; omega
        · simp only
          refine h4.trans ?_
          simp only [List.append_assoc]
          refine List.Perm.append_left _ ?_
          rw [← List.append_assoc]
          show ((List.map (·.1) s.dropped) ++ ([r] ++ rs)).Perm _
          rw [← List.append_assoc]
          exact (List.perm_append_comm).append_right rs
    | deciding =>
      rw [hpc] at hs
      simp only at hs
      split at hs
      · cases hs; exact h.congr rfl rfl rfl rfl rfl rfl
      · split at hs <;> cases hs <;> exact h.congr rfl rfl rfl rfl rfl rfl
    | exited => rw [hpc] at hs; cases hs

theorem reach_inv {s : S} (h : Reach s) : Inv s := by
  induction h with
  | init => exact ⟨⟨⟨[], rfl, by simp⟩, by simp, by simp, by simp⟩, rfl⟩
  | step _ hs ih => exact step_inv ih hs

/-! ### C46 -/

/-- **C46, order and dropping.** At every moment: requests are received in the order they were sent;
each received request was processed once, dropped once, or is pending; they are processed in order,
the pending ones are the newest received, there are at most three, and a request was dropped only
when three newer ones, received right after it, were pending. -/
theorem requests_kept {s : S} (h : Reach s) :
    requestsOf s.sent = s.received ++ requestsOf s.queue ∧
    s.received.Perm (s.processed ++ s.dropped.map (·.1) ++ s.requests) ∧
    (∃ older, s.received = older ++ s.requests ∧ s.processed.Sublist older) ∧
    s.requests.length ≤ maxRequests ∧
    ∀ d ∈ s.dropped, d.2.length = maxRequests ∧ ∃ a b, s.received = a ++ d.1 :: d.2 ++ b := by
  have hi := reach_inv h
  exact ⟨hi.all, hi.kept.once, hi.kept.pending, hi.kept.bounded, hi.kept.drops⟩

/-- Five requests arrive before the worker wakes: it drops the first two and takes the third. -/
example : ∃ s, Reach s ∧ s.processed = [3] ∧ s.requests = [4, 5] ∧
    s.dropped = [(1, [2, 3, 4]), (2, [3, 4, 5])] := by
  have hr : exec {} [.push (.request 1), .store, .notify, .push (.request 2), .store, .notify,
      .push (.request 3), .store, .notify, .push (.request 4), .store, .notify,
      .push (.request 5), .store, .notify, .work, .work, .work] = some
      { queue := [], hasMessages := false, running := true, requests := [4, 5], pc := .deciding,
        lock := .free,
        sent := [.request 1, .request 2, .request 3, .request 4, .request 5],
        received := [1, 2, 3, 4, 5], processed := [3],
        dropped := [(1, [2, 3, 4]), (2, [3, 4, 5])] } := by decide +kernel
  exact ⟨_, reach_exec .init hr, rfl, rfl, rfl⟩

/-- No request waits for ever: when all senders are done and the worker is blocked, nothing is left
to do. -/
def FullStatement : Prop :=
  ∀ s, Reach s → s.pc = .blocked → s.lock = .free →
    requestsOf s.queue = [] ∧ s.requests = []

/-- **Finding: lost wake-up.** A request pushed, stored and notified between the evaluation of the
predicate and the blocking of the thread stays in the queue while the thread sleeps. -/
theorem lost_wakeup : ∃ s, Reach s ∧ s.pc = .blocked ∧ s.lock = .free ∧
    s.running = true ∧ requestsOf s.queue = [1] ∧ step s .work = none := by
  have hr : exec {} [.work, .push (.request 1), .store, .notify, .work] = some
      { queue := [.request 1], hasMessages := true, running := true, requests := [],
        pc := .blocked, lock := .free, sent := [.request 1], received := [],
        processed := [], dropped := [] } := by decide +kernel
  exact ⟨_, reach_exec .init hr, rfl, rfl, rfl, rfl, rfl⟩

/-- **Finding: pending request forgotten.** Two requests received by one update: only the first is
processed; the loop ends because no further message came, and the thread sleeps with the second
pending. -/
theorem pending_forgotten : ∃ s, Reach s ∧ s.pc = .blocked ∧ s.lock = .free ∧
    s.running = true ∧ s.hasMessages = false ∧ s.processed = [1] ∧ s.requests = [2] ∧
    step s .work = none := by
  have hr : exec {} [.push (.request 1), .store, .notify, .push (.request 2), .store, .notify,
      .work, .work, .work, .work, .work, .work] = some
      { queue := [], hasMessages := false, running := true, requests := [2],
        pc := .blocked, lock := .free, sent := [.request 1, .request 2],
        received := [1, 2], processed := [1], dropped := [] } := by decide +kernel
  exact ⟨_, reach_exec .init hr, rfl, rfl, rfl, rfl, rfl, rfl, rfl⟩

/-- **Finding: stop lost.** `stop` between the evaluation and the blocking leaves the thread asleep. -/
theorem stop_lost : ∃ s, Reach s ∧ s.pc = .blocked ∧ s.running = false ∧
    step s .work = none := by
  have hr : exec {} [.work, .stop, .work] = some
      { queue := [], hasMessages := false, running := false, requests := [],
        pc := .blocked, lock := .free, sent := [], received := [],
        processed := [], dropped := [] } := by decide +kernel
  exact ⟨_, reach_exec .init hr, rfl, rfl, rfl⟩

theorem full_statement_false : ¬ FullStatement := by
  intro h
  obtain ⟨s, hr, h1, h2, -, h4, -⟩ := lost_wakeup
  have := (h s hr h1 h2).1
  rw [h4] at this
  cases this

/-- **C46 (partial).** If the thread is blocked, any further message wakes it: after its push, store
and notification the thread receives every message sent so far and processes the oldest request
kept.  Missing: without a further message it may sleep on (see the findings). -/
theorem next_message_wakes_partial {s : S} (h : Reach s) (hb : s.pc = .blocked)
    (hl : s.lock = .free) (m : Msg) :
    ∃ s', exec s [.push m, .store, .notify, .work, .work, .work] = some s' ∧
      s'.queue = [] ∧ s'.received = requestsOf s'.sent ∧
      (requestsOf (s.queue ++ [m]) ≠ [] ∨ s.requests ≠ [] →
        ∃ r, s'.processed = s.processed ++ [r]) := by
  have hi := reach_inv h
  let s3 : S := { s with
    queue := s.queue ++ [m], sent := s.sent ++ [m], hasMessages := true,
    lock := .free, pc := .checking }
  let s4 : S := { s3 with hasMessages := false, pc := .updating }
  have e1 : ∀ ops, exec s (.push m :: .store :: .notify :: .work :: ops) = exec s4 ops := by
    intro ops
    simp [exec, step, wake, hb, hl, work, s4, s3]
  rw [e1]
  have e2 : exec s4 [.work, .work] = step { update s4 with pc := .taking } .work := by
    have h1 : step s4 .work = some { update s4 with pc := .taking } := rfl
    rw [exec, h1]
    simp only [exec]
    split <;> simp_all
  rw [e2]
  have hk4 : Kept { s4 with queue := [] } := by
    obtain ⟨a, b, c, d⟩ := hi.kept
    exact ⟨a, b, c, d⟩
  have hk := foldl_receive_kept s4.queue hk4
  obtain ⟨g1, g2, g3, g4⟩ := foldl_receive_fields s4.queue { s4 with queue := [] }
  have hrec : (update s4).received = requestsOf (update s4).sent := by
    unfold update
    rw [g2, g3]
    show s.received ++ requestsOf (s.queue ++ [m]) = requestsOf (s.sent ++ [m])
    rw [requestsOf_append, requestsOf_append, hi.all, List.append_assoc]
  have hproc : (update s4).processed = s.processed := g4
  have hq : (update s4).queue = [] := g1
  simp only [step, work]
  cases hr : (update s4).requests with
  | nil =>
    refine ⟨_, rfl, hq, hrec, ?_⟩
    intro hne
    exfalso
    -- requests only grow or stay at three while messages are received
    have hlen : ∀ (ms : List Msg) (t : S), t.requests.length ≤ maxRequests →
        (requestsOf ms ≠ [] ∨ t.requests ≠ []) → (ms.foldl receive t).requests ≠ [] := by
      intro ms
      induction ms with
      | nil =>
        intro t _ h
        rcases h with h | h
        · exact absurd rfl h
        · exact h
      | cons x xs ih =>
        intro t ht h
        rw [List.foldl_cons]
        cases x with
        | other =>
          refine ih _ ht ?_
          rcases h with h | h
          · exact Or.inl h
          · exact Or.inr h
        | request n =>
          apply ih
          · simp only [receive]
            split
            · rename_i hf
              simp only [List.length_append, List.length_tail, List.length_singleton]
              simp only [maxRequests] at hf ⊢
              omega
            · simp only [List.length_append, List.length_singleton]; omega
          · right
            simp only [receive]
            split <;> simp
    exact hlen s4.queue { s4 with queue := [] } hi.kept.bounded hne hr
  | cons r rs => exact ⟨_, rfl, hq, hrec, fun _ => ⟨r, by simp only [hproc]⟩⟩

end Edyn.Net.ExtrapolationWorker
