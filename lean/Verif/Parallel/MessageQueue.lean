import Mathlib.Logic.Function.Basic
import Mathlib.Tactic.Set

/-!
# Message queues and the message dispatcher (C20)

Models `include/edyn/parallel/message_queue.hpp` and
`include/edyn/parallel/message_dispatcher.hpp` as a transition system: every step is one critical
section or one handler invocation of some thread, and the steps of all threads interleave freely.

Simplifications: sequentially consistent memory (the mutexes provide it); a message is its sender,
its type index and a payload; `clear_queues` is not modelled; one handle consumes each queue (the
code creates one per name).
-/

namespace Edyn.Parallel.MessageQueue

/-- `any_message`, `message_queue.hpp` lines 15-18: sender, type of the content, content. -/
structure Msg where
  sender : String
  type : Nat
  content : Nat
deriving DecidableEq

/-- A queue and its consumer.  `messages` is `m_messages` (line 62); `taken` holds the messages
that `consume` moved out but has not handed to the handlers yet (lines 46-52); `types` are the
`MessageTypes...` of the handle; `published` lists the messages published by the signals of the
handle, in order. `sent` is a ghost: all messages passed to `send` since the queue exists. -/
structure Queue where
  types : List Nat
  messages : List Msg := []
  taken : List Msg := []
  published : List Msg := []
  sent : List Msg := []
deriving DecidableEq

/-- The dispatcher: `m_queues`, `message_dispatcher.hpp` line 88. -/
abbrev Dispatcher := String → Option Queue

/-- Steps of the threads. -/
inductive Step where
  /-- `make_queue` -/
  | make (name : String) (types : List Nat)
  /-- `send` -/
  | send (dst : String) (m : Msg)
  /-- the critical section of `consume` -/
  | take (name : String)
  /-- one iteration of the loop in `consume` -/
  | handle (name : String)

/-- `make_queue`, `message_dispatcher.hpp` lines 61-68: creates the queue unless it exists. -/
def make (d : Dispatcher) (name : String) (types : List Nat) : Dispatcher :=
  match d name with
  | some _ => d
  | none => Function.update d name (some { types })

/-- `send`, lines 70-76, and `message_queue::push`, `message_queue.hpp` lines 28-34: the message is
dropped if there is no such queue. -/
def send (d : Dispatcher) (dst : String) (m : Msg) : Dispatcher :=
  match d dst with
  | none => d
  | some q => Function.update d dst
      (some { q with messages := q.messages ++ [m], sent := q.sent ++ [m] })

/-- The critical section of `consume`, `message_queue.hpp` lines 38-40.  It is reached only when
the previous call is finished. -/
def take (d : Dispatcher) (name : String) : Dispatcher :=
  match d name with
  | none => d
  | some q =>
    if q.taken = [] then Function.update d name (some { q with taken := q.messages, messages := [] })
    else d

/-- `maybe_consume_message` for each type of the handle, `message_dispatcher.hpp` lines 17-24 and
43-47: the signals invoked for one message. -/
def publish (types : List Nat) (m : Msg) : List Msg :=
  (types.filter fun t => t == m.type).map fun _ => m

/-- One iteration of the loop in `consume`, `message_queue.hpp` lines 42-44. -/
def handle (d : Dispatcher) (name : String) : Dispatcher :=
  match d name with
  | none => d
  | some q =>
    match q.taken with
    | [] => d
    | m :: rest =>
      Function.update d name
        (some { q with taken := rest, published := q.published ++ publish q.types m })

/-- One step. -/
def step (d : Dispatcher) : Step → Dispatcher
  | .make name types => make d name types
  | .send dst m => send d dst m
  | .take name => take d name
  | .handle name => handle d name

/-- An interleaving. -/
def run (d : Dispatcher) (ss : List Step) : Dispatcher := ss.foldl step d

/-- No queue. -/
def empty : Dispatcher := fun _ => none

/-! ## Specification -/

/-- The messages sent to `name` after the queue was created, in the order in which the pushes
happened. -/
def sentTo (name : String) : List Step → Bool → List Msg
  | [], _ => []
  | .make n _ :: ss, ex => sentTo name ss (ex || decide (n = name))
  | .send dst m :: ss, ex =>
    if dst = name ∧ ex = true then m :: sentTo name ss ex else sentTo name ss ex
  | _ :: ss, ex => sentTo name ss ex

/-- The subsequence of the messages of the types the handle was made for. -/
def ofTypes (types : List Nat) (ms : List Msg) : List Msg :=
  ms.filter fun m => decide (m.type ∈ types)

/-! ## Proof -/

theorem publish_nodup {types : List Nat} (h : types.Nodup) (m : Msg) :
    publish types m = if m.type ∈ types then [m] else [] := by
  unfold publish
  induction types with
  | nil => simp
  | cons t ts ih =>
    rw [List.nodup_cons] at h
    have ih := ih h.2
    by_cases ht : t = m.type
    · subst ht
      have hn : ts.filter (fun t => t == m.type) = [] := by
        rw [List.filter_eq_nil_iff]
        intro x hx
        simp only [beq_iff_eq]
        rintro rfl
        exact h.1 hx
      simp [hn]
    · have ht' : ¬ m.type = t := fun h => ht h.symm
      simp [ht, ht', ih]

structure QInv (q : Queue) : Prop where
  nodup : q.types.Nodup
  fifo : ofTypes q.types q.sent =
    q.published ++ ofTypes q.types q.taken ++ ofTypes q.types q.messages

/-- Handles are made for distinct types. -/
def Fine : Step → Prop
  | .make _ types => types.Nodup
  | _ => True

theorem step_inv {d : Dispatcher} (h : ∀ n q, d n = some q → QInv q) {s : Step} (hs : Fine s) :
    ∀ n q, step d s n = some q → QInv q := by
  intro n q hq
  cases s with
  | make name types =>
    simp only [step, make] at hq
    cases hd : d name with
    | some q0 => rw [hd] at hq; exact h n q hq
    | none =>
      rw [hd] at hq
      simp only at hq
      by_cases hn : n = name
      · subst hn
        rw [Function.update_self] at hq
        cases hq
        exact ⟨hs, by simp [ofTypes]⟩
      · rw [Function.update_of_ne hn] at hq
        exact h n q hq
  | send dst m =>
    simp only [step, send] at hq
    cases hq0 : d dst with
    | none => rw [hq0] at hq; exact h n q hq
    | some q0 =>
      rw [hq0] at hq
      simp only at hq
      by_cases hn : n = dst
      · subst hn
        rw [Function.update_self] at hq
        cases hq
        obtain ⟨i1, i2⟩ := h n q0 hq0
        refine ⟨i1, ?_⟩
        simp only [ofTypes, List.filter_append] at i2 ⊢
        rw [i2]
        simp [List.append_assoc]
      · rw [Function.update_of_ne hn] at hq
        exact h n q hq
  | take name =>
    simp only [step, take] at hq
    cases hq0 : d name with
    | none => rw [hq0] at hq; exact h n q hq
    | some q0 =>
      rw [hq0] at hq
      simp only at hq
      split at hq
      · rename_i ht
        by_cases hn : n = name
        · subst hn
          rw [Function.update_self] at hq
          cases hq
          obtain ⟨i1, i2⟩ := h n q0 hq0
          refine ⟨i1, ?_⟩
          rw [ht] at i2
          simpa [ofTypes] using i2
        · rw [Function.update_of_ne hn] at hq
          exact h n q hq
      · exact h n q hq
  | handle name =>
    simp only [step, handle] at hq
    cases hq0 : d name with
    | none => rw [hq0] at hq; exact h n q hq
    | some q0 =>
      rw [hq0] at hq
      simp only at hq
      cases ht : q0.taken with
      | nil => rw [ht] at hq; exact h n q hq
      | cons m rest =>
        rw [ht] at hq
        simp only at hq
        by_cases hn : n = name
        · subst hn
          rw [Function.update_self] at hq
          cases hq
          obtain ⟨i1, i2⟩ := h n q0 hq0
          refine ⟨i1, ?_⟩
          rw [ht] at i2
          simp only at i2 ⊢
          rw [i2, publish_nodup i1]
          by_cases hm : m.type ∈ q0.types <;> simp [ofTypes, hm]
        · rw [Function.update_of_ne hn] at hq
          exact h n q hq

theorem run_inv (ss : List Step) (hs : ∀ s ∈ ss, Fine s) {d : Dispatcher}
    (h : ∀ n q, d n = some q → QInv q) : ∀ n q, run d ss n = some q → QInv q := by
  induction ss generalizing d with
  | nil => exact h
  | cons s ss ih =>
    exact ih (fun s h => hs s (List.mem_cons_of_mem _ h)) (step_inv h (hs s (by simp)))

/-- The ghost log records the specification's sends. -/
theorem run_sent (ss : List Step) (name : String) (d : Dispatcher) :
    (∀ q, run d ss name = some q →
      q.sent = ((d name).map (·.sent)).getD [] ++ sentTo name ss (d name).isSome) := by
  induction ss generalizing d with
  | nil =>
    intro q hq
    have hq : d name = some q := hq
    simp [hq, sentTo]
  | cons s ss ih =>
    intro q hq
    have hq' := ih (step d s) q hq
    rw [hq']
    cases s with
    | make n types =>
      simp only [step, make, sentTo]
      by_cases hn : n = name
      · subst hn
        cases hd : d n with
        | some q0 => simp [hd]
        | none => simp
      · cases hd : d n with
        | some q0 => simp [hn]
        | none =>
          have : ¬ name = n := fun h => hn h.symm
          simp [hn, Function.update_of_ne this]
    | send dst m =>
      simp only [step, send, sentTo]
      by_cases hn : dst = name
      · subst hn
        cases hd : d dst with
        | some q0 => simp
        | none => simp [hd]
      · have : ¬ name = dst := fun h => hn h.symm
        cases hd : d dst with
        | some q0 => simp [hn, Function.update_of_ne this]
        | none => simp [hn]
    | take n =>
      simp only [step, take, sentTo]
      cases hd : d n with
      | none => rfl
      | some q0 =>
        by_cases ht : q0.taken = []
        · by_cases hn : name = n
          · subst hn; simp [ht, hd]
          · simp [ht, Function.update_of_ne hn]
        · simp [ht]
    | handle n =>
      simp only [step, handle, sentTo]
      cases hd : d n with
      | none => rfl
      | some q0 =>
        cases ht : q0.taken with
        | nil => simp only [ht]
        | cons m rest =>
          by_cases hn : name = n
          · subst hn; simp [ht, hd]
          · simp [ht, Function.update_of_ne hn]

/-- **C20, exactly once and in order.** Under every interleaving of senders and consumers: the
messages published so far by the handle of a queue, followed by those on their way, are exactly the
messages (of the types of the handle) that were sent to it since it was created, in the order in
which they were pushed.  Nothing is lost, duplicated or reordered. -/
theorem messages_exactly_once (ss : List Step) (hs : ∀ s ∈ ss, Fine s) (name : String) (q : Queue)
    (hq : run empty ss name = some q) :
    ofTypes q.types (sentTo name ss false) =
      q.published ++ ofTypes q.types q.taken ++ ofTypes q.types q.messages := by
  have h1 := run_inv ss hs (d := empty) (by intro n q h; cases h) name q hq
  have h2 := run_sent ss name empty q hq
  simp only [empty, Option.map_none, Option.getD_none, List.nil_append, Option.isSome_none] at h2
  rw [← h2]
  exact h1.fifo

/-- **C20, order per sender.** The messages of each sender are published in the order in which that
sender sent them: what was published is a prefix. -/
theorem sender_order (ss : List Step) (hs : ∀ s ∈ ss, Fine s) (name sender : String) (q : Queue)
    (hq : run empty ss name = some q) :
    (q.published.filter fun m => m.sender == sender) <+:
      ((ofTypes q.types (sentTo name ss false)).filter fun m => m.sender == sender) := by
  rw [messages_exactly_once ss hs name q hq, List.append_assoc, List.filter_append]
  exact List.prefix_append _ _

/-- The handler iterations of one `consume` call. -/
theorem handles_drain (name : String) (d : Dispatcher) (q : Queue) (hq : d name = some q) :
    run d (List.replicate q.taken.length (.handle name)) name =
      some { q with taken := [], published := q.published ++ q.taken.flatMap (publish q.types) } := by
  induction ht : q.taken generalizing d q with
  | nil =>
    simp only [List.length_nil, List.replicate_zero, run, List.foldl_nil, hq, List.flatMap_nil,
      List.append_nil]
    rw [← ht]
  | cons m rest ih =>
    have hstep : step d (.handle name) = Function.update d name
        (some { q with taken := rest, published := q.published ++ publish q.types m }) := by
      simp only [step, handle, hq, ht]
    show run (step d (.handle name)) (List.replicate rest.length (.handle name)) name = _
    have := ih (step d (.handle name))
      { q with taken := rest, published := q.published ++ publish q.types m }
      (by rw [hstep, Function.update_self]) rfl
    rw [this]
    simp [List.append_assoc]

/-- **C20, delivery.** From every reachable state, finishing the current `update` and running one
more publishes every message sent so far. -/
theorem update_delivers_all (ss : List Step) (hs : ∀ s ∈ ss, Fine s) (name : String) (q : Queue)
    (hq : run empty ss name = some q) :
    ∃ k l q', run empty (ss ++ (List.replicate k (.handle name) ++ .take name ::
        List.replicate l (.handle name))) name = some q' ∧
      q'.published = ofTypes q.types (sentTo name ss false) := by
  have hinv := run_inv ss hs (d := empty) (by intro n q h; cases h) name q hq
  have hpub : ∀ l : List Msg, l.flatMap (publish q.types) = ofTypes q.types l := by
    intro l
    induction l with
    | nil => rfl
    | cons m l ih =>
      rw [List.flatMap_cons, ih, publish_nodup hinv.nodup]
      by_cases hm : m.type ∈ q.types <;> simp [ofTypes, hm]
  have h1 := handles_drain name (run empty ss) q hq
  set d1 := run (run empty ss) (List.replicate q.taken.length (.handle name)) with hd1
  have h2 : step d1 (.take name) = Function.update d1 name (some { q with
      taken := q.messages, messages := []
      published := q.published ++ q.taken.flatMap (publish q.types) }) := by
    simp only [step, take, h1, if_true]
  have h3 := handles_drain name (step d1 (.take name)) _ (by rw [h2, Function.update_self])
  refine ⟨q.taken.length, q.messages.length, { q with
      taken := [], messages := []
      published := q.published ++ q.taken.flatMap (publish q.types) ++
        q.messages.flatMap (publish q.types) }, ?_, ?_⟩
  · have hrun : ∀ (d : Dispatcher) (a b : List Step), run d (a ++ b) = run (run d a) b := by
      intro d a b; unfold run; rw [List.foldl_append]
    rw [hrun, hrun]
    exact h3
  · simp only
    rw [hpub, hpub, messages_exactly_once ss hs name q hq]

/-- **Finding (by design).** A message sent to a name for which no queue exists is dropped. -/
theorem send_without_queue (d : Dispatcher) (dst : String) (m : Msg) (h : d dst = none) :
    step d (.send dst m) = d := by
  simp [step, send, h]

/-- **Finding.** A second handle made for the same name shares the queue but not the list of types:
messages of its types are swallowed by the first consumer. -/
theorem second_handle_not_served :
    ∃ q, run empty [.make "a" [1], .make "a" [2], .send "a" ⟨"s", 2, 5⟩, .take "a", .handle "a"]
      "a" = some q ∧ q.published = [] ∧ q.taken = [] ∧ q.messages = [] :=
  ⟨_, rfl, rfl, rfl, rfl⟩

/-! ### Non-vacuity -/

/-- Two senders interleaved with a consumer; a message arrives between taking and handling. -/
example :
    let ss : List Step := [.send "w" ⟨"a", 1, 0⟩, .make "w" [1, 2], .send "w" ⟨"a", 1, 1⟩,
      .send "w" ⟨"b", 2, 2⟩, .take "w", .handle "w", .send "w" ⟨"a", 1, 3⟩, .handle "w"]
    (∀ s ∈ ss, Fine s) ∧ ∃ q, run empty ss "w" = some q ∧
      q.published = [⟨"a", 1, 1⟩, ⟨"b", 2, 2⟩] ∧ q.messages = [⟨"a", 1, 3⟩] := by
  refine ⟨?_, _, rfl, by decide, by decide⟩
  intro s hs
  simp only [List.mem_cons, List.not_mem_nil, or_false] at hs
  rcases hs with rfl | rfl | rfl | rfl | rfl | rfl | rfl | rfl <;> simp [Fine]

end Edyn.Parallel.MessageQueue
