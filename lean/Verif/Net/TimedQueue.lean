import Mathlib.Algebra.Order.Group.Defs
import Mathlib.Algebra.Order.Group.Int
import Mathlib.Algebra.Order.Sub.Basic
import Mathlib.Data.List.Perm.Basic
import Mathlib.Tactic.Linarith

/-!
# The server's queue of timed packets (C26)

Models `insert_packet_to_queue`, `enqueue_packet` and `server_process_timed_packets`
of `src/edyn/networking/sys/server_side.cpp`.

Simplifications: `double` is replaced by an arbitrary linearly ordered additive group
(no rounding, no NaN); one client is modelled because the loop of
`server_process_timed_packets` treats each client with its own queue and delay; the
effect of `process_packet` is not modelled here, only the fact that it is called.
-/

set_option linter.unusedSectionVars false

namespace Edyn.Net.TimedQueue

variable {T : Type*} [AddCommGroup T] [LinearOrder T] [IsOrderedAddMonoid T] {P : Type*}

/-- `timed_packet`, `include/edyn/networking/comp/remote_client.hpp` 13-16. -/
structure Timed (T P : Type*) where
  timestamp : T
  packet : P
deriving DecidableEq

/-- `insert_packet_to_queue`, `server_side.cpp` 618-624: `find_if` the first element
whose timestamp is greater, insert in front of it. -/
def insertPacket (q : List (Timed T P)) (timestamp : T) (p : P) : List (Timed T P) :=
  q.takeWhile (fun x => !decide (x.timestamp > timestamp)) ++
    ⟨timestamp, p⟩ :: q.dropWhile (fun x => !decide (x.timestamp > timestamp))

/-- The timestamp computed by `enqueue_packet`, `server_side.cpp` 626-638 (and 672-678 for
snapshots): the packet's timestamp moved to server time and clamped to now once the clock
has been synchronised, else half a round trip ago.  The halving is an argument. -/
def packetTimestamp (syncCount : Nat) (timeDelta halfRtt : T) (stamp time : T) : T :=
  if syncCount > 0 then min (stamp + timeDelta) time else time - halfRtt

/-- The loop and the `erase` of `server_process_timed_packets`, `server_side.cpp` 309-325.
Returns the packets given to `process_packet` in order, and the remaining queue. -/
def processTimed (time playoutDelay : T) :
    List (Timed T P) → List (Timed T P) × List (Timed T P)
  | [] => ([], [])
  | x :: xs =>
    if x.timestamp > time - playoutDelay then ([], x :: xs)
    else
      let r := processTimed time playoutDelay xs
      (x :: r.1, r.2)

/-! ## Executions -/

/-- What happens to one client's queue: a packet with a timestamp arrives, or the server
updates at a time with the playout delay in force then. -/
inductive Event (T : Type*)
  | arrive (timestamp : T)
  | update (time playoutDelay : T)

/-- A packet given to `process_packet`: during which event, at which time, with which
delay, and which packet; packets are named by the number of the event that brought them. -/
structure Processed (T : Type*) where
  during : Nat
  time : T
  delay : T
  timestamp : T
  arrival : Nat

/-- Queue and the log of all processed packets, in processing order. -/
structure St (T : Type*) where
  queue : List (Timed T Nat) := []
  log : List (Processed T) := []

/-- Effect of event number `k`. -/
def step (k : Nat) (s : St T) : Event T → St T
  | .arrive t => { s with queue := insertPacket s.queue t k }
  | .update time d =>
    let r := processTimed time d s.queue
    { queue := r.2
      log := s.log ++ r.1.map fun x => ⟨k, time, d, x.timestamp, x.packet⟩ }

def runFrom (k : Nat) (s : St T) : List (Event T) → St T
  | [] => s
  | e :: es => runFrom (k + 1) (step k s e) es

/-- All events from an empty queue. -/
def run (es : List (Event T)) : St T := runFrom 0 {} es

/-! ## Specification -/

/-- Timestamp and number of every arrival in a list of events. -/
def arrivalsFrom (k : Nat) : List (Event T) → List (T × Nat)
  | [] => []
  | .arrive t :: es => (t, k) :: arrivalsFrom (k + 1) es
  | .update .. :: es => arrivalsFrom (k + 1) es

/-- Earlier timestamp, or same timestamp and earlier arrival. -/
def Before (t₁ : T) (n₁ : Nat) (t₂ : T) (n₂ : Nat) : Prop :=
  t₁ < t₂ ∨ (t₁ = t₂ ∧ n₁ < n₂)

/-! ## Lemmas -/

theorem insertPacket_perm (q : List (Timed T P)) (t : T) (p : P) :
    (insertPacket q t p).Perm (⟨t, p⟩ :: q) := by
  unfold insertPacket
  refine (List.perm_middle).trans ?_
  rw [List.takeWhile_append_dropWhile]

/-- The queue order. -/
def QBefore (a b : Timed T Nat) : Prop := Before a.timestamp a.packet b.timestamp b.packet

theorem insertPacket_sorted {q : List (Timed T Nat)} {t : T} {k : Nat}
    (hs : q.Pairwise QBefore) (hk : ∀ x ∈ q, x.packet < k) :
    (insertPacket q t k).Pairwise QBefore := by
  induction q with
  | nil => simp [insertPacket]
  | cons x xs ih =>
    rw [List.pairwise_cons] at hs
    by_cases h : x.timestamp > t
    · have e : insertPacket (x :: xs) t k = ⟨t, k⟩ :: x :: xs := by
        simp [insertPacket, h]
      rw [e, List.pairwise_cons, List.pairwise_cons]
      refine ⟨?_, hs⟩
      intro y hy
      rcases List.mem_cons.1 hy with rfl | hy
      · exact Or.inl h
      · rcases hs.1 y hy with h2 | h2
        · exact Or.inl (lt_trans h h2)
        · exact Or.inl (by rw [← h2.1]; exact h)
    · have e : insertPacket (x :: xs) t k = x :: insertPacket xs t k := by
        simp [insertPacket, h]
      rw [e, List.pairwise_cons]
      refine ⟨?_, ih hs.2 (fun y hy => hk y (List.mem_cons_of_mem _ hy))⟩
      intro y hy
      rcases List.mem_cons.1 ((insertPacket_perm xs t k).mem_iff.1 hy) with rfl | hy
      · rcases lt_or_eq_of_le (not_lt.1 h) with h2 | h2
        · exact Or.inl h2
        · exact Or.inr ⟨h2, hk x (by simp)⟩
      · exact hs.1 y hy

theorem processTimed_append (time d : T) (q : List (Timed T P)) :
    (processTimed time d q).1 ++ (processTimed time d q).2 = q := by
  induction q with
  | nil => rfl
  | cons x xs ih =>
    unfold processTimed
    split
    · rfl
    · simp [ih]

theorem processTimed_due (time d : T) (q : List (Timed T P)) :
    ∀ x ∈ (processTimed time d q).1, x.timestamp + d ≤ time := by
  induction q with
  | nil => simp [processTimed]
  | cons x xs ih =>
    unfold processTimed
    split
    · simp
    · rename_i h
      intro y hy
      rcases List.mem_cons.1 hy with rfl | hy
      · exact le_sub_iff_add_le.1 (not_lt.1 h)
      · exact ih y hy

theorem processTimed_rest {time d : T} {q : List (Timed T Nat)}
    (hs : q.Pairwise QBefore) :
    ∀ x ∈ (processTimed time d q).2, time < x.timestamp + d := by
  induction q with
  | nil => simp [processTimed]
  | cons x xs ih =>
    rw [List.pairwise_cons] at hs
    unfold processTimed
    split
    · rename_i h
      intro y hy
      have hx : time < x.timestamp + d := sub_lt_iff_lt_add.1 h
      rcases List.mem_cons.1 hy with rfl | hy
      · exact hx
      · refine lt_of_lt_of_le hx ?_
        rcases hs.1 y hy with h2 | h2
        · exact add_le_add_left h2.le d
        · rw [h2.1]
    · exact ih hs.2

/-- Everything known about a state after events number `< k`. -/
structure Inv (k : Nat) (arr : List (T × Nat)) (s : St T) : Prop where
  sorted : s.queue.Pairwise QBefore
  old : ∀ x ∈ s.queue, x.packet < k
  once : (s.log.map (fun p => (p.timestamp, p.arrival)) ++
    s.queue.map fun x => (x.timestamp, x.packet)).Perm arr
  due : ∀ p ∈ s.log, p.timestamp + p.delay ≤ p.time
  past : ∀ p ∈ s.log, p.during < k
  order : s.log.Pairwise fun a b =>
    Before a.timestamp a.arrival b.timestamp b.arrival ∨ a.during < b.arrival
  cross : ∀ a ∈ s.log, ∀ b ∈ s.queue,
    Before a.timestamp a.arrival b.timestamp b.packet ∨ a.during < b.packet

theorem step_inv {k : Nat} {arr : List (T × Nat)} {s : St T} (h : Inv k arr s) (e : Event T) :
    Inv (k + 1) (arr ++ arrivalsFrom k [e]) (step k s e) := by
  cases e with
  | arrive t =>
    have hp := insertPacket_perm s.queue t k
    refine ⟨insertPacket_sorted h.sorted h.old, ?_, ?_, h.due, ?_, h.order, ?_⟩
    · intro x hx
      rcases List.mem_cons.1 (hp.mem_iff.1 hx) with rfl | hx
      · exact Nat.lt_succ_self k
      · exact Nat.lt_succ_of_lt (h.old x hx)
    · simp only [step, arrivalsFrom]
      have h2 := hp.map (fun x : Timed T Nat => (x.timestamp, x.packet))
      refine (List.Perm.append_left _ h2).trans ?_
      simp only [List.map_cons]
      refine List.perm_middle.trans ?_
      exact (List.Perm.cons _ h.once).trans (List.perm_append_singleton _ _).symm
    · intro p hp
      exact Nat.lt_succ_of_lt (h.past p hp)
    · intro a ha b hb
      rcases List.mem_cons.1 (hp.mem_iff.1 hb) with rfl | hb
      · exact Or.inr (h.past a ha)
      · exact h.cross a ha b hb
  | update time d =>
    have ha := processTimed_append time d s.queue
    have hsp := h.sorted
    rw [← ha, List.pairwise_append] at hsp
    have hmem : ∀ x, x ∈ s.queue ↔
        x ∈ (processTimed time d s.queue).1 ∨ x ∈ (processTimed time d s.queue).2 := by
      intro x
      rw [← List.mem_append, ha]
    refine ⟨hsp.2.1, ?_, ?_, ?_, ?_, ?_, ?_⟩
    · intro x hx
      exact Nat.lt_succ_of_lt (h.old x ((hmem x).2 (Or.inr hx)))
    · simp only [step, arrivalsFrom, List.append_nil, List.map_append, List.map_map,
        List.append_assoc]
      have : List.map ((fun p : Processed T => (p.timestamp, p.arrival)) ∘
          fun x : Timed T Nat => (⟨k, time, d, x.timestamp, x.packet⟩ : Processed T))
          (processTimed time d s.queue).1 ++
          List.map (fun x => (x.timestamp, x.packet)) (processTimed time d s.queue).2 =
          s.queue.map fun x => (x.timestamp, x.packet) := by
        conv => rhs; rw [← ha, List.map_append]
        rfl
      rw [this]
      exact h.once
    · intro p hp
      simp only [step, List.mem_append, List.mem_map] at hp
      rcases hp with hp | ⟨x, hx, rfl⟩
      · exact h.due p hp
      · exact processTimed_due time d s.queue x hx
    · intro p hp
      simp only [step, List.mem_append, List.mem_map] at hp
      rcases hp with hp | ⟨x, hx, rfl⟩
      · exact Nat.lt_succ_of_lt (h.past p hp)
      · exact Nat.lt_succ_self k
    · simp only [step, List.pairwise_append]
      refine ⟨h.order, ?_, ?_⟩
      · rw [List.pairwise_map]
        exact hsp.1.imp fun h2 => Or.inl h2
      · intro a ha' b hb
        rw [List.mem_map] at hb
        obtain ⟨x, hx, rfl⟩ := hb
        exact h.cross a ha' x ((hmem x).2 (Or.inl hx))
    · intro a ha' b hb
      simp only [step, List.mem_append, List.mem_map] at ha' hb
      rcases ha' with ha' | ⟨x, hx, rfl⟩
      · exact h.cross a ha' b ((hmem b).2 (Or.inr hb))
      · exact Or.inl (hsp.2.2 x hx b hb)

theorem arrivalsFrom_cons (k : Nat) (e : Event T) (es : List (Event T)) :
    arrivalsFrom k (e :: es) = arrivalsFrom k [e] ++ arrivalsFrom (k + 1) es := by
  cases e <;> rfl

theorem runFrom_inv {k : Nat} {arr : List (T × Nat)} {s : St T} (h : Inv k arr s)
    (es : List (Event T)) :
    Inv (k + es.length) (arr ++ arrivalsFrom k es) (runFrom k s es) := by
  induction es generalizing k arr s with
  | nil => simpa [arrivalsFrom, runFrom] using h
  | cons e es ih =>
    have := ih (step_inv h e)
    rw [arrivalsFrom_cons, ← List.append_assoc]
    simpa [runFrom, Nat.add_assoc, Nat.add_comm 1] using this

theorem run_inv (es : List (Event T)) :
    Inv es.length (arrivalsFrom 0 es) (run es) := by
  have h0 : Inv 0 [] ({} : St T) := by
    constructor <;> simp
  have := runFrom_inv h0 es
  rw [Nat.zero_add] at this
  exact this

theorem runFrom_append (k : Nat) (s : St T) (es fs : List (Event T)) :
    runFrom k s (es ++ fs) = runFrom (k + es.length) (runFrom k s es) fs := by
  induction es generalizing k s with
  | nil => rfl
  | cons e es ih =>
    simp only [List.cons_append, runFrom, ih, List.length_cons]
    congr 1
    omega

/-! ## C26 -/

/-- **C26, exactly once.** For every history of arrivals and updates, the processed packets
together with those still queued are the arrived packets, each once. -/
theorem timed_packets_exactly_once (es : List (Event T)) :
    ((run es).log.map (fun p => (p.timestamp, p.arrival)) ++
      (run es).queue.map fun x => (x.timestamp, x.packet)).Perm (arrivalsFrom 0 es) :=
  (run_inv es).once

/-- **C26, never early.** No packet is processed before its timestamp plus the playout delay. -/
theorem timed_packets_not_early (es : List (Event T)) :
    ∀ p ∈ (run es).log, p.timestamp + p.delay ≤ p.time :=
  (run_inv es).due

/-- **C26, never late.** After an update no packet that was due is left in the queue. -/
theorem timed_packets_not_late (es : List (Event T)) (time delay : T) :
    ∀ x ∈ (run (es ++ [.update time delay])).queue, time < x.timestamp + delay := by
  unfold run
  rw [runFrom_append]
  exact processTimed_rest (run_inv es).sorted

/-- **C26, order.** If `a` is processed before `b` then `a` has the smaller timestamp, or the
same timestamp and arrived first, or `b` only arrived after `a` had been processed. -/
theorem timed_packets_in_order (es : List (Event T)) :
    (run es).log.Pairwise fun a b =>
      Before a.timestamp a.arrival b.timestamp b.arrival ∨ a.during < b.arrival :=
  (run_inv es).order

/-- The timestamp given to a packet is never in the server's future, so a packet that arrives
at `time` is due at the latest one playout delay after it arrived. -/
theorem packetTimestamp_le (n : Nat) (timeDelta halfRtt stamp time : T) (h : 0 ≤ halfRtt) :
    packetTimestamp n timeDelta halfRtt stamp time ≤ time := by
  unfold packetTimestamp
  split
  · exact min_le_right _ _
  · exact sub_le_self _ h

/-- **C26, progress.** A packet that arrived at or before `now` in the way `enqueue_packet` stamps
it is processed by any update that happens a playout delay later. -/
theorem timed_packet_processed (es fs : List (Event T)) (n : Nat)
    (timeDelta halfRtt stamp arrived time delay : T) (hr : 0 ≤ halfRtt)
    (ht : arrived + delay ≤ time) :
    ∃ p ∈ (run (es ++ .arrive (packetTimestamp n timeDelta halfRtt stamp arrived) :: fs ++
      [.update time delay])).log, p.arrival = es.length := by
  set t := packetTimestamp n timeDelta halfRtt stamp arrived with htdef
  have hle : t ≤ arrived := packetTimestamp_le n timeDelta halfRtt stamp arrived hr
  set evs := es ++ .arrive t :: fs ++ [Event.update time delay] with hev
  have hmem : (t, es.length) ∈ arrivalsFrom 0 evs := by
    have gen : ∀ (k : Nat) (es' : List (Event T)),
        (t, k + es'.length) ∈ arrivalsFrom k (es' ++ .arrive t :: fs ++ [Event.update time delay]) := by
      intro k es'
      induction es' generalizing k with
      | nil => simp [arrivalsFrom]
      | cons e es' ih =>
        have := ih (k + 1)
        have e2 : k + (e :: es').length = k + 1 + es'.length := by simp; omega
        rw [e2]
        cases e
        · exact List.mem_cons_of_mem _ this
        · exact this
    have := gen 0 es
    rwa [Nat.zero_add] at this
  have hp := (timed_packets_exactly_once evs).mem_iff.2 hmem
  rw [List.mem_append, List.mem_map, List.mem_map] at hp
  rcases hp with ⟨p, hp, hpe⟩ | ⟨x, hx, hxe⟩
  · exact ⟨p, hp, congrArg Prod.snd hpe⟩
  · exfalso
    have h1 := timed_packets_not_late (es ++ .arrive t :: fs) time delay x (by simpa [hev] using hx)
    have h2 : x.timestamp = t := congrArg Prod.fst hxe
    rw [h2] at h1
    have h3 : t + delay ≤ arrived + delay := add_le_add_left hle delay
    exact absurd (lt_of_lt_of_le h1 (le_trans h3 ht)) (lt_irrefl _)

/-- Non-vacuity: out-of-order arrivals with a tie, two updates with different delays. -/
example :
    let es : List (Event ℤ) :=
      [.arrive 5, .arrive 3, .arrive 5, .update 7 2, .arrive 1, .arrive 9, .update 10 1]
    (run es).log.map (·.arrival) = [1, 0, 2, 4, 5] ∧ (run es).queue = [] := by
  decide +kernel

end Edyn.Net.TimedQueue
