import Mathlib.Algebra.Order.Field.Basic
import Mathlib.Algebra.Order.Field.Rat
import Mathlib.Algebra.BigOperators.Group.List.Basic
import Mathlib.Algebra.Order.BigOperators.Group.List
import Mathlib.Data.List.Induction
import Mathlib.Tactic.Linarith
import Mathlib.Tactic.Ring
import Mathlib.Tactic.FieldSimp

/-!
# Clock synchronisation (C22)

Models `include/edyn/networking/util/clock_sync.hpp` and
`src/edyn/networking/util/clock_sync.cpp` completely.

Simplifications: `double` is an arbitrary linearly ordered field; `std::rand` is an argument of
each call (any sequence of ids); the 32-bit `count` is a natural number (it only matters whether it
is zero); the sample array together with its count is the list of the samples stored so far; the
constants 0.1 and 1.4 are the fractions 1/10 and 14/10.
-/

set_option linter.unusedSectionVars false

namespace Edyn.Net.ClockSync

variable {T : Type*} [Field T] [LinearOrder T] [IsStrictOrderedRing T]

/-- `clock_sync_state`, hpp lines 12-17. -/
inductive State where
  | none
  | timeReq0
  | timeReq1
  | waitNext
deriving DecidableEq

/-- `clock_sync_data`, hpp lines 19-61.  `sent` is the sequence of time requests passed to
`send_packet` with the time at which each was sent (ghost). -/
structure Data (T : Type*) where
  state : State := .none
  timeReqTimestamp : T
  timeReqId : Nat
  rtt0 : T
  remoteTimestamp0 : T
  delay : T
  timeDelta : T
  samples : List T := []
  count : Nat := 0
  period : T
  sent : List (T × Nat) := []

/-- `max_time_delta_samples`, hpp line 41. -/
def maxSamples : Nat := 5

/-- `start_clock_sync`, cpp lines 5-12. -/
def start (d : Data T) (time : T) (rand : Nat) : Data T :=
  { d with
    state := .timeReq0
    timeReqTimestamp := time
    timeReqId := rand
    sent := d.sent ++ [(time, rand)] }

/-- The sum of the samples divided by their number, cpp lines 57-63 and 70-77. -/
def mean (l : List T) : T := l.sum / (l.length : T)

/-- The first response of a pair, cpp lines 24-33. -/
def first (d : Data T) (ts : T) (time : T) (rand : Nat) : Data T :=
  { d with
    state := .timeReq1
    rtt0 := time - d.timeReqTimestamp
    remoteTimestamp0 := ts
    timeReqTimestamp := time
    timeReqId := rand
    sent := d.sent ++ [(time, rand)] }

/-- Storing a sample and updating the estimate, cpp lines 48-79. -/
def store (d : Data T) (sample time : T) : Data T :=
  let samples := d.samples ++ [sample]
  if samples.length = maxSamples then
    { d with
      state := .none
      timeReqTimestamp := time
      timeDelta := mean samples
      samples := []
      count := d.count + 1 }
  else
    { d with
      state := .waitNext
      timeReqTimestamp := time
      samples := samples
      timeDelta := if d.count = 0 then mean samples else d.timeDelta }

/-- The second response of a pair, cpp lines 34-80. -/
def second (d : Data T) (ts : T) (time : T) (rand : Nat) : Data T :=
  let rtt1 := time - d.timeReqTimestamp
  let rtt := (d.rtt0 + rtt1) / 2
  let remoteDt := ts - d.remoteTimestamp0
  if |d.rtt0 - rtt1| > d.rtt0 * (1 / 10) ∨ |rtt - remoteDt| > rtt * (1 / 10) then
    start d time rand
  else
    store d (time - (ts + rtt1 / 2)) time

/-- `clock_sync_process_time_response`, cpp lines 14-81, for a response with the given id and
timestamp arriving at `time`. -/
def processTimeResponse (d : Data T) (id : Nat) (ts : T) (time : T) (rand : Nat) : Data T :=
  if d.state ≠ .timeReq0 ∧ d.state ≠ .timeReq1 then d
  else if id ≠ d.timeReqId then d
  else if d.state = .timeReq0 then first d ts time rand
  else second d ts time rand

/-- `update_clock_sync`, cpp lines 83-106. -/
def update (d : Data T) (time avgRtt : T) (rand : Nat) : Data T :=
  match d.state with
  | .none =>
    if d.count = 0 ∨ time - d.timeReqTimestamp > d.period then start d time rand else d
  | .timeReq0 | .timeReq1 =>
    if time - d.timeReqTimestamp > avgRtt * (14 / 10) then start d time rand else d
  | .waitNext =>
    if time - d.timeReqTimestamp > d.delay then start d time rand else d

/-- What can happen: an update of the network client or server, or the arrival of any time
response (genuine, duplicated, delayed or forged). -/
inductive Ev (T : Type*) where
  | update (time avgRtt : T) (rand : Nat)
  | response (id : Nat) (ts time : T) (rand : Nat)

/-- One event. -/
def step (d : Data T) : Ev T → Data T
  | .update time avgRtt rand => update d time avgRtt rand
  | .response id ts time rand => processTimeResponse d id ts time rand

/-- A history of events. -/
def run (d : Data T) (evs : List (Ev T)) : Data T := evs.foldl step d

/-! ## Specification -/

/-- A measurement: two consecutive time requests, sent at `a` and `b`, answered at `b` and `c` by
responses with timestamps `r0` and `r1`. -/
structure Measurement (T : Type*) where
  id0 : Nat
  id1 : Nat
  a : T
  b : T
  c : T
  r0 : T
  r1 : T

/-- Both requests were sent and the responses carry their ids. -/
def Measurement.Observed (m : Measurement T) (sent : List (T × Nat)) (evs : List (Ev T)) : Prop :=
  (m.a, m.id0) ∈ sent ∧ (∃ k, Ev.response m.id0 m.r0 m.b k ∈ evs) ∧
  (m.b, m.id1) ∈ sent ∧ (∃ k, Ev.response m.id1 m.r1 m.c k ∈ evs)

/-- The two round trips differ by at most 10% of the first, and the remote clock advanced between
the two answers by the average round trip up to 10%. -/
def Measurement.Consistent (m : Measurement T) : Prop :=
  let rtt0 := m.b - m.a
  let rtt1 := m.c - m.b
  |rtt0 - rtt1| ≤ rtt0 / 10 ∧
    |(rtt0 + rtt1) / 2 - (m.r1 - m.r0)| ≤ (rtt0 + rtt1) / 2 / 10

/-- The offset the measurement yields: local time minus remote time, the answer being assumed to
have been sent halfway. -/
def Measurement.offset (m : Measurement T) : T := m.c - (m.r1 + (m.c - m.b) / 2)

/-- A sample is justified by the history. -/
def Justified (sent : List (T × Nat)) (evs : List (Ev T)) (x : T) : Prop :=
  ∃ m : Measurement T, m.Observed sent evs ∧ m.Consistent ∧ x = m.offset

/-! ## Invariant -/

theorem Justified.mono {sent sent' : List (T × Nat)} {evs evs' : List (Ev T)} {x : T}
    (h : Justified sent evs x) (hs : sent ⊆ sent') (he : evs ⊆ evs') : Justified sent' evs' x := by
  obtain ⟨m, ⟨h1, ⟨k, h2⟩, h3, ⟨k', h4⟩⟩, hc, hx⟩ := h
  exact ⟨m, ⟨hs h1, ⟨k, he h2⟩, hs h3, ⟨k', he h4⟩⟩, hc, hx⟩

structure Inv (d0 d : Data T) (evs : List (Ev T)) : Prop where
  req0 : d.state = .timeReq0 → (d.timeReqTimestamp, d.timeReqId) ∈ d.sent
  req1 : d.state = .timeReq1 → (d.timeReqTimestamp, d.timeReqId) ∈ d.sent ∧
    ∃ a id0 k, (a, id0) ∈ d.sent ∧ d.rtt0 = d.timeReqTimestamp - a ∧
      Ev.response id0 d.remoteTimestamp0 d.timeReqTimestamp k ∈ evs
  samples : ∀ x ∈ d.samples, Justified d.sent evs x
  bound : d.samples.length < maxSamples
  delta0 : d.count = 0 → d.samples = [] ∧ d.timeDelta = d0.timeDelta ∨
    d.samples ≠ [] ∧ d.timeDelta = mean d.samples
  delta1 : 0 < d.count → ∃ l : List T, l.length = maxSamples ∧ d.timeDelta = mean l ∧
    ∀ x ∈ l, Justified d.sent evs x

/-- The data right after construction (hpp lines 19-61; the members without an initialiser are
arbitrary). -/
def Initial (d : Data T) : Prop :=
  d.state = .none ∧ d.samples = [] ∧ d.count = 0 ∧ d.sent = []

theorem Inv.weaken {d0 d : Data T} {evs : List (Ev T)} (h : Inv d0 d evs) (ev : Ev T) :
    Inv d0 d (evs ++ [ev]) := by
  have hsub : evs ⊆ evs ++ [ev] := List.subset_append_left _ _
  refine ⟨h.req0, ?_, ?_, h.bound, h.delta0, ?_⟩
  · intro hs
    obtain ⟨h1, a, id0, k, h2, h3, h4⟩ := h.req1 hs
    exact ⟨h1, a, id0, k, h2, h3, hsub h4⟩
  · exact fun x hx => (h.samples x hx).mono (List.Subset.refl _) hsub
  · intro hc
    obtain ⟨l, h1, h2, h3⟩ := h.delta1 hc
    exact ⟨l, h1, h2, fun x hx => (h3 x hx).mono (List.Subset.refl _) hsub⟩

theorem start_inv {d0 d : Data T} {evs : List (Ev T)} (h : Inv d0 d evs) (time : T) (rand : Nat) :
    Inv d0 (start d time rand) evs := by
  have hsub : d.sent ⊆ d.sent ++ [(time, rand)] := List.subset_append_left _ _
  refine ⟨by simp [start], by simp [start], ?_, h.bound, h.delta0, ?_⟩
  · exact fun x hx => (h.samples x hx).mono hsub (List.Subset.refl _)
  · intro hc
    obtain ⟨l, h1, h2, h3⟩ := h.delta1 hc
    exact ⟨l, h1, h2, fun x hx => (h3 x hx).mono hsub (List.Subset.refl _)⟩

theorem store_inv {d0 d : Data T} {evs : List (Ev T)} (h : Inv d0 d evs) {x time : T}
    (hx : Justified d.sent evs x) : Inv d0 (store d x time) evs := by
  have hall : ∀ y ∈ d.samples ++ [x], Justified d.sent evs y := by
    intro y hy
    rcases List.mem_append.1 hy with hy | hy
    · exact h.samples y hy
    · rw [List.mem_singleton.1 hy]; exact hx
  unfold store
  simp only
  split
  · rename_i hlen
    refine ⟨by simp, by simp, by simp, by simp [maxSamples], by simp, ?_⟩
    intro _
    exact ⟨d.samples ++ [x], hlen, rfl, hall⟩
  · rename_i hlen
    refine ⟨by simp, by simp, hall, ?_, ?_, ?_⟩
    · have := h.bound
      simp only [List.length_append, List.length_cons, List.length_nil] at hlen ⊢
      omega
    · intro hc
      right
      refine ⟨by simp, ?_⟩
      have hc' : d.count = 0 := hc
      simp [hc']
    · intro hc
      have hc' : 0 < d.count := hc
      obtain ⟨l, h1, h2, h3⟩ := h.delta1 hc'
      refine ⟨l, h1, ?_, h3⟩
      show (if d.count = 0 then _ else d.timeDelta) = _
      rw [if_neg (by omega)]
      exact h2

theorem step_inv {d0 d : Data T} {evs : List (Ev T)} (h : Inv d0 d evs) (ev : Ev T) :
    Inv d0 (step d ev) (evs ++ [ev]) := by
  have hw := h.weaken ev
  cases ev with
  | update time avgRtt rand =>
    show Inv d0 (update d time avgRtt rand) _
    unfold update
    split <;> split <;> first | exact start_inv hw _ _ | exact hw
  | response id ts time rand =>
    show Inv d0 (processTimeResponse d id ts time rand) _
    unfold processTimeResponse
    split
    · exact hw
    split
    · exact hw
    rename_i hstate hid
    push Not at hid
    have hmem : Ev.response id ts time rand ∈ evs ++ [Ev.response id ts time rand] := by simp
    split
    · rename_i h0
      have hsub : d.sent ⊆ d.sent ++ [(time, rand)] := List.subset_append_left _ _
      refine ⟨by simp [first], ?_, ?_, hw.bound, hw.delta0, ?_⟩
      · intro _
        refine ⟨by simp [first], d.timeReqTimestamp, id, rand, ?_, rfl, hmem⟩
        rw [hid]
        exact hsub (h.req0 h0)
      · exact fun x hx => (hw.samples x hx).mono hsub (List.Subset.refl _)
      · intro hc
        obtain ⟨l, h1, h2, h3⟩ := hw.delta1 hc
        exact ⟨l, h1, h2, fun x hx => (h3 x hx).mono hsub (List.Subset.refl _)⟩
    · rename_i h0
      have h1 : d.state = .timeReq1 := by
        by_contra hne
        exact hstate ⟨h0, hne⟩
      unfold second
      simp only
      split
      · exact start_inv hw _ _
      · rename_i hcons
        push Not at hcons
        obtain ⟨hs, a, id0, k, ha, hr, hresp⟩ := hw.req1 h1
        refine store_inv hw ⟨⟨id0, id, a, d.timeReqTimestamp, time, d.remoteTimestamp0, ts⟩,
          ⟨ha, ⟨k, hresp⟩, by rw [hid]; exact hs, rand, hmem⟩, ?_, rfl⟩
        unfold Measurement.Consistent
        simp only
        rw [← hr]
        obtain ⟨c1, c2⟩ := hcons
        constructor
        · calc _ ≤ d.rtt0 * (1 / 10) := c1
            _ = d.rtt0 / 10 := by ring
        · calc _ ≤ (d.rtt0 + (time - d.timeReqTimestamp)) / 2 * (1 / 10) := c2
            _ = _ := by ring

theorem run_inv {d0 : Data T} (hi : Initial d0) (evs : List (Ev T)) :
    Inv d0 (run d0 evs) evs := by
  induction evs using List.reverseRecOn with
  | nil =>
    obtain ⟨h1, h2, h3, h4⟩ := hi
    refine ⟨?_, ?_, ?_, ?_, ?_, ?_⟩ <;> simp [run, h1, h2, h3, maxSamples]
  | append_singleton evs ev ih =>
    have : run d0 (evs ++ [ev]) = step (run d0 evs) ev := by
      unfold run; rw [List.foldl_append]; rfl
    rw [this]
    exact step_inv ih ev

/-! ## C22 -/

/-- **C22, estimate.** After any history the time delta is either untouched or the mean of between
one and five samples, each obtained from a pair of consecutive requests answered with matching ids
and passing the consistency check; once a synchronisation was completed it is the mean of exactly
five. -/
theorem delta_mean_of_consistent {d0 : Data T} (hi : Initial d0) (evs : List (Ev T)) :
    let d := run d0 evs
    (d.count = 0 ∧ d.timeDelta = d0.timeDelta) ∨
    ∃ l : List T, l ≠ [] ∧ l.length ≤ 5 ∧ d.timeDelta = l.sum / (l.length : T) ∧
      (∀ x ∈ l, Justified d.sent evs x) ∧ (0 < d.count → l.length = 5) := by
  have h := run_inv hi evs
  show (_ ∧ _) ∨ _
  by_cases hc : (run d0 evs).count = 0
  · rcases h.delta0 hc with ⟨_, h2⟩ | ⟨h1, h2⟩
    · exact Or.inl ⟨hc, h2⟩
    · refine Or.inr ⟨_, h1, ?_, h2, h.samples, fun h0 => by omega⟩
      have := h.bound
      unfold maxSamples at this
      omega
  · obtain ⟨l, h1, h2, h3⟩ := h.delta1 (by omega)
    refine Or.inr ⟨l, ?_, h1.le, h2, h3, fun _ => h1⟩
    rintro rfl
    simp [maxSamples] at h1

/-- **C22, stray responses.** A response that does not carry the id of the outstanding request, or
that arrives when no request is outstanding, changes nothing. -/
theorem stray_response_ignored (d : Data T) (id : Nat) (ts time : T) (rand : Nat)
    (h : id ≠ d.timeReqId ∨ d.state = .none ∨ d.state = .waitNext) :
    processTimeResponse d id ts time rand = d := by
  unfold processTimeResponse
  rcases h with h | h | h
  · split
    · rfl
    · first | rfl | rw [if_pos h]
  · rw [if_pos (by simp [h])]
  · rw [if_pos (by simp [h])]

/-- **C22, duplicated responses.** A response that was processed is without effect when it is
delivered again, however often, unless the random id of the next request happens to be the same. -/
theorem duplicate_response_ignored (d : Data T) (id : Nat) (ts time ts' time' : T)
    (rand rand' : Nat) (hne : rand ≠ id) :
    let d' := processTimeResponse d id ts time rand
    processTimeResponse d' id ts' time' rand' = d' ∨ d' = d := by
  show _ ∨ _
  by_cases hs : id ≠ d.timeReqId ∨ d.state = .none ∨ d.state = .waitNext
  · exact Or.inr (stray_response_ignored d id ts time rand hs)
  · left
    push Not at hs
    apply stray_response_ignored
    obtain ⟨h1, h2, h3⟩ := hs
    unfold processTimeResponse
    cases hst : d.state with
    | none => exact absurd hst h2
    | waitNext => exact absurd hst h3
    | timeReq0 =>
      simp only [h1, hst, ne_eq, not_true_eq_false, false_and, if_false, if_true]
      left
      simpa [first] using (h1 ▸ hne).symm
    | timeReq1 =>
      have hf : ¬ (State.timeReq1 = State.timeReq0) := by decide
      simp only [h1, ne_eq, not_true_eq_false, and_false, if_false, hf]
      unfold second
      simp only
      split
      · left
        simpa [start] using (h1 ▸ hne).symm
      · right
        unfold store
        simp only
        split <;> simp

/-- **C22, when the estimate changes.** It changes only when a response to the outstanding second
request is processed; updates never change it. -/
theorem delta_changes_only_on_response (d : Data T) (ev : Ev T)
    (h : (step d ev).timeDelta ≠ d.timeDelta) :
    d.state = .timeReq1 ∧ ∃ ts time rand, ev = .response d.timeReqId ts time rand := by
  cases ev with
  | update time avgRtt rand =>
    exfalso
    apply h
    show (update d time avgRtt rand).timeDelta = _
    unfold update
    split <;> split <;> rfl
  | response id ts time rand =>
    have h' : (processTimeResponse d id ts time rand).timeDelta ≠ d.timeDelta := h
    unfold processTimeResponse at h'
    split at h'
    · exact absurd rfl h'
    split at h'
    · exact absurd rfl h'
    split at h'
    · exact absurd rfl h'
    rename_i hstate hid h0
    push Not at hid
    refine ⟨?_, ts, time, rand, by rw [hid]⟩
    by_contra hne
    exact hstate ⟨h0, hne⟩

/-- A response is honest with respect to a clock offset `θ` (local minus remote time) if the remote
read its clock between the sending of the request and the arrival of the answer. -/
def Measurement.Honest (m : Measurement T) (θ : T) : Prop :=
  m.b ≤ m.r1 + θ ∧ m.r1 + θ ≤ m.c

theorem offset_error {m : Measurement T} {θ : T} (h : m.Honest θ) :
    |m.offset - θ| ≤ (m.c - m.b) / 2 := by
  obtain ⟨h1, h2⟩ := h
  unfold Measurement.offset
  rw [abs_le]
  constructor <;> linarith

theorem mean_error {l : List T} (hl : l ≠ []) {θ E : T} (h : ∀ x ∈ l, |x - θ| ≤ E) :
    |mean l - θ| ≤ E := by
  have key : ∀ l : List T, (∀ x ∈ l, |x - θ| ≤ E) →
      (l.length : T) * (θ - E) ≤ l.sum ∧ l.sum ≤ (l.length : T) * (θ + E) := by
    intro l
    induction l with
    | nil => intro _; simp
    | cons x xs ih =>
      intro h
      obtain ⟨i1, i2⟩ := ih fun y hy => h y (List.mem_cons_of_mem _ hy)
      have hx := abs_le.1 (h x (by simp))
      rw [List.sum_cons, List.length_cons]
      push_cast
      constructor <;> linarith [hx.1, hx.2]
  obtain ⟨k1, k2⟩ := key l h
  have hpos : (0 : T) < (l.length : T) := by
    have : 0 < l.length := List.length_pos_iff.2 hl
    exact_mod_cast this
  unfold mean
  rw [abs_le]
  constructor
  · have : θ - E ≤ l.sum / (l.length : T) := by
      rw [le_div_iff₀ hpos]; linarith
    linarith
  · have : l.sum / (l.length : T) ≤ θ + E := by
      rw [div_le_iff₀ hpos]; linarith
    linarith

/-- **C22, accuracy.** If every measurement supported by the history is honest and has a round trip
of at most `R`, the estimate (once there is one) is off by at most half a round trip. -/
theorem delta_accuracy {d0 : Data T} (hi : Initial d0) (evs : List (Ev T)) (θ R : T)
    (hon : ∀ m : Measurement T, m.Observed (run d0 evs).sent evs → m.Consistent →
      m.Honest θ ∧ m.c - m.b ≤ R) :
    (run d0 evs).timeDelta = d0.timeDelta ∨ |(run d0 evs).timeDelta - θ| ≤ R / 2 := by
  rcases delta_mean_of_consistent hi evs with ⟨_, h⟩ | ⟨l, hne, _, hm, hj, _⟩
  · exact Or.inl h
  · right
    rw [hm]
    change |mean l - θ| ≤ _
    apply mean_error hne
    intro x hx
    obtain ⟨m, ho, hc, rfl⟩ := hj x hx
    obtain ⟨hh, hR⟩ := hon m ho hc
    exact le_trans (offset_error hh) (by linarith)

/-! ### Progress: an ideal exchange completes a synchronisation -/

/-- **C22, progress.** On a network with a constant symmetric round trip `2 * w > 0` and a
constant offset `θ`, a measurement that is started at time `a` and answered promptly stores the
exact offset as a sample. -/
theorem ideal_exchange_exact (d : Data T) (a w θ : T) (k0 k1 k2 : Nat) (hw : 0 < w) :
    let d1 := start d a k0
    let d2 := processTimeResponse d1 k0 (a + w - θ) (a + 2 * w) k1
    let d3 := processTimeResponse d2 k1 (a + 3 * w - θ) (a + 4 * w) k2
    d3 = store d2 θ (a + 4 * w) := by
  simp only [start, processTimeResponse, first, second]
  simp only [ne_eq, not_true_eq_false, false_and, if_false, if_true, and_false, reduceCtorEq]
  have e1 : a + 2 * w - a - (a + 4 * w - (a + 2 * w)) = 0 := by ring
  have e2 : (a + 2 * w - a + (a + 4 * w - (a + 2 * w))) / 2 -
      (a + 3 * w - θ - (a + w - θ)) = 0 := by ring
  have e3 : a + 4 * w - (a + 3 * w - θ + (a + 4 * w - (a + 2 * w)) / 2) = θ := by ring
  rw [e1, e2, abs_zero, e3, if_neg]
  push Not
  constructor
  · have : a + 2 * w - a = 2 * w := by ring
    rw [this]; linarith
  · have : (a + 2 * w - a + (a + 4 * w - (a + 2 * w))) / 2 = 2 * w := by ring
    rw [this]; linarith

/-! ### Non-vacuity and findings -/

private def d0 : Data ℚ :=
  { timeReqTimestamp := 0, timeReqId := 0, rtt0 := 0, remoteTimestamp0 := 0, delay := 1 / 2,
    timeDelta := 0, period := 300 }

/-- A synchronisation with a remote clock that is 100 behind, round trip 2. -/
example : Initial d0 ∧
    let evs : List (Ev ℚ) := [.update 0 1 11, .response 11 (-99) 2 12, .response 12 (-97) 4 13]
    (run d0 evs).timeDelta = 100 ∧ (run d0 evs).samples = [100] ∧
      (run d0 evs).sent = [(0, 11), (2, 12)] := by
  refine ⟨⟨rfl, rfl, rfl, rfl⟩, ?_⟩
  decide +kernel

/-- **Finding.** Restarting a measurement keeps the samples taken before, so a five sample mean
may mix samples taken before and after the remote clock jumped: here the offset is 100 for the first
sample and 0 for the four others, taken an hour later, and the estimate is 20. -/
theorem stale_samples_mixed :
    ∃ evs : List (Ev ℚ), (run d0 evs).count = 1 ∧ (run d0 evs).timeDelta = 20 ∧
      Justified (run d0 evs).sent evs 100 ∧ Justified (run d0 evs).sent evs 0 := by
  let evs : List (Ev ℚ) := [.update 0 1 11, .response 11 (-99) 2 12, .response 12 (-97) 4 13,
    .update 3600 1 21, .response 21 3601 3602 22, .response 22 3603 3604 23,
    .update 3610 1 31, .response 31 3611 3612 32, .response 32 3613 3614 33,
    .update 3620 1 41, .response 41 3621 3622 42, .response 42 3623 3624 43,
    .update 3630 1 51, .response 51 3631 3632 52, .response 52 3633 3634 53]
  refine ⟨evs, by decide +kernel, by decide +kernel, ?_⟩
  constructor
  · refine ⟨⟨11, 12, 0, 2, 4, -99, -97⟩, ⟨by decide +kernel, ⟨12, by simp [evs]⟩,
      by decide +kernel, ⟨13, by simp [evs]⟩⟩, ?_, by decide +kernel⟩
    unfold Measurement.Consistent
    decide +kernel
  · refine ⟨⟨21, 22, 3600, 3602, 3604, 3601, 3603⟩, ⟨by decide +kernel, ⟨22, by simp [evs]⟩,
      by decide +kernel, ⟨23, by simp [evs]⟩⟩, ?_, by decide +kernel⟩
    unfold Measurement.Consistent
    decide +kernel

end Edyn.Net.ClockSync
