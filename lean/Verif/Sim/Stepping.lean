import Mathlib.Algebra.Order.Floor.Ring
import Mathlib.Algebra.Order.Field.Basic
import Mathlib.Algebra.Order.Field.Rat
import Mathlib.Data.Rat.Floor
import Mathlib.Tactic.Linarith
import Mathlib.Tactic.FieldSimp
import Mathlib.Tactic.Ring

/-!
# Fixed time steps (C34, C55)

`stepper_sequential::update` and `simulation_worker::update`.  Times are elements of an ordered field
with a floor function instead of `double`: rounding is not modelled.  What a step does to the bodies is
not modelled either; a step is the time at which it is made.
-/

namespace Edyn.Stepping

variable {T : Type} [Field T] [LinearOrder T] [IsStrictOrderedRing T] [FloorRing T]

/-- `settings::fixed_dt` and `settings::max_steps_per_update`, `settings.hpp` 22-26.  They can be
changed between updates. -/
structure Cfg (T : Type) where
  dt : T
  cap : Nat

/-! ### Sequential stepper -/

/-- The members of `stepper_sequential` that matter, `stepper_sequential.hpp` 41-44. -/
structure S (T : Type) where
  last : T
  acc : T
  paused : Bool
deriving DecidableEq

/-- `stepper_sequential::get_simulation_timestamp`, `stepper_sequential.hpp` 27-29. -/
def S.simTime (s : S T) : T := s.last - s.acc

/-- The constructor, `stepper_sequential.cpp` 16-25. -/
def init (t : T) : S T := ⟨t, 0, false⟩

/-- `stepper_sequential::update`, `stepper_sequential.cpp` 27-102: the new state and the times of the
steps (`step_time`). -/
def update (c : Cfg T) (time : T) (s : S T) : S T × List T :=
  if s.paused then (s, [])
  else
    let acc := s.acc + max (time - s.last) 0
    let n := ⌊acc / c.dt⌋₊
    let adv := (n : T) * c.dt
    let k := if n > c.cap then c.cap else n
    let stepDt := if n > c.cap then adv / (k : T) else c.dt
    ({ s with last := time, acc := acc - adv },
      (List.range k).map fun i : Nat => s.simTime + stepDt * (i : T))

/-- `stepper_sequential::set_paused`, `stepper_sequential.cpp` 148-151. -/
def setPaused (p : Bool) (s : S T) : S T := { s with paused := p, acc := 0 }

/-- `stepper_sequential::step_simulation`, `stepper_sequential.cpp` 119-146; `none`: the assertion. -/
def stepOnce (time : T) (s : S T) : Option (S T × List T) :=
  if s.paused then some ({ s with last := time }, [time]) else none

/-- A sequence of updates: the state and the times of all steps. -/
def updates : List (Cfg T × T) → S T → S T × List T
  | [], s => (s, [])
  | (c, t) :: us, s =>
    let r := update c t s
    let q := updates us r.1
    (q.1, r.2 ++ q.2)

/-! ### Asynchronous stepper: the simulation worker -/

/-- The members of `simulation_worker` that matter. -/
structure A (T : Type) where
  last : T
  acc : T
  sim : T
  paused : Bool

/-- The messages that change the time keeping. -/
inductive Msg where
  | setPaused (p : Bool)
  | step
deriving DecidableEq

/-- `simulation_worker::on_set_paused`, `on_step_simulation`, `simulation_worker.cpp` 515-555; `now` is
`m_current_time`. -/
def onMsg (now : T) (s : A T) : Msg → A T × List T
  | .setPaused true => ({ s with paused := true, acc := 0 }, [])
  | .setPaused false => ({ s with paused := false, acc := 0, last := now, sim := now }, [])
  | .step => ({ s with last := now, sim := now }, [now])

/-- The message queue, `simulation_worker.cpp` 353. -/
def onMsgs (now : T) : List Msg → A T → A T × List T
  | [], s => (s, [])
  | m :: ms, s =>
    let r := onMsg now s m
    let q := onMsgs now ms r.1
    (q.1, r.2 ++ q.2)

/-- The loop over the steps, `simulation_worker.cpp` 406-445: `m_sim_time` is advanced after each
step. -/
def stepTimes (stepDt : T) : Nat → T → List T
  | 0, _ => []
  | k + 1, t => t :: stepTimes stepDt k (t + stepDt)

/-- `simulation_worker::update`, `simulation_worker.cpp` 347-465, with the messages that are in the
queue when it is called. -/
def wUpdate (c : Cfg T) (now : T) (ms : List Msg) (s : A T) : A T × List T :=
  let m := onMsgs now ms s
  let s := m.1
  if s.paused then (s, m.2)
  else
    let acc := s.acc + (now - s.last)
    let n := ⌊acc / c.dt⌋
    let adv := (n : T) * c.dt
    let k := if n > (c.cap : ℤ) then c.cap else n.toNat
    let stepDt := if n > (c.cap : ℤ) then adv / (k : T) else c.dt
    ({ s with last := now, acc := acc - adv, sim := now - (acc - adv) }, m.2 ++ stepTimes stepDt k s.sim)

def wUpdates : List (Cfg T × T × List Msg) → A T → A T × List T
  | [], s => (s, [])
  | (c, t, ms) :: us, s =>
    let r := wUpdate c t ms s
    let q := wUpdates us r.1
    (q.1, r.2 ++ q.2)

/-! ### One update -/

theorem natFloor_bounds {a d : T} (ha : 0 ≤ a) (hd : 0 < d) :
    0 ≤ a - (⌊a / d⌋₊ : T) * d ∧ a - (⌊a / d⌋₊ : T) * d < d := by
  have h1 := Nat.floor_le (div_nonneg ha hd.le)
  have h2 := Nat.lt_floor_add_one (a / d)
  rw [le_div_iff₀ hd] at h1
  rw [div_lt_iff₀ hd] at h2
  constructor <;> nlinarith

/-- No update makes more than `max_steps_per_update` steps, and none at all while paused. -/
theorem at_most_max_steps (c : Cfg T) (t : T) (s : S T) :
    (update c t s).2.length ≤ c.cap ∧ (s.paused = true → update c t s = (s, [])) := by
  unfold update
  constructor
  · split
    · simp
    · simp only [List.length_map, List.length_range]
      split <;> omega
  · intro h; simp [h]

/-- After an update the simulation is less than one step behind the time of the update, and not ahead
of it, whatever the number of steps was limited to. -/
theorem update_leftover (c : Cfg T) (hd : 0 < c.dt) (t : T) (s : S T) (hp : s.paused = false)
    (ha : 0 ≤ s.acc) :
    (update c t s).1.simTime ≤ t ∧ t < (update c t s).1.simTime + c.dt ∧
      (update c t s).1.last = t ∧ 0 ≤ (update c t s).1.acc ∧ (update c t s).1.paused = false := by
  have := natFloor_bounds (a := s.acc + max (t - s.last) 0) (add_nonneg ha (le_max_right _ _)) hd
  simp only [update, hp, S.simTime]
  refine ⟨?_, ?_, rfl, ?_, ?_⟩ <;> simp <;> linarith [this.1, this.2]

/-- The steps of an update, if the time has not gone back: they are in increasing order, the first is
made at the simulation time of the update before, and all are before the simulation time after it. -/
theorem update_step_times (c : Cfg T) (hd : 0 < c.dt) (t : T) (s : S T) (hp : s.paused = false)
    (ht : s.last ≤ t) :
    ((update c t s).2.Pairwise (· < ·)) ∧
    (∀ x ∈ (update c t s).2, s.simTime ≤ x ∧ x < (update c t s).1.simTime) ∧
    (∀ x ∈ (update c t s).2.head?, x = s.simTime) ∧ s.simTime ≤ (update c t s).1.simTime := by
  have hmax : max (t - s.last) 0 = t - s.last := max_eq_left (sub_nonneg.2 ht)
  simp only [update, hp, S.simTime, hmax]
  generalize hn : ⌊(s.acc + (t - s.last)) / c.dt⌋₊ = n
  simp only [Bool.false_eq_true, if_false]
  have hsim : t - (s.acc + (t - s.last) - (n : T) * c.dt) = s.last - s.acc + (n : T) * c.dt := by ring
  rw [hsim]
  have hadv : (0 : T) ≤ (n : T) * c.dt := mul_nonneg (Nat.cast_nonneg _) hd.le
  -- the two cases
  have key : ∀ (k : Nat) (e : T), (0 < k → 0 < e) → ((k : T) * e = (n : T) * c.dt ∨ k = 0) →
      (((List.range k).map fun i : Nat => s.last - s.acc + e * (i : T)).Pairwise (· < ·)) ∧
      (∀ x ∈ ((List.range k).map fun i : Nat => s.last - s.acc + e * (i : T)), s.last - s.acc ≤ x ∧
        x < s.last - s.acc + (n : T) * c.dt) ∧
      (∀ x ∈ ((List.range k).map fun i : Nat => s.last - s.acc + e * (i : T)).head?,
        x = s.last - s.acc) := by
    intro k e he hk
    refine ⟨?_, ?_, ?_⟩
    · rw [List.pairwise_map]
      refine List.Pairwise.imp_of_mem ?_ (List.pairwise_lt_range (n := k))
      intro a b ha hb hab
      have hk0 : 0 < k := by simp at ha; omega
      have : (a : T) < (b : T) := Nat.cast_lt.2 hab
      have := mul_lt_mul_of_pos_left this (he hk0)
      linarith
    · intro x hx
      simp only [List.mem_map, List.mem_range] at hx
      obtain ⟨i, hi, rfl⟩ := hx
      have hk0 : 0 < k := by omega
      have h1 : (i : T) < (k : T) := Nat.cast_lt.2 hi
      have h2 := mul_lt_mul_of_pos_left h1 (he hk0)
      have h3 : (0 : T) ≤ e * (i : T) := mul_nonneg (he hk0).le (Nat.cast_nonneg _)
      rcases hk with hk | hk
      · constructor
        · linarith
        · rw [mul_comm (k : T) e] at hk; linarith
      · omega
    · intro x hx
      cases k with
      | zero => simp at hx
      | succ k =>
        rw [List.range_succ_eq_map] at hx
        simp at hx
        exact hx.symm
  have hgoal : ∀ (k : Nat) (e : T), (0 < k → 0 < e) → ((k : T) * e = (n : T) * c.dt ∨ k = 0) → _ :=
    key
  by_cases h : n > c.cap
  · simp only [if_pos h]
    have hnpos : (0 : T) < (n : T) := Nat.cast_pos.2 (by omega)
    obtain ⟨h1, h2, h3⟩ := key c.cap ((n : T) * c.dt / (c.cap : T))
      (fun hk => div_pos (mul_pos hnpos hd) (Nat.cast_pos.2 hk)) (by
        by_cases hc : c.cap = 0
        · exact Or.inr hc
        · have : (c.cap : T) ≠ 0 := Nat.cast_ne_zero.2 hc
          exact Or.inl (by field_simp))
    exact ⟨h1, h2, h3, by linarith⟩
  · simp only [if_neg h]
    obtain ⟨h1, h2, h3⟩ := key n c.dt (fun _ => hd) (Or.inl rfl)
    exact ⟨h1, h2, h3, by linarith⟩

/-! ### C34 -/

/-- The times of the updates do not go back. -/
def Forward : T → List (Cfg T × T) → Prop
  | _, [] => True
  | t, (_, t') :: us => t ≤ t' ∧ Forward t' us

/-- No update reaches the limit: each has less than `(max_steps_per_update + 1)` steps to make. -/
def NotCapped : S T → List (Cfg T × T) → Prop
  | _, [] => True
  | s, (c, t) :: us => s.acc + (t - s.last) < (c.cap + 1) * c.dt ∧ NotCapped (update c t s).1 us

/-- The time of the last update. -/
def lastTime : T → List (Cfg T × T) → T
  | t, [] => t
  | _, (_, t') :: us => lastTime t' us

theorem forward_le : ∀ (us : List (Cfg T × T)) (t : T), Forward t us → t ≤ lastTime t us := by
  intro us
  induction us with
  | nil => intro t _; exact le_refl _
  | cons x us ih => intro t h; exact le_trans h.1 (ih _ h.2)

/-- The simulation after any number of updates that do not go back in time: it is less than one step
behind, all steps are in increasing order, between the simulation times before and after.  The limit on
the number of steps plays no role, and `fixed_dt` may change. -/
theorem simulation_keeps_up : ∀ (us : List (Cfg T × T)) (s : S T), (∀ x ∈ us, 0 < x.1.dt) →
    s.paused = false → 0 ≤ s.acc → Forward s.last us →
    (updates us s).2.Pairwise (· < ·) ∧
    (∀ x ∈ (updates us s).2, s.simTime ≤ x ∧ x < (updates us s).1.simTime) ∧
    s.simTime ≤ (updates us s).1.simTime ∧ (updates us s).1.last = lastTime s.last us ∧
    0 ≤ (updates us s).1.acc ∧ (updates us s).1.paused = false ∧
    ∀ c ∈ us.getLast?, lastTime s.last us < (updates us s).1.simTime + c.1.dt := by
  intro us
  induction us with
  | nil => intro s _ hp ha _; simp [updates, lastTime, hp, ha]
  | cons x us ih =>
    intro s hd hp ha hf
    obtain ⟨c, t⟩ := x
    have hd0 := hd (c, t) (by simp)
    obtain ⟨a1, a2, a3, a4, a5⟩ := update_leftover c hd0 t s hp ha
    obtain ⟨b1, b2, b3, b4⟩ := update_step_times c hd0 t s hp hf.1
    obtain ⟨c1, c2, c3, c4, c5, c6, c7⟩ := ih (update c t s).1 (fun y hy => hd y (by simp [hy])) a5 a4
      (by rw [a3]; exact hf.2)
    simp only [updates, lastTime]
    rw [a3] at c4 c7
    refine ⟨?_, ?_, le_trans b4 c3, c4, c5, c6, ?_⟩
    · rw [List.pairwise_append]
      exact ⟨b1, c1, fun x hx y hy => lt_of_lt_of_le (b2 x hx).2 (c2 y hy).1⟩
    · intro y hy
      rcases List.mem_append.1 hy with hy | hy
      · exact ⟨(b2 y hy).1, lt_of_lt_of_le (b2 y hy).2 c3⟩
      · exact ⟨le_trans b4 (c2 y hy).1, (c2 y hy).2⟩
    · intro d hd'
      cases us with
      | nil =>
        simp at hd'; subst hd'
        simpa [updates, lastTime] using a2
      | cons y us =>
        rw [List.getLast?_cons_cons] at hd'
        exact c7 d hd'

theorem not_capped_floor {a d : T} {cap : Nat} (ha : 0 ≤ a) (hd : 0 < d) (h : a < (cap + 1) * d) :
    ¬ ⌊a / d⌋₊ > cap := by
  have := natFloor_bounds ha hd
  intro hc
  have h1 : ((cap + 1 : Nat) : T) ≤ (⌊a / d⌋₊ : T) := Nat.cast_le.2 hc
  push_cast at h1
  have := mul_le_mul_of_nonneg_right h1 hd.le
  linarith

/-- **C34**: with a constant `fixed_dt`, from the start of the simulation at `t₀`: if no update reaches
the limit, the number of steps is the elapsed time divided by `fixed_dt`, rounded down, and the leftover
is the rest of that division. -/
theorem steps_account_for_time (us : List (Cfg T × T)) (t₀ dt : T) (hd : 0 < dt)
    (hdt : ∀ x ∈ us, x.1.dt = dt) (hf : Forward t₀ us) (hc : NotCapped (init t₀) us) :
    (updates us (init t₀)).2.length = ⌊(lastTime t₀ us - t₀) / dt⌋₊ ∧
    (updates us (init t₀)).1.acc =
      (lastTime t₀ us - t₀) - (⌊(lastTime t₀ us - t₀) / dt⌋₊ : T) * dt ∧
    0 ≤ (updates us (init t₀)).1.acc ∧ (updates us (init t₀)).1.acc < dt := by
  have gen : ∀ (us : List (Cfg T × T)) (s : S T), (∀ x ∈ us, x.1.dt = dt) → s.paused = false →
      0 ≤ s.acc → s.acc < dt → Forward s.last us → NotCapped s us →
      ((updates us s).2.length : T) * dt + (updates us s).1.acc = lastTime s.last us - s.last + s.acc ∧
      0 ≤ (updates us s).1.acc ∧ (updates us s).1.acc < dt := by
    intro us
    induction us with
    | nil => intro s _ _ h1 h2 _ _; simp [updates, lastTime, h1, h2]
    | cons x us ih =>
      intro s hdt hp h1 h2 hf hc
      obtain ⟨c, t⟩ := x
      have hcd : c.dt = dt := hdt (c, t) (by simp)
      have hmax : max (t - s.last) 0 = t - s.last := max_eq_left (sub_nonneg.2 hf.1)
      have ha : 0 ≤ s.acc + (t - s.last) := add_nonneg h1 (sub_nonneg.2 hf.1)
      have hn := not_capped_floor ha (hcd ▸ hd) hc.1
      have hb := natFloor_bounds ha hd
      have hu1 : (update c t s).1 =
          { s with last := t, acc := s.acc + (t - s.last) - (⌊(s.acc + (t - s.last)) / dt⌋₊ : T) * dt } := by
        simp only [update, hp, hmax, hcd, Bool.false_eq_true, if_false]
      have hu2 : (update c t s).2.length = ⌊(s.acc + (t - s.last)) / dt⌋₊ := by
        rw [hcd] at hn
        simp only [update, hp, hmax, hcd, Bool.false_eq_true, if_false, if_neg hn, List.length_map,
          List.length_range]
      obtain ⟨c1, c2, c3⟩ := ih (update c t s).1 (fun y hy => hdt y (by simp [hy])) (by rw [hu1]; exact hp)
        (by rw [hu1]; exact hb.1) (by rw [hu1]; exact hb.2) (by rw [hu1]; exact hf.2) hc.2
      refine ⟨?_, c2, c3⟩
      simp only [updates, lastTime, List.length_append, Nat.cast_add]
      have hl : (update c t s).1.last = t := by rw [hu1]
      have hacc : (update c t s).1.acc =
        s.acc + (t - s.last) - (⌊(s.acc + (t - s.last)) / dt⌋₊ : T) * dt := by rw [hu1]
      rw [hl, hacc] at c1
      rw [hu2, add_mul, add_assoc, c1]; ring
  obtain ⟨g1, g2, g3⟩ := gen us (init t₀) hdt rfl (le_refl _) hd hf hc
  have hlen : (updates us (init t₀)).2.length = ⌊(lastTime t₀ us - t₀) / dt⌋₊ := by
    simp only [init, add_zero] at g1
    symm
    rw [Nat.floor_eq_iff]
    · rw [le_div_iff₀ hd, div_lt_iff₀ hd]
      simp only [init] at g1 g2 g3 ⊢
      constructor <;> nlinarith
    · exact div_nonneg (sub_nonneg.2 (forward_le us t₀ hf)) hd.le
  refine ⟨hlen, ?_, g2, g3⟩
  rw [← hlen]
  simp only [init, add_zero] at g1 ⊢
  linarith

/-- Three updates with `fixed_dt = 1/2`: two, no and two steps. -/
example : (updates [(⟨1/2, 10⟩, 6/5), (⟨1/2, 10⟩, 7/5), (⟨1/2, 10⟩, 11/5)] (init (0 : ℚ))).2 =
    [0, 1/2, 1, 3/2] ∧
    Forward (0 : ℚ) [(⟨1/2, 10⟩, 6/5), (⟨1/2, 10⟩, 7/5), (⟨1/2, 10⟩, 11/5)] ∧
    NotCapped (init (0 : ℚ)) [(⟨1/2, 10⟩, 6/5), (⟨1/2, 10⟩, 7/5), (⟨1/2, 10⟩, 11/5)] := by
  refine ⟨by decide +kernel, ?_, ?_⟩
  · unfold Forward Forward Forward Forward; decide +kernel
  · unfold NotCapped NotCapped NotCapped NotCapped; decide +kernel

/-- With a limit of two steps the same updates make two, no and two steps; the last update lasts four
steps' time, and the simulation is half as fast in it. -/
example : (updates [(⟨1/2, 2⟩, 6/5), (⟨1/2, 2⟩, 7/5), (⟨1/2, 2⟩, 31/10)] (init (0 : ℚ))).2 =
    [0, 1/2, 1, 2] ∧
    (updates [(⟨1/2, 2⟩, 6/5), (⟨1/2, 2⟩, 7/5), (⟨1/2, 2⟩, 31/10)] (init (0 : ℚ))).1.simTime = 3 := by
  decide +kernel

/-! ### The worker -/

theorem stepTimes_eq (e : T) : ∀ (k : Nat) (t : T),
    stepTimes e k t = (List.range k).map fun i : Nat => t + e * (i : T) := by
  intro k
  induction k with
  | zero => intro t; rfl
  | succ k ih =>
    intro t
    rw [stepTimes, ih, List.range_succ_eq_map]
    simp only [List.map_cons, List.map_map, Nat.cast_zero, mul_zero, add_zero, List.cons.injEq,
      true_and]
    apply List.map_congr_left
    intro i _
    simp only [Function.comp, Nat.succ_eq_add_one, Nat.cast_add, Nat.cast_one]; ring

/-- The worker and the sequential stepper have the same clock. -/
structure Same (s : S T) (a : A T) : Prop where
  last : a.last = s.last
  acc : a.acc = s.acc
  sim : a.sim = s.simTime
  paused : a.paused = s.paused

/-- Both steppers make the same steps at the same times, as long as they get the same updates, the time
does not go back, and there is no pause. -/
theorem worker_agrees_with_sequential : ∀ (us : List (Cfg T × T)) (s : S T) (a : A T),
    (∀ x ∈ us, 0 < x.1.dt) → s.paused = false → 0 ≤ s.acc → Forward s.last us → Same s a →
    (wUpdates (us.map fun x => (x.1, x.2, [])) a).2 = (updates us s).2 ∧
      Same (updates us s).1 (wUpdates (us.map fun x => (x.1, x.2, [])) a).1 := by
  intro us
  induction us with
  | nil => intro s a _ _ _ _ h; exact ⟨rfl, h⟩
  | cons x us ih =>
    intro s a hd hp ha hf hs
    obtain ⟨c, t⟩ := x
    have hd0 : 0 < c.dt := hd (c, t) (by simp)
    have hmax : max (t - s.last) 0 = t - s.last := max_eq_left (sub_nonneg.2 hf.1)
    have hnn : 0 ≤ (s.acc + (t - s.last)) / c.dt :=
      div_nonneg (add_nonneg ha (sub_nonneg.2 hf.1)) hd0.le
    have hfl : ⌊(s.acc + (t - s.last)) / c.dt⌋ = ((⌊(s.acc + (t - s.last)) / c.dt⌋₊ : ℕ) : ℤ) :=
      (Int.natCast_floor_eq_floor hnn).symm
    have hap : a.paused = false := by rw [hs.paused]; exact hp
    have key : (wUpdate c t [] a).2 = (update c t s).2 ∧
        Same (update c t s).1 (wUpdate c t [] a).1 := by
      simp only [wUpdate, onMsgs, hap, update, hp, hmax, Bool.false_eq_true, if_false, hs.acc, hs.last,
        hs.sim, hfl, List.nil_append, stepTimes_eq, gt_iff_lt, Nat.cast_lt, Int.toNat_natCast,
        Int.cast_natCast]
      exact ⟨trivial, ⟨rfl, rfl, rfl, rfl⟩⟩
    obtain ⟨a1, a2, a3, a4, a5⟩ := update_leftover c hd0 t s hp ha
    obtain ⟨i1, i2⟩ := ih (update c t s).1 (wUpdate c t [] a).1 (fun y hy => hd y (by simp [hy])) a5 a4
      (by rw [a3]; exact hf.2) key.2
    simp only [List.map_cons, wUpdates, updates]
    exact ⟨by rw [key.1, i1], i2⟩

/-- Also when time goes back, or the messages contain steps, the worker is never more than a step behind
after an update, nor ahead. -/
theorem worker_leftover (c : Cfg T) (hd : 0 < c.dt) (now : T) (ms : List Msg) (a : A T)
    (hp : (wUpdate c now ms a).1.paused = false) :
    (wUpdate c now ms a).1.sim ≤ now ∧ now < (wUpdate c now ms a).1.sim + c.dt := by
  unfold wUpdate at hp ⊢
  simp only at hp ⊢
  split at hp
  · rename_i h; rw [h] at hp; cases hp
  · rename_i h
    rw [if_neg h]
    simp only
    generalize (onMsgs now ms a).1.acc + (now - (onMsgs now ms a).1.last) = x
    have h1 := Int.floor_le (x / c.dt)
    have h2 := Int.lt_floor_add_one (x / c.dt)
    rw [le_div_iff₀ hd] at h1
    rw [div_lt_iff₀ hd] at h2
    constructor <;> linarith

/-! ### C55: a pause is not simulated -/

/-- Any number of updates make no step while the simulation is paused (both steppers), and a single
step is made for each call of `step_simulation`. -/
theorem no_steps_while_paused (us : List (Cfg T × T)) (s : S T) (hp : s.paused = true) :
    updates us s = (s, []) ∧ ∀ t, stepOnce t s = some ({ s with last := t }, [t]) := by
  refine ⟨?_, fun t => by simp [stepOnce, hp]⟩
  induction us with
  | nil => rfl
  | cons x us ih => simp [updates, (at_most_max_steps x.1 x.2 s).2 hp, ih]

theorem worker_no_steps_while_paused (us : List (Cfg T × T)) (a : A T) (hp : a.paused = true) :
    wUpdates (us.map fun x => (x.1, x.2, [])) a = (a, []) := by
  induction us with
  | nil => rfl
  | cons x us ih => simp [wUpdates, wUpdate, onMsgs, hp, ih]

/-- Asynchronous: the update that ends a pause makes no step, however long the pause was, and the
simulation goes on from the present time. -/
theorem worker_pause_not_simulated (c : Cfg T) (now : T) (a : A T) :
    wUpdate c now [.setPaused false] a = (⟨now, 0, now, false⟩, []) := by
  have h : ¬ ((c.cap : ℤ) < 0) := by omega
  simp [wUpdate, onMsgs, onMsg, stepTimes, h]

/-- C55 in full for the sequential stepper: if the simulation is paused, updated, resumed, and updated
again at the same time `t`, then no step is made. -/
def C55FullStatement : Prop := ∀ (c : Cfg ℚ) (s : S ℚ) (t : ℚ), 0 < c.dt → s.last ≤ t →
  (update c t (setPaused false (update c t (setPaused true s)).1)).2 = []

/-- Sequential: the pause is simulated when it ends. -/
theorem pause_is_simulated : ¬ C55FullStatement := by
  intro h
  have := h ⟨1, 10⟩ (init 0) 5 (by decide +kernel) (by decide +kernel)
  revert this
  decide +kernel

/-- What holds: the first update after a pause simulates the time since the last update before the
pause, or since the last call of `step_simulation` in it, whichever is later. -/
theorem pause_not_simulated_partial (c : Cfg T) (s s' : S T) (us : List (Cfg T × T)) (t : T) (l : List T)
    (hs : stepOnce t (updates us (setPaused true s)).1 = some (s', l)) :
    l = [t] ∧ update c t (setPaused false s') = (⟨t, 0, false⟩, []) := by
  rw [(no_steps_while_paused us (setPaused true s) rfl).1] at hs
  simp only [stepOnce, setPaused, if_true, Option.some.injEq, Prod.mk.injEq] at hs
  obtain ⟨rfl, rfl⟩ := hs
  simp [update, setPaused]

example : stepOnce 7 (updates [(⟨1, 10⟩, 5)] (setPaused true (init (0 : ℚ)))).1 =
    some (⟨7, 0, true⟩, [7]) := by decide +kernel

end Edyn.Stepping
