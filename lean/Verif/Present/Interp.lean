import Verif.Present.Findings

/-!
# Presentation interpolates the simulated motion (C84)
-/

namespace Edyn.Present

open Edyn.Math Edyn.Stepping

/-- The simulated motion of a body: the state after each step.  The position and the orientation are integrated
with the velocities at the end of the step (`solver.cpp`, `Edyn.Solver`). -/
structure Motion (dt : ℝ) where
  at_ : ℕ → State
  unit : ∀ k, (at_ k).pose.orn.lengthSqr = 1
  pos : ∀ k, (at_ (k + 1)).pose.pos = (at_ k).pose.pos + V3.smul dt (at_ (k + 1)).vel
  orn : ∀ k, (at_ (k + 1)).pose.orn = (at_ k).pose.orn.integrate (at_ (k + 1)).ang dt

/-- A body without offsets, which is awake, after a number of steps. -/
noncomputable def Motion.body {dt : ℝ} (m : Motion dt) (k : ℕ) : Body :=
  ⟨m.at_ k, (m.at_ k).pose, .none, .none, (m.at_ k).pose, true, false, false⟩

/-- The position and orientation shown by an update of the sequential stepper after which the body has made `k`
steps (`stepper_sequential.cpp` 104-105). -/
noncomputable def Motion.shown {dt : ℝ} (m : Motion dt) (eps rate elapsed : ℝ) (s : S ℝ) (k : ℕ) : Pose :=
  (present eps rate elapsed (interpolationDt dt s.simTime s.last dt) (m.body k)).shown

/-- The path of a body, in straight lines between the positions after each step: `x` is where it is at time `τ`, when
the simulation starts at `t₀`. -/
def OnPath {dt : ℝ} (m : Motion dt) (t₀ τ : ℝ) (x : V3 ℝ) : Prop := ∃ (n : ℕ) (f : ℝ), 0 ≤ f ∧ f < 1 ∧ τ = t₀ + (n + f) * dt ∧
  x = (m.at_ n).pose.pos + V3.smul f ((m.at_ (n + 1)).pose.pos - (m.at_ n).pose.pos)

/-- The path is unambiguous. -/
theorem onPath_unique {dt : ℝ} (hd : 0 < dt) (m : Motion dt) (t₀ τ : ℝ) (x y : V3 ℝ) (hx : OnPath m t₀ τ x)
    (hy : OnPath m t₀ τ y) : x = y := by
  obtain ⟨n, f, h1, h2, h3, h4⟩ := hx
  obtain ⟨k, g, i1, i2, i3, i4⟩ := hy
  have e : (n : ℝ) + f = k + g := by
    have : ((n : ℝ) + f) * dt = (k + g) * dt := by linarith
    exact mul_right_cancel₀ hd.ne' this
  have hnk : n = k := by
    rcases lt_trichotomy n k with h | h | h
    · have : ((n + 1 : ℕ) : ℝ) ≤ k := Nat.cast_le.2 h
      push_cast at this; linarith
    · exact h
    · have : ((k + 1 : ℕ) : ℝ) ≤ n := Nat.cast_le.2 h
      push_cast at this; linarith
  subst hnk
  have : f = g := by linarith
  rw [h4, i4, this]

theorem shown_eq {dt : ℝ} (m : Motion dt) (eps rate elapsed : ℝ) (s : S ℝ) (k : ℕ) (ha : s.acc < dt) (hd : 0 < dt) :
    m.shown eps rate elapsed s k = ⟨(m.at_ k).pose.pos + V3.smul (s.acc - dt) (m.at_ k).vel,
      (m.at_ k).pose.orn.integrate (m.at_ k).ang (s.acc - dt)⟩ := by
  have hi : interpolationDt dt s.simTime s.last dt = s.acc - dt := by
    unfold interpolationDt S.simTime
    rw [min_eq_left (by linarith)]
    ring
  rw [Motion.shown, hi, present_shown _ _ _ _ _ rfl rfl ⟨m.unit k, one_unit, one_unit⟩]
  have e : (m.body k).dis.pos + (m.body k).acc.pos = 0 := by ext <;> simp [Motion.body, Pose.none]
  have e2 : (m.body k).dis.orn * (m.body k).acc.orn = 1 := by simp [Motion.body, Pose.none, qmul_one]
  have z1 : decayPos (rate * elapsed) 0 = 0 := by
    unfold decayPos
    rw [if_neg (by norm_num [V3.lengthSqr, V3.dot])]
  have z2 : decayOrn eps (rate * elapsed) 1 = 1 := by
    unfold decayOrn
    rw [if_neg (by norm_num)]
  rw [e, e2, z1, z2, qone_mul]
  ext <;> simp [Motion.body]

/-- The position shown is between the positions after the last two steps, at the fraction of a step that is left
over.  It is never beyond the simulated positions. -/
theorem shown_between {dt : ℝ} (hd : 0 < dt) (m : Motion dt) (eps rate elapsed : ℝ) (s : S ℝ) (k : ℕ) (h0 : 0 ≤ s.acc)
    (ha : s.acc < dt) : (m.shown eps rate elapsed s (k + 1)).pos =
      (m.at_ k).pose.pos + V3.smul (s.acc / dt) ((m.at_ (k + 1)).pose.pos - (m.at_ k).pose.pos) ∧
    0 ≤ s.acc / dt ∧ s.acc / dt < 1 := by
  refine ⟨?_, div_nonneg h0 hd.le, (div_lt_one hd).2 ha⟩
  rw [shown_eq m eps rate elapsed s (k + 1) ha hd, m.pos k]
  ext <;> simp <;> field_simp <;> ring

/-- The orientation shown is the one after the last but one step, turned by the angular velocity of the last step
for the time that is left over, for the angular speeds at which the exact formula is used. -/
theorem shown_orientation {dt : ℝ} (hd : 0 < dt) (m : Motion dt) (eps rate elapsed : ℝ) (s : S ℝ) (k : ℕ) (ha : s.acc < dt)
    (hw : 1 / 1000 ≤ Real.sqrt (V3.lengthSqr (m.at_ (k + 1)).ang)) :
    (m.shown eps rate elapsed s (k + 1)).orn = (m.at_ k).pose.orn.integrate (m.at_ (k + 1)).ang s.acc := by
  rw [shown_eq m eps rate elapsed s (k + 1) ha hd]
  have hu := m.unit (k + 1)
  have hk := m.orn k
  rw [hk] at hu ⊢
  simp only
  have hv : V3.lengthSqr (V3.smul (1 / Real.sqrt (V3.lengthSqr (m.at_ (k + 1)).ang)) (m.at_ (k + 1)).ang) = 1 := by
    have hs : Real.sqrt (V3.lengthSqr (m.at_ (k + 1)).ang) * Real.sqrt (V3.lengthSqr (m.at_ (k + 1)).ang) =
      V3.lengthSqr (m.at_ (k + 1)).ang := Real.mul_self_sqrt (lengthSqr_nonneg _)
    have hne : Real.sqrt (V3.lengthSqr (m.at_ (k + 1)).ang) ≠ 0 := by intro h; rw [h] at hw; norm_num at hw
    generalize Real.sqrt (V3.lengthSqr (m.at_ (k + 1)).ang) = r at *
    have : V3.lengthSqr (V3.smul (1 / r) (m.at_ (k + 1)).ang) = V3.lengthSqr (m.at_ (k + 1)).ang / (r * r) := by
      simp [V3.lengthSqr, V3.dot]; field_simp
    rw [this, hs, div_self]
    rw [← hs]
    exact mul_ne_zero hne hne
  rw [integrate_turns _ hu _ _ hw, integrate_turns _ (m.unit k) _ _ hw, integrate_turns _ (m.unit k) _ _ hw]
  have assoc : ∀ a b c : Quat ℝ, a * (b * c) = a * b * c := by
    intro a b c
    ext <;> simp <;> ring
  rw [assoc, ← (axisAngle_spec _ hv _ _).2.2]
  congr 2
  ring

/-- **C84, sequential stepper.** With a constant step and if no update reaches the limit of steps, the position shown
by each update is the one on the path of the body exactly one step before the time of the update: the motion
shown runs evenly in time whatever the times of the updates are. -/
theorem shows_the_path {dt : ℝ} (hd : 0 < dt) (m : Motion dt) (eps rate elapsed t₀ : ℝ) (us : List (Cfg ℝ × ℝ))
    (hdt : ∀ x ∈ us, x.1.dt = dt) (hf : Forward t₀ us) (hc : NotCapped (init t₀) us) (h1 : t₀ + dt ≤ lastTime t₀ us) :
    OnPath m t₀ (lastTime t₀ us - dt)
      (m.shown eps rate elapsed (updates us (init t₀)).1 (updates us (init t₀)).2.length).pos := by
  obtain ⟨a1, a2, a3, a4⟩ := steps_account_for_time us t₀ dt hd hdt hf hc
  have hk : 1 ≤ ⌊(lastTime t₀ us - t₀) / dt⌋₊ := by
    rw [Nat.one_le_floor_iff, le_div_iff₀ hd]
    linarith
  rw [a1]
  obtain ⟨k, hk⟩ : ∃ k, ⌊(lastTime t₀ us - t₀) / dt⌋₊ = k + 1 := ⟨_, (Nat.succ_pred_eq_of_pos hk).symm⟩
  rw [hk] at a2 ⊢
  obtain ⟨b1, b2, b3⟩ := shown_between hd m eps rate elapsed _ k a3 a4
  refine ⟨k, _, b2, b3, ?_, b1⟩
  rw [add_mul, div_mul_cancel₀ _ hd.ne', a2]
  push_cast
  ring

/-- Whatever the updates are, also if some reach the limit of steps: the position shown is between the positions after
the last two steps. -/
theorem shown_within {dt : ℝ} (hd : 0 < dt) (m : Motion dt) (eps rate elapsed t₀ : ℝ) (us : List (Cfg ℝ × ℝ))
    (hdt : ∀ x ∈ us, x.1.dt = dt) (hf : Forward t₀ us) (h0 : us ≠ []) (k : ℕ) :
    ∃ f : ℝ, 0 ≤ f ∧ f < 1 ∧ (m.shown eps rate elapsed (updates us (init t₀)).1 (k + 1)).pos =
      (m.at_ k).pose.pos + V3.smul f ((m.at_ (k + 1)).pose.pos - (m.at_ k).pose.pos) := by
  obtain ⟨-, -, -, a4, a5, -, a7⟩ := simulation_keeps_up us (init t₀) (fun x hx => by rw [hdt x hx]; exact hd) rfl le_rfl hf
  obtain ⟨c, hc⟩ : ∃ c, us.getLast? = some c := by
    cases h : us.getLast? with
    | none => exact absurd (List.getLast?_eq_none_iff.1 h) h0
    | some c => exact ⟨c, rfl⟩
  have := a7 c hc
  rw [← a4, hdt c (List.mem_of_getLast? hc)] at this
  have ha : (updates us (init t₀)).1.acc < dt := by
    unfold S.simTime at this
    linarith
  obtain ⟨b1, b2, b3⟩ := shown_between hd m eps rate elapsed _ k a5 ha
  exact ⟨_, b2, b3, b1⟩

/-- Not vacuous: a body moving evenly, and updates at 0.9 and 2.5 with a step of one. -/
noncomputable def even : Motion 1 where
  at_ k := ⟨⟨⟨k, 0, 0⟩, 1⟩, ⟨1, 0, 0⟩, 0⟩
  unit _ := one_unit
  pos k := by ext <;> simp
  orn k := (integrate_rest _ one_unit _).symm

example : (∀ x ∈ [((⟨1, 10⟩ : Cfg ℝ), (0.9 : ℝ)), (⟨1, 10⟩, 2.5)], x.1.dt = 1) ∧
    Forward 0 [((⟨1, 10⟩ : Cfg ℝ), (0.9 : ℝ)), (⟨1, 10⟩, 2.5)] ∧ NotCapped (init 0) [((⟨1, 10⟩ : Cfg ℝ), (0.9 : ℝ)), (⟨1, 10⟩, 2.5)] ∧
    (0 : ℝ) + 1 ≤ lastTime 0 [((⟨1, 10⟩ : Cfg ℝ), (0.9 : ℝ)), (⟨1, 10⟩, 2.5)] ∧ OnPath even 0 (2.5 - 1) ⟨1.5, 0, 0⟩ := by
  refine ⟨by simp, ?_, ?_, ?_, 1, 0.5, by norm_num, by norm_num, by norm_num, ?_⟩
  · norm_num [Forward]
  · have h9 : ⌊(9 / 10 : ℝ)⌋₊ = 0 := by rw [Nat.floor_eq_zero]; norm_num
    norm_num [NotCapped, init, update, h9]
  · norm_num [lastTime]
  · ext <;> norm_num [even]

/-! ## The delay of the presentation of the asynchronous stepper -/

/-- What holds of the delay: all samples are between zero and one second, and so is the delay, up to two seconds and
one step. -/
structure Delay.Ok (dt : ℝ) (d : Delay) : Prop where
  count : d.samples.length = 48
  samples : ∀ v ∈ d.samples, 0 ≤ v ∧ v ≤ 1
  low : 0 ≤ d.delay
  high : d.delay ≤ 2 + dt

theorem sum_bounds (l : List ℝ) (h : ∀ v ∈ l, 0 ≤ v ∧ v ≤ 1) : 0 ≤ l.sum ∧ l.sum ≤ l.length := by
  induction l with
  | nil => simp
  | cons v l ih =>
    obtain ⟨i1, i2⟩ := ih (fun w hw => h w (by simp [hw]))
    obtain ⟨j1, j2⟩ := h v (by simp)
    simp only [List.sum_cons, List.length_cons, Nat.cast_add, Nat.cast_one]
    exact ⟨by linarith, by linarith⟩

/-- The average of the samples. -/
noncomputable def average (l : List ℝ) : ℝ := l.sum / l.length

theorem average_bounds {l : List ℝ} (hl : l.length = 48) (h : ∀ v ∈ l, 0 ≤ v ∧ v ≤ 1) : 0 ≤ average l ∧ average l ≤ 1 := by
  obtain ⟨h1, h2⟩ := sum_bounds l h
  have : (0 : ℝ) < l.length := by rw [hl]; norm_num
  exact ⟨div_nonneg h1 this.le, (div_le_one this).2 h2⟩

/-- The delay aimed at is a whole number of steps, at least the average of the samples and less than one step more
than twice what the samples can be. -/
theorem target_bounds {dt : ℝ} (hd : 0 < dt) {l : List ℝ} (hl : l.length = 48) (h : ∀ v ∈ l, 0 ≤ v ∧ v ≤ 1) :
    average l ≤ targetDelay dt l ∧ targetDelay dt l < 2 + dt ∧ ∃ n : ℤ, targetDelay dt l = n * dt := by
  obtain ⟨a1, a2⟩ := average_bounds hl h
  have hv : ∀ v ∈ l.map (fun v => |v - average l|), 0 ≤ v ∧ v ≤ 1 := by
    intro v hv
    obtain ⟨w, hw, rfl⟩ := List.mem_map.1 hv
    obtain ⟨w1, w2⟩ := h w hw
    exact ⟨abs_nonneg _, abs_le.2 ⟨by linarith, by linarith⟩⟩
  obtain ⟨d1, d2⟩ := average_bounds (by simp [hl]) hv
  have e : targetDelay dt l = ⌈(average l + average (l.map fun v => |v - average l|)) / dt⌉ * dt := by
    simp only [targetDelay, average, List.length_map]
  generalize average (l.map fun v => |v - average l|) = dev at d1 d2 e
  have c1 := Int.le_ceil ((average l + dev) / dt)
  have c2 := Int.ceil_lt_add_one ((average l + dev) / dt)
  have m1 := mul_le_mul_of_nonneg_right c1 hd.le
  have m2 := mul_lt_mul_of_pos_right c2 hd
  rw [div_mul_cancel₀ _ hd.ne'] at m1
  rw [add_mul, div_mul_cancel₀ _ hd.ne'] at m2
  exact ⟨by rw [e]; linarith, by rw [e]; linarith, _, e⟩

theorem addSample_ok {l : List ℝ} (hl : l.length = 48) (h : ∀ v ∈ l, 0 ≤ v ∧ v ≤ 1) {d : ℝ} (hd : 0 ≤ d) :
    (addSample d l).length = 48 ∧ ∀ v ∈ addSample d l, 0 ≤ v ∧ v ≤ 1 := by
  constructor
  · simp [addSample, hl]
  · intro v hv
    rcases List.mem_append.1 hv with hv | hv
    · exact h v (List.mem_of_mem_drop hv)
    · simp only [List.mem_singleton] at hv
      subst hv
      exact ⟨le_min hd zero_le_one, min_le_right _ _⟩

theorem calcDelay_cases (dt diff elapsed : ℝ) (s : Delay) (t f : ℝ) (ht : t = targetDelay dt (addSample diff s.samples))
    (hf : f = min ((if 0 < t - s.delay then 5 else 2) * elapsed) 1) :
    (calcDelay dt diff elapsed s).samples = addSample diff s.samples ∧
    ((calcDelay dt diff elapsed s).delay = t ∧ |t - (s.delay + (t - s.delay) * f)| < 1 / 100000 ∨
     (calcDelay dt diff elapsed s).delay = s.delay + (t - s.delay) * f ∨
     s.adjusting = false ∧ (calcDelay dt diff elapsed s).delay = s.delay) := by
  unfold calcDelay
  simp only [← ht, ← hf]
  by_cases h1 : (if s.adjusting then true else decide (dt < |t - s.delay|)) = true
  · rw [if_pos h1]
    by_cases h2 : |t - (s.delay + (t - s.delay) * f)| < 1 / 100000
    · rw [if_pos h2]; exact ⟨rfl, Or.inl ⟨rfl, h2⟩⟩
    · rw [if_neg h2]; exact ⟨rfl, Or.inr (Or.inl rfl)⟩
  · rw [if_neg h1]
    refine ⟨rfl, Or.inr (Or.inr ⟨?_, rfl⟩)⟩
    cases h : s.adjusting
    · rfl
    · simp [h] at h1

/-- **C84, the delay is bounded.** Whatever the times of the updates and of the steps of the worker are, the delay is
never negative and never more than two seconds and one step. -/
theorem delay_bounded {dt : ℝ} (hd : 0 < dt) : ∀ (l : List (ℝ × ℝ)) (s : Delay), (∀ x ∈ l, 0 ≤ x.1 ∧ 0 ≤ x.2) → s.Ok dt →
    (l.foldl (fun s x => calcDelay dt x.1 x.2 s) s).Ok dt := by
  intro l
  induction l with
  | nil => intro s _ hs; exact hs
  | cons x l ih =>
    intro s hl hs
    refine ih _ (fun y hy => hl y (by simp [hy])) ?_
    obtain ⟨x1, x2⟩ := hl x (by simp)
    obtain ⟨a1, a2⟩ := addSample_ok hs.count hs.samples x1
    obtain ⟨t1, t2, -⟩ := target_bounds hd a1 a2
    have t0 : 0 ≤ targetDelay dt (addSample x.1 s.samples) := le_trans (average_bounds a1 a2).1 t1
    have step : ∀ r : ℝ, 0 ≤ r → 0 ≤ s.delay + (targetDelay dt (addSample x.1 s.samples) - s.delay) * min (r * x.2) 1 ∧
        s.delay + (targetDelay dt (addSample x.1 s.samples) - s.delay) * min (r * x.2) 1 ≤ 2 + dt := by
      intro r hr
      have m1 : 0 ≤ min (r * x.2) 1 := le_min (mul_nonneg hr x2) zero_le_one
      have m2 : min (r * x.2) 1 ≤ 1 := min_le_right _ _
      have h1 := hs.low
      have h2 := hs.high
      generalize min (r * x.2) 1 = f at m1 m2
      generalize targetDelay dt (addSample x.1 s.samples) = t at t0 t2
      constructor <;> nlinarith
    obtain ⟨s1, s2⟩ := step _ (by split <;> norm_num : (0 : ℝ) ≤ if 0 < targetDelay dt (addSample x.1 s.samples) - s.delay then 5 else 2)
    obtain ⟨c1, c2⟩ := calcDelay_cases dt x.1 x.2 s _ _ rfl rfl
    refine ⟨by rw [c1]; exact a1, by rw [c1]; exact a2, ?_, ?_⟩
    · rcases c2 with ⟨c2, -⟩ | c2 | ⟨-, c2⟩
      · rw [c2]; exact t0
      · rw [c2]; exact s1
      · rw [c2]; exact hs.low
    · rcases c2 with ⟨c2, -⟩ | c2 | ⟨-, c2⟩
      · rw [c2]; exact t2.le
      · rw [c2]; exact s2
      · rw [c2]; exact hs.high

/-- The delay stays as it is while what is aimed at is within one step of it: the motion shown runs evenly. -/
theorem delay_steady (dt diff elapsed : ℝ) (s : Delay) (ha : s.adjusting = false)
    (h : |targetDelay dt (addSample diff s.samples) - s.delay| ≤ dt) : (calcDelay dt diff elapsed s).delay = s.delay := by
  unfold calcDelay
  simp [ha, not_lt.2 h]

/-- The delay comes closer to what is aimed at in every update in which it is adjusted, by the rates of five and two
per second, or reaches it. -/
theorem delay_approaches (dt diff elapsed : ℝ) (s : Delay) (he : 0 ≤ elapsed) (ha : s.adjusting = true) :
    |targetDelay dt (addSample diff s.samples) - (calcDelay dt diff elapsed s).delay| ≤
      |targetDelay dt (addSample diff s.samples) - s.delay| * (1 - min (2 * elapsed) 1) := by
  have m0 : 0 ≤ min (2 * elapsed) 1 := le_min (by linarith) zero_le_one
  have m1 : min (2 * elapsed) 1 ≤ 1 := min_le_right _ _
  have m2 : min (2 * elapsed) 1 ≤ min (5 * elapsed) 1 := min_le_min_right _ (by linarith)
  have m3 : min (5 * elapsed) 1 ≤ 1 := min_le_right _ _
  obtain ⟨-, c2⟩ := calcDelay_cases dt diff elapsed s _ _ rfl rfl
  generalize targetDelay dt (addSample diff s.samples) = t at c2
  have key : ∀ f : ℝ, min (2 * elapsed) 1 ≤ f → f ≤ 1 →
      |t - (s.delay + (t - s.delay) * f)| ≤ |t - s.delay| * (1 - min (2 * elapsed) 1) := by
    intro f h1 h2
    rw [show t - (s.delay + (t - s.delay) * f) = (t - s.delay) * (1 - f) by ring, abs_mul, abs_of_nonneg (by linarith : 0 ≤ 1 - f)]
    exact mul_le_mul_of_nonneg_left (by linarith) (abs_nonneg _)
  rcases c2 with ⟨c2, -⟩ | c2 | ⟨c2, -⟩
  · rw [c2, sub_self, abs_zero]
    exact mul_nonneg (abs_nonneg _) (by linarith)
  · rw [c2]
    split
    · exact key _ m2 m3
    · exact key _ le_rfl m1
  · rw [ha] at c2
    exact absurd c2 (by simp)

/-- The time shown, the current time minus the delay, does not go back from one update to the next. -/
def TimeForwardFull : Prop := ∀ (dt diff elapsed now : ℝ) (s : Delay), 0 < dt → 0 ≤ diff → 0 ≤ elapsed → s.Ok dt →
  now - s.delay ≤ now + elapsed - (calcDelay dt diff elapsed s).delay

/-- **C84, the time shown does not go back, partial.** It does not go back by more than ten microseconds while the delay
is not more than a fifth of a second too short.  Missing: larger differences (`time_forward_refuted`). -/
theorem time_forward_partial (dt diff elapsed now : ℝ) (s : Delay) (he : 0 ≤ elapsed)
    (h : targetDelay dt (addSample diff s.samples) - s.delay ≤ 1 / 5) :
    now - s.delay - 1 / 100000 ≤ now + elapsed - (calcDelay dt diff elapsed s).delay := by
  obtain ⟨-, c2⟩ := calcDelay_cases dt diff elapsed s _ _ rfl rfl
  generalize targetDelay dt (addSample diff s.samples) = t at h c2
  have key : ∀ r : ℝ, r = (if 0 < t - s.delay then 5 else 2) → (t - s.delay) * min (r * elapsed) 1 ≤ elapsed := by
    intro r hr
    have m1 : min (r * elapsed) 1 ≤ r * elapsed := min_le_left _ _
    by_cases h0 : 0 < t - s.delay
    · rw [if_pos h0] at hr
      subst hr
      have := mul_le_mul_of_nonneg_left m1 h0.le
      nlinarith
    · rw [if_neg h0] at hr
      subst hr
      have : 0 ≤ min (2 * elapsed) 1 := le_min (by linarith) zero_le_one
      nlinarith [mul_nonneg_of_nonpos_of_nonpos (not_lt.1 h0) (neg_nonpos.2 this)]
  have k := key _ rfl
  rcases c2 with ⟨c2, h2⟩ | c2 | ⟨-, c2⟩
  · have := (abs_lt.1 h2).2
    rw [c2]
    linarith
  · rw [c2]
    linarith
  · rw [c2]
    linarith

theorem start_ok {dt : ℝ} (hd : 0 < dt) : Delay.start.Ok dt :=
  ⟨by simp [Delay.start], by simp [Delay.start], le_rfl, by simp [Delay.start]; linarith⟩

theorem start_target (dt : ℝ) : targetDelay dt (addSample 1 Delay.start.samples) = ⌈(71 / 1152 : ℝ) / dt⌉ * dt := by
  have e : addSample 1 Delay.start.samples = List.replicate 47 0 ++ [1] := by simp [addSample, Delay.start]
  rw [e]
  unfold targetDelay
  simp only [List.sum_append, List.sum_replicate, List.sum_singleton, List.length_append, List.length_replicate,
    List.length_singleton, List.map_append, List.map_replicate, List.map_cons, List.map_nil]
  norm_num [abs_of_nonneg]

/-- **C84, the time shown does not go back, refuted.** With a step of a quarter of a second, one late message of the
worker makes the delay aimed at a quarter of a second, and in an update a tenth of a second later the delay grows
by an eighth.  (With smaller steps it takes several late messages.) -/
theorem time_forward_refuted : ¬ TimeForwardFull := by
  intro h
  have := h (1 / 4) 1 (1 / 10) 0 Delay.start (by norm_num) (by norm_num) (by norm_num) (start_ok (by norm_num))
  have hc : ⌈(71 / 1152 : ℝ) / (1 / 4)⌉ = 1 := by
    rw [Int.ceil_eq_iff]; norm_num
  have ht := start_target (1 / 4)
  rw [hc] at ht
  unfold calcDelay at this
  simp only [ht] at this
  norm_num [Delay.start, abs_of_nonneg] at this

/-- The full statement: also with the asynchronous stepper the position shown is not before the last but one step. -/
def WithinFull : Prop := ∀ (dt now sim diff elapsed : ℝ) (l : List (ℝ × ℝ)), 0 < dt → 0 ≤ diff → 0 ≤ elapsed →
  (∀ x ∈ l, 0 ≤ x.1 ∧ 0 ≤ x.2) → diff = now - sim →
  -dt ≤ interpolationDt dt sim now (calcDelay dt diff elapsed (l.foldl (fun s x => calcDelay dt x.1 x.2 s) Delay.start)).delay

/-- **C84, with the asynchronous stepper, refuted.** After one late message of the worker the delay is four steps of
a 60th of a second.  When the next message is in time, the body is shown four steps before its current state, moved back
by its current velocity. -/
theorem within_refuted : ¬ WithinFull := by
  intro h
  have := h (1 / 60) 1 1 0 0 [(1, 1)] (by norm_num) le_rfl le_rfl (by simp) (by norm_num)
  have hc : ⌈(71 / 1152 : ℝ) / (1 / 60)⌉ = 4 := by
    rw [Int.ceil_eq_iff]; norm_num
  have ht := start_target (1 / 60)
  rw [hc] at ht
  have e1 : calcDelay (1 / 60) 1 1 Delay.start = ⟨List.replicate 47 0 ++ [1], 4 / 60, false⟩ := by
    unfold calcDelay
    simp only [ht]
    norm_num [Delay.start, addSample]
  have e2 : addSample 0 (List.replicate 47 0 ++ [1] : List ℝ) = List.replicate 46 0 ++ [1, 0] := by
    simp [addSample]
  have e3 : targetDelay (1 / 60) (List.replicate 46 0 ++ [1, 0]) = 4 / 60 := by
    unfold targetDelay
    simp only [List.sum_append, List.sum_replicate, List.sum_cons, List.sum_nil, List.length_append, List.length_replicate,
      List.length_cons, List.length_nil, List.map_append, List.map_replicate, List.map_cons, List.map_nil]
    have : ⌈(71 / 1152 : ℝ) / (1 / 60)⌉ * (1 / 60 : ℝ) = 4 / 60 := by rw [hc]; norm_num
    rw [← this]
    norm_num [abs_of_nonneg]
  simp only [List.foldl_cons, List.foldl_nil, e1] at this
  rw [delay_steady _ _ _ _ rfl (by simp only [e2, e3]; norm_num)] at this
  norm_num [interpolationDt] at this

/-- With the asynchronous stepper the position shown is at most one step beyond the simulated one. -/
theorem not_far_ahead (dt sim now delay : ℝ) : interpolationDt dt sim now delay ≤ dt := min_le_right _ _

/-- **C83, paused.** While the simulation is paused what is shown is where the body is, and nothing else changes. -/
theorem paused_shows_state (b : Body) : (snapPresentation b).shown = b.st.pose ∧ (snapPresentation b).st = b.st ∧
    (snapPresentation b).prev = b.prev ∧ (snapPresentation b).dis = b.dis := ⟨rfl, rfl, rfl, rfl⟩

/-- Not vacuous: updates which keep the delay bounded. -/
example : (Delay.start.Ok (1 / 60)) ∧ (calcDelay (1 / 60) 1 1 Delay.start).Ok (1 / 60) :=
  ⟨start_ok (by norm_num), delay_bounded (by norm_num) [(1, 1)] _ (by simp) (start_ok (by norm_num))⟩

end Edyn.Present
