import Verif.Present.Smooth
import Verif.Sim.Stepping

/-!
# Corrections in the simulation worker, bodies at rest, disabled bodies, interpolation (C83, C84)
-/

namespace Edyn.Present

open Edyn.Math

/-! ## Corrections in the simulation worker -/

/-- The state of a body after the messages of one update. -/
def corrected (cs : List (Option State × Bool)) (s : State) : State := ((cs.filterMap fun c => c.1).getLast?).getD s

/-- The updates of a worker: the messages and, if steps were made, the state after them. -/
abbrev Updates := List (List (Option State × Bool) × Option State)

/-- The offset which hides all jumps of a body: each update adds the difference of the state before and after
the corrections.  The steps add nothing. -/
noncomputable def hidden : Updates → State → Pose → Pose
  | [], _, o => o
  | (cs, moved) :: us, s, o =>
    let c := corrected cs s
    hidden us (moved.getD c) ⟨o.pos + (s.pose.pos - c.pose.pos), o.orn * (s.pose.orn * c.pose.orn.conjugate)⟩

/-- A sequence of updates. -/
noncomputable def run (us : Updates) (x : Worker × Body) : Worker × Body := us.foldl (fun x u => workerUpdate u.1 u.2 x) x

/-- The offset the main thread has accumulated, with what was not sent yet. -/
noncomputable def pending (x : Worker × Body) : Pose := x.1.out.foldl merge x.2.acc

/-- All orientations among the updates are normalized. -/
def NormalUpdates (us : Updates) : Prop :=
  ∀ u ∈ us, (∀ c ∈ u.1, ∀ s ∈ c.1, s.pose.orn.lengthSqr = 1) ∧ ∀ s ∈ u.2, s.pose.orn.lengthSqr = 1

/-- The full statement: the offset accumulated by the main thread is the one that hides all jumps. -/
def WorkerFull : Prop := ∀ (us : Updates) (x : Worker × Body), x.1.b.awake = true → x.1.b.st.pose.orn.lengthSqr = 1 →
  (pending x).orn.lengthSqr = 1 → NormalUpdates us → pending (run us x) = hidden us x.1.b.st (pending x)

theorem merge_fold_append (acc op : Pose) (l : List Pose) : (l ++ [op]).foldl merge acc = merge (l.foldl merge acc) op := by
  simp [List.foldl_append]

theorem update_pending (cs : List (Option State × Bool)) (hl : cs.length ≤ 1) (moved : Option State) (x : Worker × Body)
    (ha : x.1.b.awake = true) (hx : x.1.b.st.pose.orn.lengthSqr = 1) (hp : (pending x).orn.lengthSqr = 1)
    (hc : ∀ c ∈ cs, ∀ s ∈ c.1, s.pose.orn.lengthSqr = 1) :
    pending (workerUpdate cs moved x) = ⟨(pending x).pos + (x.1.b.st.pose.pos - (corrected cs x.1.b.st).pose.pos),
      (pending x).orn * (x.1.b.st.pose.orn * (corrected cs x.1.b.st).pose.orn.conjugate)⟩ ∧
    (workerUpdate cs moved x).1.b.awake = true ∧
    (workerUpdate cs moved x).1.b.st = moved.getD (corrected cs x.1.b.st) ∧
    (corrected cs x.1.b.st).pose.orn.lengthSqr = 1 := by
  obtain ⟨⟨b, out⟩, m⟩ := x
  have key : pending (⟨b, out⟩, m) = out.foldl merge m.acc := rfl
  have main : ∀ cs, pending (workerUpdate cs moved (⟨b, out⟩, m)) = (Worker.messages cs ⟨b, out⟩).out.foldl merge m.acc := by
    intro cs
    cases moved <;> simp [workerUpdate, pending, receive]
  match cs, hl with
  | [], _ =>
    have hw : Worker.messages [] ⟨b, out⟩ = ⟨{ b with acc := .none }, out⟩ := by
      simp [Worker.messages, Worker.clear, ha]
    have hcor : corrected [] b.st = b.st := rfl
    refine ⟨?_, ?_, ?_, hx⟩
    · simp only [hcor]
      rw [main, hw, key, (mul_conjugate _ hx).1, qmul_one]
      ext <;> simp
    · cases moved <;> simpa [workerUpdate, hw] using ha
    · cases moved <;> simp [workerUpdate, hw, hcor]
  | [(new, wake)], _ =>
    have hcor : corrected [(new, wake)] b.st = after new b.st := by
      cases new <;> simp [corrected, after]
    have hn : (after new b.st).pose.orn.lengthSqr = 1 := by
      cases hnew : new with
      | none => exact hx
      | some s => exact hc (new, wake) (by simp) s (by simp [hnew])
    have hw : Worker.messages [(new, wake)] ⟨b, out⟩ =
        ⟨{ b with st := after new b.st, prev := b.st.pose, acc := addJump .none b.st.pose (after new b.st).pose },
          out ++ [addJump .none b.st.pose (after new b.st).pose]⟩ := by
      have h1 : Worker.clear ⟨b, out⟩ = ⟨{ b with acc := .none }, out⟩ := by simp [Worker.clear, ha]
      have h2 : ({ b with acc := .none } : Body).awake = true := ha
      simp only [Worker.messages, List.foldl_cons, List.foldl_nil, h1, Worker.correct, correct_awake new wake _ h2]
      rw [if_pos ha]
    refine ⟨?_, ?_, ?_, by rw [hcor]; exact hn⟩
    · simp only [hcor]
      rw [main, hw, merge_fold_append, ← key]
      have hu := mul_unit hp (jump_unit hx hn)
      simp only [merge, addJump, Pose.none, qone_mul]
      rw [normalize_unit _ hu]
      ext <;> simp
    · cases moved <;> simpa [workerUpdate, hw] using ha
    · cases moved <;> simp [workerUpdate, hw, hcor]

/-- **C83, corrections in the simulation worker, partial.** The offset accumulated by the main thread is the one that
hides all jumps, whatever the steps in between do and whether or not they are made, if no update of the worker
processes more than one correction.  Missing: several corrections in one update (`worker_refuted`). -/
theorem worker_partial : ∀ (us : Updates) (x : Worker × Body), (∀ u ∈ us, u.1.length ≤ 1) → x.1.b.awake = true →
    x.1.b.st.pose.orn.lengthSqr = 1 → (pending x).orn.lengthSqr = 1 → NormalUpdates us →
    pending (run us x) = hidden us x.1.b.st (pending x) := by
  intro us
  induction us with
  | nil => intro x _ _ _ _ _; rfl
  | cons u us ih =>
    intro x hl ha hx hp hn
    obtain ⟨h1, h2, h3, h4⟩ := update_pending u.1 (hl u (by simp)) u.2 x ha hx hp (hn u (by simp)).1
    have hm : (u.2.getD (corrected u.1 x.1.b.st)).pose.orn.lengthSqr = 1 := by
      cases hu : u.2 with
      | none => exact h4
      | some s => exact (hn u (by simp)).2 s (by simp [hu])
    have := ih (workerUpdate u.1 u.2 x) (fun v hv => hl v (by simp [hv])) h2 (by rw [h3]; exact hm)
      (by rw [h1]; exact mul_unit hp (jump_unit hx h4)) (fun v hv => hn v (by simp [hv]))
    rw [h3, h1] at this
    exact this

/-! ## Witnesses -/

noncomputable def still (p : V3 ℝ) : State := ⟨⟨p, 1⟩, 0, 0⟩

/-- A body at rest at a point, shown where it is. -/
noncomputable def at_ (p : V3 ℝ) : Body := ⟨still p, ⟨p, 1⟩, .none, .none, ⟨p, 1⟩, true, false, false⟩

theorem at_normal (p : V3 ℝ) : Normal (at_ p) := ⟨one_unit, one_unit, one_unit⟩

theorem conj_one : (1 : Quat ℝ).conjugate = 1 := by ext <;> simp [Quat.conjugate]

/-- **C83, corrections in the simulation worker, refuted.** Two corrections are processed in one update of the
worker: the first moves the body by one, the second is about other bodies.  The main thread adds the offset
twice: the body is shown off by one in the opposite direction. -/
theorem worker_refuted : ¬ WorkerFull := by
  intro h
  have := h [([(some (still ⟨1, 0, 0⟩), true), (none, false)], some (still ⟨1, 0, 0⟩))] (⟨at_ 0, []⟩, at_ 0) rfl one_unit
    (by simp [pending, at_, Pose.none, one_unit]) (by
      intro u hu
      simp only [List.mem_singleton] at hu
      subst hu
      refine ⟨?_, ?_⟩
      · intro c hc s hs
        simp only [List.mem_cons, List.not_mem_nil, or_false] at hc
        rcases hc with rfl | rfl
        · simp at hs; subst hs; exact one_unit
        · simp at hs
      · intro s hs
        simp at hs; subst hs; exact one_unit)
  have hp := congrArg (fun p : Pose => p.pos.x) this
  simp [run, workerUpdate, Worker.messages, Worker.clear, Worker.correct, correct, accumulate, replace, assignPrevious,
    addJump, at_, still, Pose.none, pending, receive, merge, hidden, corrected, Body.awake] at hp

theorem present_zero_idt (eps rate dt : ℝ) (p : V3 ℝ) : (present eps rate dt 0 (at_ p)).shown = ⟨p, 1⟩ := by
  rw [present_shown eps rate dt 0 (at_ p) rfl rfl (at_normal p)]
  have e : (at_ p).dis.pos + (at_ p).acc.pos = 0 := by ext <;> simp [at_, Pose.none]
  have e2 : (at_ p).dis.orn * (at_ p).acc.orn = 1 := by simp [at_, Pose.none, qmul_one]
  rw [e, e2, integrate_zero (by exact one_unit)]
  have z1 : decayPos (rate * dt) 0 = 0 := by
    unfold decayPos
    rw [if_neg (by norm_num [V3.lengthSqr, V3.dot])]
  have z2 : decayOrn eps (rate * dt) 1 = 1 := by
    unfold decayOrn
    rw [if_neg (by norm_num)]
  rw [z1, z2, qone_mul]
  ext <;> simp [at_, still]

/-- **C83, a correction does not show as a jump, refuted.** A sleeping body which gets a new state is woken up only
after the offsets were accumulated, so that it jumps. -/
theorem no_jump_refuted : ¬ NoJumpFull := by
  intro h
  have hsh : ({ at_ 0 with sleeping := true } : Body).shown =
      (present (1 / 10000) 6 0 0 { at_ 0 with sleeping := true }).shown := by
    ext <;> simp [present, addOffset, interpolate, updateDis, transfer, at_, Pose.none, Body.awake]
  have := h (1 / 10000) 6 0 (some (still ⟨1, 0, 0⟩)) true { at_ 0 with sleeping := true } (by norm_num) (by norm_num)
    ⟨one_unit, one_unit, one_unit⟩ one_unit rfl hsh
  rw [← hsh] at this
  have e : correct (some (still ⟨1, 0, 0⟩)) true { at_ 0 with sleeping := true } =
      { at_ ⟨1, 0, 0⟩ with prev := ⟨0, 1⟩, shown := ⟨0, 1⟩ } := by
    simp [correct, accumulate, replace, assignPrevious, at_, still, Body.awake]
  have e2 : (present (1 / 10000) 6 0 0 { at_ ⟨1, 0, 0⟩ with prev := ⟨0, 1⟩, shown := ⟨0, 1⟩ }).shown =
      (present (1 / 10000) 6 0 0 (at_ ⟨1, 0, 0⟩)).shown := by
    rw [present_shown _ _ _ _ _ rfl rfl ⟨one_unit, one_unit, one_unit⟩, present_shown _ _ _ _ _ rfl rfl (at_normal _)]
  rw [e, e2, present_zero_idt] at this
  norm_num [distance, after, still, at_, V3.lengthSqr, V3.dot] at this

/-- The statement that a body that fell asleep is shown where it is. -/
def RestFull : Prop := ∀ (eps rate dt idt : ℝ) (b : Body), 0 < eps → eps ≤ 1 / 10000 → 0 < rate * dt → Normal b →
  b.procedural = true → b.awake = true →
  (present eps rate dt idt (fallAsleep (present eps rate dt idt b))).shown.pos = b.st.pose.pos

/-- **C83, bodies at rest, refuted.** The offset of a body which falls asleep is dropped without the shown position
being computed again: the body keeps being shown away from where it is. -/
theorem rest_refuted : ¬ RestFull := by
  intro h
  have := h (1 / 10000) 6 (1 / 60) 0 { at_ 0 with dis := ⟨⟨1, 0, 0⟩, 1⟩ } (by norm_num) (by norm_num) (by norm_num)
    ⟨one_unit, one_unit, one_unit⟩ rfl rfl
  have hp := congrArg (fun p : V3 ℝ => p.x) this
  have n1 : Quat.normalize (1 * 1 : Quat ℝ) = 1 := by rw [qone_mul, normalize_unit _ one_unit]
  have e0 : decayPos (6 * (1 / 60)) ((⟨1, 0, 0⟩ : V3 ℝ) + 0) = ⟨9 / 10, 0, 0⟩ := by
    unfold decayPos
    rw [if_pos (by norm_num [V3.lengthSqr, V3.dot])]
    ext <;> norm_num
  have e1 : decayOrn (1 / 10000) (6 * (1 / 60)) 1 = 1 := by
    unfold decayOrn
    rw [if_neg (by norm_num)]
  simp only [present, addOffset, interpolate, updateDis, transfer, fallAsleep, at_, still, Pose.none, Body.awake, e0, e1, n1,
    if_true, if_false, Bool.not_false, Bool.and_self, Bool.not_true, Bool.false_and, Bool.false_eq_true, V3.add_x] at hp
  norm_num at hp

/-- The position at which a body of a disabled body is shown, after some presentations. -/
noncomputable def disabledShown (n : ℕ) : V3 ℝ :=
  ((fun b => present (1 / 10000) 0 (1 / 60) 0 b)^[n] { at_ 0 with dis := ⟨⟨1, 0, 0⟩, 1⟩, disabled := true }).shown.pos

/-- **C83, disabled bodies, a finding.** The offset of a disabled body is added to the position it was shown at,
again in every update: without decay it goes away without limit, with decay it goes far beyond the offset. -/
theorem disabled_drifts (n : ℕ) : (disabledShown n).x = n := by
  have key : ∀ n : ℕ, ((fun b => present (1 / 10000) 0 (1 / 60) 0 b)^[n] { at_ 0 with dis := ⟨⟨1, 0, 0⟩, 1⟩, disabled := true }) =
      { at_ 0 with dis := ⟨⟨1, 0, 0⟩, 1⟩, disabled := true, shown := ⟨⟨n, 0, 0⟩, 1⟩ } := by
    intro n
    induction n with
    | zero =>
      simp only [Function.iterate_zero, id, at_, Nat.cast_zero]
      rfl
    | succ n ih =>
      rw [Function.iterate_succ_apply', ih]
      have n1 : Quat.normalize (1 * 1 : Quat ℝ) = 1 := by rw [qone_mul, normalize_unit _ one_unit]
      have e0 : decayPos (0 * (1 / 60)) ((⟨1, 0, 0⟩ : V3 ℝ) + 0) = ⟨1, 0, 0⟩ := by
        unfold decayPos
        rw [if_pos (by norm_num [V3.lengthSqr, V3.dot])]
        ext <;> norm_num
      have e1 : decayOrn (1 / 10000) (0 * (1 / 60)) 1 = 1 := by
        unfold decayOrn
        rw [if_neg (by norm_num)]
      simp only [present, addOffset, interpolate, updateDis, transfer, at_, still, Pose.none, Body.awake, e0, e1, n1,
        if_true, if_false, Bool.not_false, Bool.and_self, Bool.not_true, Bool.and_false, Bool.false_and, Bool.false_eq_true]
      simp only [qone_mul, normalize_unit _ one_unit, e1]
      ext <;> simp
  rw [disabledShown, key]

/-- The documentation of the decay rate (`networking.hpp` 70-71): the offset is multiplied by the rate. -/
def DecayAsDocumented : Prop := ∀ (rate dt : ℝ) (o : V3 ℝ), 0 ≤ rate → rate < 1 → 0 < dt → 1 / 10000 < V3.lengthSqr o →
  decayPos (rate * dt) o = V3.smul rate o

/-- **C83, the decay rate, a finding.** The offset decays by the rate times the elapsed time instead: with a rate of
zero it never does. -/
theorem decay_not_as_documented : ¬ DecayAsDocumented := by
  intro h
  have := h 0 1 ⟨1, 0, 0⟩ le_rfl one_pos one_pos (by norm_num [V3.lengthSqr, V3.dot])
  have hp := congrArg (fun p : V3 ℝ => p.x) this
  rw [decayPos, if_pos (by norm_num [V3.lengthSqr, V3.dot])] at hp
  norm_num at hp

/-- Not vacuous: a body that is corrected by a metre is awake, normalized and shown where it was, and the
offset decays. -/
example : (at_ 0).awake = true ∧ Normal (at_ 0) ∧ (correct (some (still ⟨1, 0, 0⟩)) true (at_ 0)).acc = ⟨⟨-1, 0, 0⟩, 1⟩ := by
  refine ⟨rfl, at_normal 0, ?_⟩
  rw [correct_awake _ _ _ rfl]
  ext <;> simp [addJump, after, at_, still, Pose.none, conj_one]

/-- Not vacuous: one correction in an update of the worker. -/
example : pending (run [([(some (still ⟨1, 0, 0⟩), true)], some (still ⟨2, 0, 0⟩))] (⟨at_ 0, []⟩, at_ 0)) = ⟨⟨-1, 0, 0⟩, 1⟩ := by
  rw [worker_partial _ _ (by simp) rfl one_unit (by simp [pending, at_, Pose.none, one_unit]) (by
    intro u hu
    simp only [List.mem_singleton] at hu
    subst hu
    simp [still, one_unit])]
  ext <;> simp [hidden, corrected, pending, at_, still, Pose.none, conj_one]

end Edyn.Present
