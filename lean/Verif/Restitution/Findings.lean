import Verif.Restitution.Bounce
import Verif.Solver.Witness

/-!
# Where the restitution solver falls short, and cases that meet the hypotheses (C86)
-/

namespace Edyn.Restitution

open Edyn.Math Edyn.Solver

section Worlds

variable {T : Type} [Field T] [LinearOrder T]

/-- A body of mass 1 and inertia 1 at `p` with velocity `v`, not rotated. -/
def unit (k : Kind) (p v : V3 T) : Body T :=
  ⟨k, p, ⟨0, 0, 0, 1⟩, none, v, 0, 1, ⟨⟨1, 0, 0⟩, ⟨0, 1, 0⟩, ⟨0, 0, 1⟩⟩⟩

/-- A contact with the pivots given, which reports no impulses. -/
def touch (n pA pB : V3 T) (mat : Option (Mat T)) : Contact T := ⟨n, pA, pB, mat, 0, 0, 0⟩

/-- The default numbers of iterations, `settings.hpp` 29-30, and the threshold of
`restitution_solver.cpp` 135. -/
def env (root : T → T) (visited edges : Nat → List Nat) : Env T :=
  ⟨root, 0, fun _ => (⟨1, 0, 0⟩, ⟨0, 0, 1⟩), 1000000, 1000000, -(1 / 200), visited, edges, 3, 8⟩

/-- A ball (body 0) that falls on the floor (body 1). -/
def ballWorld (v : T) (mat : Option (Mat T)) : World T where
  body := fun e => if e = 0 then unit .dynamic ⟨0, 1, 0⟩ ⟨0, -v, 0⟩ else unit .static 0 0
  man := fun i => if i = 0 then
      some ⟨0, 1, true, [touch ⟨0, 1, 0⟩ ⟨0, -1, 0⟩ 0 mat]⟩
    else none
  delta := 0

/-- The graph of `ballWorld`. -/
def ballEnv (root : T → T) : Env T :=
  env root (fun _ => [0, 1]) fun n => if n = 0 ∨ n = 1 then [0] else []

end Worlds

/-! ### The hypotheses are met -/

theorem ball_isolated (root : ℚ → ℚ) (v : ℚ) (mat : Option (Mat ℚ)) :
    Isolated (ballEnv root) (ballWorld v mat) 0 ⟨0, 1, true, [touch ⟨0, 1, 0⟩ ⟨0, -1, 0⟩ 0 mat]⟩
      (touch ⟨0, 1, 0⟩ ⟨0, -1, 0⟩ 0 mat) where
  man := rfl
  contacts := rfl
  bouncy := rfl
  ne := by simp
  dynamic := .inl rfl
  edges := by rintro n (rfl | rfl) <;> rfl
  visited := by
    rintro s (rfl | rfl)
    · exact ⟨by simp [ballEnv, env], by simp [ballEnv, env]⟩
    · exact ⟨by simp [ballEnv, env], by simp [ballEnv, env]⟩

/-- A ball that falls with speed 2 on a floor with coefficient 1/2 leaves it with speed 1, and its energy
falls. -/
example : ∃ (w' : World ℚ) (l : ℚ), solveRestitution (ballEnv id) [[0]] (ballWorld 2 (some ⟨1 / 2, 0⟩)) = some w' ∧
    speed (w'.body 0) (w'.body 1) (touch ⟨0, 1, 0⟩ ⟨0, -1, 0⟩ 0 (some ⟨1 / 2, 0⟩)) = 1 ∧
    w'.man 0 = some ⟨0, 1, true, [⟨⟨0, 1, 0⟩, ⟨0, -1, 0⟩, 0, some ⟨1 / 2, 0⟩, l, 0, 0⟩]⟩ := by
  obtain ⟨w', l, h1, h2, h3, _⟩ := isolated_bounce (ballEnv id) (ballWorld 2 (some ⟨1 / 2, 0⟩)) 0 _ _ (1 / 2)
    (ball_isolated id 2 _) (by norm_num) rfl rfl (by decide +kernel) (by decide +kernel) (by decide)
    (by decide) (by decide +kernel) (by decide +kernel) (by decide +kernel)
  refine ⟨w', l, h1, ?_, h3⟩
  rw [h2]
  decide +kernel

example : ∃ w' : World ℚ, solveRestitution (ballEnv id) [[0]] (ballWorld 2 (some ⟨1 / 2, 0⟩)) = some w' ∧
    energyOf 1 ⟨⟨1, 0, 0⟩, ⟨0, 1, 0⟩, ⟨0, 0, 1⟩⟩ (w'.body 0) +
      energyOf 1 ⟨⟨1, 0, 0⟩, ⟨0, 1, 0⟩, ⟨0, 0, 1⟩⟩ (w'.body 1) ≤ 2 := by
  obtain ⟨w', h1, h2, _⟩ := isolated_bounce_energy (ballEnv id) (ballWorld 2 (some ⟨1 / 2, 0⟩)) 0 _ _ (1 / 2)
    (ball_isolated id 2 _) (by norm_num) (by norm_num) rfl rfl (by decide +kernel) (by decide +kernel)
    (by decide) (by decide) (by decide +kernel) (by decide +kernel) (by decide +kernel)
    (fun _ => 1) (fun _ => ⟨⟨1, 0, 0⟩, ⟨0, 1, 0⟩, ⟨0, 0, 1⟩⟩) (by
      rintro x (rfl | rfl)
      · refine ⟨fun _ => ⟨by decide +kernel, rfl, fun v => ?_⟩, .inl rfl⟩
        ext <;> simp [ballWorld, unit, M3.mulVec, V3.dot]
      · exact ⟨fun h => absurd h (by decide), .inr rfl⟩)
  refine ⟨w', h1, h2.trans ?_⟩
  decide +kernel

/-- All speeds are below the threshold: a ball that lies on the floor. -/
example : solveRestitution (ballEnv id) [[0]] (ballWorld (1 / 1000) (some ⟨1 / 2, 1 / 2⟩)) =
    some (ballWorld (1 / 1000 : ℚ) (some ⟨1 / 2, 1 / 2⟩)) := by
  apply slow_contacts_do_not_bounce _ (by decide +kernel) _ _ rfl
  intro isl hisl i hi m hm _ c hc
  rw [List.mem_singleton.1 hisl] at hi
  rw [List.mem_singleton.1 hi] at hm
  cases hm
  rw [List.mem_singleton.1 hc]
  decide +kernel

theorem ball_complete (root : ℝ → ℝ) (v : ℝ) (mat : Mat ℝ) : (ballWorld v (some mat)).Complete := by
  intro i m hm
  unfold ballWorld at hm
  dsimp only at hm
  split_ifs at hm with h
  cases hm
  refine ⟨?_, .inl rfl⟩
  intro c hc
  rw [List.mem_singleton.1 hc]
  rfl

theorem ball_nodup {T : Type} [Field T] [LinearOrder T] (root : T → T) (n : Nat) :
    ((ballEnv root).edges n).Nodup := by
  simp only [ballEnv, env]
  split_ifs <;> simp

/-- A ball with friction, over the reals: the call is defined, the impulses are admissible and nothing but
velocities and impulses changes. -/
example : ∃ w', solveRestitution (ballEnv Real.sqrt) [[0]] (ballWorld 2 (some ⟨1 / 2, 1 / 2⟩)) = some w' ∧
    w'.Admissible ∧ World.Same (ballWorld 2 (some ⟨1 / 2, 1 / 2⟩)) w' := by
  obtain ⟨w', h⟩ := restitution_defined_partial (ballEnv Real.sqrt) (ball_nodup _) [[0]]
    (ballWorld 2 (some ⟨1 / 2, 1 / 2⟩)) rfl (ball_complete Real.sqrt _ _)
  refine ⟨w', h, ?_, (only_velocities_and_impulses _ (ball_nodup _) _ _ _ rfl h).1⟩
  refine impulses_admissible _ isSqrt_real (le_refl _) (by norm_num [ballEnv, env]) (ball_nodup _) _ _ _ rfl ?_ h
  intro i m hm c hc
  unfold ballWorld at hm
  dsimp only at hm
  split_ifs at hm with h
  cases hm
  rw [List.mem_singleton.1 hc]
  refine ⟨le_refl _, fun mat _ => ?_⟩
  simp [touch]

/-! ### A row of balls -/

/-- Ball 0 flies against ball 1, which touches the wall 2; all are perfectly elastic. -/
def cradle : World ℚ where
  body := fun e =>
    if e = 0 then unit .dynamic 0 ⟨1, 0, 0⟩
    else if e = 1 then unit .dynamic ⟨2, 0, 0⟩ 0
    else unit .static ⟨3, 0, 0⟩ 0
  man := fun i =>
    if i = 0 then some ⟨0, 1, true, [touch ⟨-1, 0, 0⟩ ⟨1, 0, 0⟩ ⟨-1, 0, 0⟩ (some ⟨1, 0⟩)]⟩
    else if i = 1 then some ⟨1, 2, true, [touch ⟨-1, 0, 0⟩ ⟨1, 0, 0⟩ 0 (some ⟨1, 0⟩)]⟩
    else none
  delta := 0

/-- The graph of `cradle`: nodes are visited breadth first. -/
def cradleEnv : Env ℚ :=
  env id (fun s => if s = 0 then [0, 1, 2] else [1, 0, 2])
    fun n => if n = 0 then [0] else if n = 1 then [0, 1] else [1]

/-- The impulses of two balls of the cradle are exchanged: their momentum is that of before as long as only
they touch. -/
example : ∃ w', solveRestitution cradleEnv [[0]] { cradle with man := fun i => if i = 0 then cradle.man 0 else none } = some w' ∧
    momentum {0, 1} (fun _ => 1) w' = ⟨1, 0, 0⟩ := by
  have hw : (solveRestitution cradleEnv [[0]] { cradle with man := fun i => if i = 0 then cradle.man 0 else none }).isSome = true := by
    decide +kernel
  obtain ⟨w', h⟩ := Option.isSome_iff_exists.1 hw
  refine ⟨w', h, ?_⟩
  rw [restitution_momentum cradleEnv ?_ _ _ w' rfl {0, 1} (fun _ => 1) ?_ ?_ h]
  · decide +kernel
  · intro n
    simp only [cradleEnv, env]
    split_ifs <;> simp
  · intro e he
    simp only [Finset.mem_insert, Finset.mem_singleton] at he
    rcases he with rfl | rfl
    · exact ⟨rfl, by decide +kernel⟩
    · exact ⟨rfl, by decide +kernel⟩
  · intro i m hm
    dsimp only at hm
    split_ifs at hm with hi
    cases hm
    simp

/-- The documentation of `contact_point_impulse` (`contact_point.hpp` 51-57): the impulses reported by the
contacts of all manifolds, which start at zero, add up to what the bodies were given. -/
def ReportedFull : Prop :=
  ∀ (E : Env ℚ) (islands : List (List Nat)) (w w' : World ℚ) (l : List Nat), (∀ n, (E.edges n).Nodup) →
    w.delta = 0 → l.Nodup → (∀ i m, w.man i = some m → i ∈ l) →
    (∀ i m, w.man i = some m → ∀ c ∈ m.contacts, c.imp = 0 ∧ c.fimp0 = 0 ∧ c.fimp1 = 0) →
    solveRestitution E islands w = some w' →
    ∀ e, (w'.body e).lin = (w.body e).lin + (change E.plane w w'.man l e).1

/-- Ball 0 leaves with velocity -1: it was given the impulse -2.  The contact with ball 1 was solved twice
and reports only the second impulse, 1. -/
theorem cradle_run : ((solveRestitution cradleEnv [[0, 1]] cradle).map fun w' =>
      ((w'.body 0).lin, (w'.body 1).lin, (w'.man 0).map fun m => m.contacts.map fun c => c.imp,
        change cradleEnv.plane cradle w'.man [0, 1] 0)) =
    some (⟨-1, 0, 0⟩, ⟨0, 0, 0⟩, some [1], (⟨-1, 0, 0⟩, 0)) := by
  decide +kernel

/-- **C86, refuted.** Each group of manifolds overwrites the impulses stored by the groups before
(`restitution_solver.cpp` 287-295), so that they do not add up to the full impulses. -/
theorem reported_refuted : ¬ ReportedFull := by
  intro h
  have hr := cradle_run
  cases hs : solveRestitution cradleEnv [[0, 1]] cradle with
  | none => rw [hs] at hr; cases hr
  | some w' =>
    rw [hs] at hr
    simp only [Option.map_some, Option.some.injEq, Prod.mk.injEq] at hr
    obtain ⟨h1, _, _, h4⟩ := hr
    have := h cradleEnv [[0, 1]] cradle w' [0, 1] (by
        intro n; simp only [cradleEnv, env]; split_ifs <;> simp) rfl (by simp) (by
        intro i m hm
        unfold cradle at hm
        dsimp only at hm
        split_ifs at hm with h1 h2
        · simp [h1]
        · simp [h2]) (by
        intro i m hm c hc
        unfold cradle at hm
        dsimp only at hm
        split_ifs at hm with h1 h2
        all_goals
          cases hm
          rw [List.mem_singleton.1 hc]
          exact ⟨rfl, rfl, rfl⟩) hs 0
    rw [h1, h4] at this
    revert this
    decide +kernel

/-- A group of the cradle, for `group_reports_impulses`. -/
example : (solveGroup cradleEnv cradle [0]).isSome = true ∧ ([0] : List Nat).Nodup ∧ cradle.delta = 0 :=
  ⟨by decide +kernel, by simp, rfl⟩

/-- A ball at rest keeps reporting the impulse of its last bounce: nothing resets it. -/
def rested : World ℚ :=
  { ballWorld 0 none with
    man := fun i => if i = 0 then
        some ⟨0, 1, true, [⟨⟨0, 1, 0⟩, ⟨0, -1, 0⟩, 0, some ⟨1, 0⟩, 5, 0, 0⟩]⟩
      else none }

theorem stale_impulse : ((solveRestitution (ballEnv id) [[0]] rested).map fun w' =>
      ((w'.body 0).lin, (w'.man 0).map fun m => m.contacts.map fun c => c.imp)) =
    some (0, some [5]) := by
  decide +kernel

/-! ### Sensors -/

/-- A ball that falls through a sensor next to the floor. -/
def sensorWorld : World ℚ where
  body := fun e => if e = 0 then unit .dynamic ⟨0, 1, 0⟩ ⟨0, -2, 0⟩ else unit .static 0 0
  man := fun i =>
    if i = 0 then some ⟨0, 1, true, [touch ⟨0, 1, 0⟩ ⟨0, -1, 0⟩ 0 (some ⟨1 / 2, 0⟩)]⟩
    else if i = 1 then some ⟨0, 2, false, [touch ⟨0, 1, 0⟩ ⟨0, -1, 0⟩ 0 none]⟩
    else none
  delta := 0

def sensorEnv : Env ℚ :=
  env id (fun _ => [0, 1, 2]) fun n => if n = 0 then [0, 1] else if n = 1 then [0] else [1]

/-- **C86, refuted.** A manifold with a sensor is solved like the others, and its contacts have no
`contact_point_material` (`collision_util.cpp` 358-361), which `restitution_solver.cpp` 225 reads. -/
theorem sensor_undefined : ¬ DefinedFull := by
  intro h
  obtain ⟨w', hw⟩ := h sensorEnv [[0, 1]] sensorWorld (by
      intro n; simp only [sensorEnv, env]; split_ifs <;> simp) rfl (by
      intro i m hm
      unfold sensorWorld at hm
      dsimp only at hm
      split_ifs at hm
      all_goals
        cases hm
        exact .inl rfl)
  have : (solveRestitution sensorEnv [[0, 1]] sensorWorld).isSome = false := by decide +kernel
  rw [hw] at this
  cases this

/-! ### Energy -/

/-- A ball that falls into a groove: two contacts with perfectly elastic walls. -/
def groove : World ℚ where
  body := fun e => if e = 0 then unit .dynamic 0 ⟨0, -1, 0⟩ else unit .static 0 0
  man := fun i => if i = 0 then some ⟨0, 1, true,
      [touch ⟨3 / 5, 4 / 5, 0⟩ ⟨-3 / 5, -4 / 5, 0⟩ ⟨-3 / 5, -4 / 5, 0⟩ (some ⟨1, 0⟩),
       touch ⟨-3 / 5, 4 / 5, 0⟩ ⟨3 / 5, -4 / 5, 0⟩ ⟨3 / 5, -4 / 5, 0⟩ (some ⟨1, 0⟩)]⟩
    else none
  delta := 0

/-- That bouncing never adds energy, if no coefficient of restitution is above 1 and nothing but dynamic
and static bodies takes part. -/
def EnergyFull : Prop :=
  ∀ (E : Env ℚ) (islands : List (List Nat)) (w w' : World ℚ) (S : Finset Nat) (mass : Nat → ℚ) (I : Nat → M3 ℚ),
    (∀ n, (E.edges n).Nodup) → w.delta = 0 →
    (∀ e, (w.body e).kind = .dynamic ∨ (w.body e).kind = .static) → (∀ e, (w.body e).kind = .dynamic → e ∈ S) →
    (∀ e, Inertial (mass e) (I e) (w.body e)) →
    (∀ i m, w.man i = some m → ∀ c ∈ m.contacts, ∀ mat, c.mat = some mat →
      0 ≤ mat.restitution ∧ mat.restitution ≤ 1 ∧ mat.friction = 0) →
    solveRestitution E islands w = some w' →
    ∑ e ∈ S, energyOf (mass e) (I e) (w'.body e) ≤ ∑ e ∈ S, energyOf (mass e) (I e) (w.body e)

/-- **C86, refuted.** The iterations over the contacts of a group stop before they agree: the ball leaves
the groove faster than it came, and sideways. -/
theorem groove_gains : ((solveRestitution (ballEnv id) [[0]] groove).map fun w' =>
      decide (0 < (w'.body 0).lin.x ∧
        energyOf 1 ⟨⟨1, 0, 0⟩, ⟨0, 1, 0⟩, ⟨0, 0, 1⟩⟩ (groove.body 0) <
          energyOf 1 ⟨⟨1, 0, 0⟩, ⟨0, 1, 0⟩, ⟨0, 0, 1⟩⟩ (w'.body 0))) = some true := by
  decide +kernel

theorem energy_refuted : ¬ EnergyFull := by
  intro h
  have hr := groove_gains
  cases hs : solveRestitution (ballEnv id) [[0]] groove with
  | none => rw [hs] at hr; cases hr
  | some w' =>
    rw [hs] at hr
    simp only [Option.map_some, Option.some.injEq, decide_eq_true_eq] at hr
    have := h (ballEnv id) [[0]] groove w' {0} (fun _ => 1) (fun _ => ⟨⟨1, 0, 0⟩, ⟨0, 1, 0⟩, ⟨0, 0, 1⟩⟩)
      (ball_nodup _) rfl (by
        intro e
        by_cases h0 : e = 0
        · rw [h0]; exact .inl rfl
        · right; simp [groove, h0, unit]) (by
        intro e he
        by_cases h0 : e = 0
        · simp [h0]
        · simp [groove, h0, unit] at he) (by
        intro e he
        by_cases h0 : e = 0
        · rw [h0]
          refine ⟨by decide +kernel, rfl, fun v => ?_⟩
          ext <;> simp [groove, unit, M3.mulVec, V3.dot]
        · simp [groove, h0, unit] at he) (by
        intro i m hm c hc mat hmat
        unfold groove at hm
        dsimp only at hm
        split_ifs at hm
        cases hm
        simp only [List.mem_cons, List.not_mem_nil, or_false] at hc
        rcases hc with rfl | rfl
        all_goals
          cases hmat
          exact ⟨by norm_num, le_refl _, rfl⟩) hs
    simp only [Finset.sum_singleton] at this
    exact absurd this (not_le.2 hr.2)

/-- **C86, where the contact is.** The lever of a contact reaches from the centre of mass to the point of the body with the
given coordinates.  With a centre of mass at `com` in the coordinates of the shape, whose origin is kept in the world by
`update_origins`, this is the rotated difference; without one the pivot itself, rotated. -/
theorem arm_spec {T : Type} [Field T] [LinearOrder T] (b : Body T) (com pivot : V3 T)
    (ho : (b.origin = none ∧ com = 0) ∨ b.origin = some (toWorldSpace (-com) b.pos b.orn)) :
    b.arm pivot = b.orn.rotate (pivot - com) := by
  unfold Body.arm
  rcases ho with ⟨ho, rfl⟩ | ho <;> rw [ho]
  · ext <;> simp [toWorldSpace, Quat.rotate, V3.cross] <;> ring
  · ext <;> simp [toWorldSpace, Quat.rotate, V3.cross] <;> ring

end Edyn.Restitution
