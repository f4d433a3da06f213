import Verif.Solver.Energy
import Mathlib.Algebra.Order.Ring.Rat
import Mathlib.Analysis.SpecialFunctions.Sqrt
import Mathlib.Tactic.NormNum

/-!
# The row solver: real numbers, and concrete cases
-/

namespace Edyn.Solver

open Edyn.Math

/-! ### Real numbers -/

theorem isSqrt_real : IsSqrt Real.sqrt := fun x hx => ⟨Real.sqrt_nonneg x, Real.mul_self_sqrt hx⟩

/-- **C36** in real numbers: after one or more iterations over an island the length of the tangential
impulse of every friction and rolling friction constraint is at most its coefficient times the impulse of
its normal row, and so is the magnitude of the impulse of every spinning friction constraint (normal rows
of contacts have a lower limit of zero). -/
theorem friction_at_most_coulomb (eps : ℝ) (heps : 0 ≤ eps) (c : Cache ℝ) (u : Vel ℝ) (k : Nat)
    (c' : Cache ℝ) (u' : Vel ℝ) (h : iterate Real.sqrt eps (k + 1) (c, u) = some (c', u')) :
    (∀ f ∈ c'.friction ++ c'.rolling, ∀ n, c'.rows[f.normal]? = some n → 0 ≤ f.coeff → 0 ≤ n.lower →
      n.lower ≤ n.upper →
      Real.sqrt (f.row0.impulse ^ 2 + f.row1.impulse ^ 2) ≤ f.coeff * n.impulse) ∧
    (∀ s ∈ c'.spinning, ∀ n, c'.rows[s.normal]? = some n → 0 ≤ s.coeff → 0 ≤ n.lower →
      n.lower ≤ n.upper → |s.impulse| ≤ s.coeff * n.impulse) := by
  obtain ⟨h1, h2⟩ := island_friction_limits Real.sqrt isSqrt_real eps heps c u k c' u' h
  refine ⟨?_, h2⟩
  intro f hf n hn hc hl hlu
  have hpos : 0 ≤ n.impulse := by
    obtain ⟨os, hr, hm⟩ := iterate_run h
    have hlen := (run_same hr).rows.length_eq
    exact le_trans hl (run_limits hr (hm (by omega) f.normal
      (by rw [hlen]; exact (List.getElem?_eq_some_iff.1 hn).1)) n hn hlu).1
  rw [← Real.sqrt_sq (mul_nonneg hc hpos)]
  exact Real.sqrt_le_sqrt (h1 f hf n hn)

/-! ### A concrete island: body 0 is immovable, bodies 1 and 2 have masses 1 and 2 -/

def unitI : M3 Rat := ⟨⟨1, 0, 0⟩, ⟨0, 1, 0⟩, ⟨0, 0, 1⟩⟩
def halfI : M3 Rat := ⟨⟨1/2, 0, 0⟩, ⟨0, 1/2, 0⟩, ⟨0, 0, 1/2⟩⟩
def twoI : M3 Rat := ⟨⟨2, 0, 0⟩, ⟨0, 2, 0⟩, ⟨0, 0, 2⟩⟩

/-- Contact between bodies 1 and 2. -/
def pair12 : Pair Rat := ⟨1, 2, 1, 1/2, unitI, halfI⟩
/-- Contact between body 1 and the immovable body 0. -/
def pair10 : Pair Rat := ⟨1, 0, 1, 0, unitI, ⟨0, 0, 0⟩⟩

def posEx : Nat → V3 Rat := fun x => if x = 1 then ⟨0, 0, 0⟩ else if x = 2 then ⟨3, 0, 0⟩ else ⟨0, -1, 0⟩
def massEx : Nat → Rat := fun x => if x = 1 then 1 else if x = 2 then 2 else 0
def inertiaEx : Nat → M3 Rat := fun x => if x = 1 then unitI else if x = 2 then twoI else ⟨0, 0, 0⟩

/-- Bodies 1 and 2 meet in the point `(1, 0, 0)`; 1 moves towards 2. -/
def rowEx : Row Rat where
  J := pointJac ⟨1, 0, 0⟩ ⟨-2, 0, 0⟩ ⟨-1, 0, 0⟩
  effMass := 2/3
  rhs := 3
  lower := 0
  upper := 100
  impulse := 0
  pair := pair12

def frictionEx : Friction Rat where
  row0 := ⟨pointJac ⟨1, 0, 0⟩ ⟨-2, 0, 0⟩ ⟨0, 1, 0⟩, 2/9, -2, 0⟩
  row1 := ⟨pointJac ⟨1, 0, 0⟩ ⟨-2, 0, 0⟩ ⟨0, 0, 1⟩, 2/9, 1, 0⟩
  coeff := 1/2
  normal := 0

def spinEx : Spin Rat := ⟨⟨-1, 0, 0⟩, ⟨1, 0, 0⟩, 2/3, 4, 0, 1/4, 0⟩

def cacheEx : Cache Rat := ⟨[rowEx], [frictionEx], [frictionEx], [spinEx]⟩

def movingEx : Vel Rat := (fun x => if x = 1 then ⟨3, 0, 0⟩ else 0, fun _ => 0)

/-- Three velocity iterations of the concrete island.  `root` is only called on squares here. -/
def finalEx : Option (Cache Rat × Vel Rat) :=
  (warmStart cacheEx 0).bind fun u => iterate (fun x => if x = 5/4 then 5/4 else x) 0 3 (cacheEx, u)

/-- Warm starting and the iterations succeed and do something: the hypotheses of
`island_solver_impulses` and `impulses_within_limits_and_accounted` are met. -/
theorem finalEx_runs : finalEx.map (fun s => (s.1.rows.map Row.impulse, s.1.spinning.map Spin.impulse,
    s.2.1 0, (s.2.1 1).x, (s.2.1 2).x)) = some ([2], [1/2], 0, -2, 1) := by decide +kernel

theorem finalEx_friction : finalEx.map (fun s => s.1.friction.map fun f =>
    decide (0 < f.row0.impulse ^ 2 + f.row1.impulse ^ 2 ∧
      f.row0.impulse ^ 2 + f.row1.impulse ^ 2 ≤ (f.coeff * 2) ^ 2)) = some [true] := by decide +kernel

theorem cacheEx_of : ∀ e ∈ impulses cacheEx, e.1.Of {1, 2} massEx inertiaEx := by
  intro e he
  have : e.1 = pair12 := by
    simp [impulses, cacheEx, rowEx, frictionEx, spinEx] at he
    rcases he with rfl | rfl | rfl | rfl | rfl | rfl <;> rfl
  rw [this]
  exact ⟨by decide, by decide, by decide +kernel, by decide +kernel, by decide +kernel, by decide +kernel⟩

/-- The Jacobians of the concrete island meet the hypotheses of `linear_momentum_conserved` and
`angular_momentum_conserved`. -/
theorem cacheEx_jac : ∀ e ∈ impulses cacheEx, e.2.1.linB = -e.2.1.linA ∧
    (posEx e.1.a).cross e.2.1.linA + e.2.1.angA + (posEx e.1.b).cross e.2.1.linB + e.2.1.angB = 0 := by
  intro e he
  simp [impulses, cacheEx, rowEx, frictionEx, spinEx] at he
  rcases he with rfl | rfl | rfl | rfl | rfl | rfl <;> constructor <;> decide +kernel

/-- Dropping the condition on the moment loses angular momentum: the concrete contact with its point on
body 2 moved up. -/
theorem moment_needed : angularMomentum {1, 2} massEx inertiaEx posEx
    (effect pair12 (pointJac ⟨1, 0, 0⟩ ⟨-2, 1, 0⟩ ⟨-1, 0, 0⟩) 1) ≠ 0 := by decide +kernel

example : rowEx.pair.Fits {1, 2} massEx inertiaEx ∧ rowEx.Inelastic movingEx ∧
    rowEx.lower ≤ rowEx.impulse ∧ rowEx.impulse ≤ rowEx.upper := by
  refine ⟨⟨by decide, ?_, ?_, ?_, ?_⟩, ⟨?_, ?_, ?_⟩, ?_, ?_⟩ <;> decide +kernel

example : pair10.Fits {1, 2} massEx inertiaEx := by
  refine ⟨by decide, ?_, ?_, ?_, ?_⟩ <;> decide +kernel

example : ∀ x ∈ ({1, 2} : Finset Nat), Symmetric (inertiaEx x) := by
  intro x hx
  simp only [Finset.mem_insert, Finset.mem_singleton] at hx
  rcases hx with rfl | rfl <;> rfl

example : ∀ x ∉ ({1, 2} : Finset Nat), (movingEx + 0).1 x = 0 ∧ (movingEx + 0).2 x = 0 := by
  intro x hx
  simp only [Finset.mem_insert, Finset.mem_singleton, not_or] at hx
  refine ⟨?_, ?_⟩
  · simp [movingEx, hx.1]
  · simp [movingEx]

/-- The concrete collision without restitution takes energy away: from 9/2 to 3/2. -/
theorem collision_energy :
    kineticEnergy {1, 2} massEx inertiaEx movingEx = 9/2 ∧
    kineticEnergy {1, 2} massEx inertiaEx (movingEx + effect pair12 rowEx.J 2) = 3/2 := by
  constructor <;> decide +kernel

/-- The hypotheses of `bounce` for the concrete contact with restitution 1/2. -/
example : 0 < invEffMass rowEx.pair rowEx.J ∧ rowEx.lower = 0 ∧ rowEx.impulse = 0 ∧
    -((1 + 1/2) * relSpeed rowEx.pair rowEx.J movingEx) ≤ rowEx.upper * invEffMass rowEx.pair rowEx.J ∧
    relSpeed rowEx.pair rowEx.J movingEx < 0 := by
  refine ⟨?_, ?_, ?_, ?_, ?_⟩ <;> decide +kernel

/-- A restitution greater than 1 adds energy: the bound on the restitution in `bounce` is needed. -/
theorem restitution_above_one :
    let r := prepareRow rowEx 0 0 2 movingEx
    kineticEnergy {1, 2} massEx inertiaEx movingEx <
      kineticEnergy {1, 2} massEx inertiaEx (movingEx + effect pair12 rowEx.J (solveRow r 0).2) := by
  decide +kernel

/-- The hypothesis of `friction_at_most_coulomb` is met by every cache that could be warm started. -/
example (eps : ℝ) (c : Cache ℝ) (u₀ u : Vel ℝ) (k : Nat) (h : warmStart c u₀ = some u) :
    ∃ c' u', iterate Real.sqrt eps (k + 1) (c, u) = some (c', u') := by
  obtain ⟨s, hs⟩ := iterate_succeeds Real.sqrt eps c u₀ u (k + 1) h
  exact ⟨s.1, s.2, hs⟩

/-- The hypotheses of `gap_not_crossed`; bodies 1 and 2 approach each other at a speed of 3, a distance
of 1/10 apart, in steps of 1/60: afterwards they approach at a fifth of the speed that would close the
gap. -/
example : rowEx.pair.a ≠ rowEx.pair.b ∧ 0 < invEffMass rowEx.pair rowEx.J ∧
    relSpeed rowEx.pair rowEx.J movingEx = -3 ∧
    (let r := prepareRow rowEx (1/10 / (1/60)) (1/5) 0 movingEx
     let res := solveRow r 0
     relSpeed rowEx.pair rowEx.J (movingEx + applyImpulse res.1.pair res.1.J res.2 0)) = -6/5 := by
  decide +kernel

end Edyn.Solver
