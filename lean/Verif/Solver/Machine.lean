import Mathlib.Logic.Function.Basic
import Mathlib.Tactic.Set
import Mathlib.Tactic.ByContra
import Mathlib.Data.List.Perm.Basic

/-!
# Running the island solver: sequentially and as a chain of tasks (C39)

Model of `run_island_solver_seq` and of the state machine `island_solver_update`
(`src/edyn/dynamics/island_solver.cpp`), and of the part of `solver::update` that starts one machine per
island and waits for all of them (`src/edyn/dynamics/solver.cpp`).

The five things done to an island (packing rows, one iteration over the rows, integration of velocities,
storing impulses, one iteration of position correction) are parameters: the theorems hold for whatever
they do, as long as, where several islands run at a time, each island touches only what it owns.
-/

namespace Edyn.Solver.Machine

/-- What the phases do to the world `W`; the position phase also reports convergence. -/
structure Phases (W : Type) where
  pack : W → W
  solve : W → W
  apply : W → W
  assign : W → W
  position : W → W × Bool

variable {W : Type}

/-! ### Sequential -/

/-- The first loop of `run_island_solver_seq`, `island_solver.cpp` 529-531. -/
def solveLoop (P : Phases W) : Nat → W → W
  | 0, w => w
  | n + 1, w => solveLoop P n (P.solve w)

/-- The second loop, `island_solver.cpp` 538-542: it ends early when converged. -/
def positionLoop (P : Phases W) : Nat → W → W
  | 0, w => w
  | n + 1, w =>
    let (w', converged) := P.position w
    if converged then w' else positionLoop P n w'

/-- `run_island_solver_seq`, `island_solver.cpp` 521-543. -/
def runSeq (P : Phases W) (numIter numPos : Nat) (w : W) : W :=
  positionLoop P numPos (P.assign (P.apply (solveLoop P numIter (P.pack w))))

/-! ### As a chain of tasks -/

/-- `island_solver_state`, `island_solver.cpp` 39-45. -/
inductive State
  | packRows | solveConstraints | assignAppliedImpulses | applySolution | solvePositionConstraints
  deriving DecidableEq, Repr

/-- `island_solver_context`, `island_solver.cpp` 47-74; the three counters are bytes. -/
structure Ctx where
  numIter : Nat
  numPos : Nat
  iteration : Nat
  state : State
  deriving DecidableEq, Repr

/-- The constructor narrows the settings to `uint8_t`; `run_island_solver_seq_mt`, `island_solver.cpp`
513-519 and 59-68. -/
def Ctx.start (numIter numPos : Nat) : Ctx := ⟨numIter % 256, numPos % 256, 0, .packRows⟩

/-- `++ctx.iteration` on a byte. -/
def Ctx.bump (c : Ctx) : Ctx := { c with iteration := (c.iteration + 1) % 256 }

/-- `island_solver_update`, `island_solver.cpp` 442-511: one task.  The result is the context of the task
that is enqueued next, or `none` if the counter is decremented and the context deleted.  The integration
of velocities, which may itself be a set of tasks whose completion enqueues the next one, is one step;
see `any_order_integration`. -/
def update (P : Phases W) (c : Ctx) (w : W) : W × Option Ctx :=
  match c.state with
  | .packRows => (P.pack w, some { c with state := .solveConstraints, iteration := 0 })
  | .solveConstraints =>
    let c' := c.bump
    if c'.iteration ≥ c'.numIter then (P.solve w, some { c' with state := .applySolution })
    else (P.solve w, some c')
  | .applySolution => (P.apply w, some { c with state := .assignAppliedImpulses })
  | .assignAppliedImpulses =>
    if c.numPos > 0 then (P.assign w, some { c with iteration := 0, state := .solvePositionConstraints })
    else (P.assign w, none)
  | .solvePositionConstraints =>
    match P.position w with
    | (w', true) => (w', none)
    | (w', false) =>
      let c' := c.bump
      if c'.iteration ≥ c'.numPos then (w', none) else (w', some c')

/-- A chain of `k` tasks, each enqueued by the one before. -/
def chain (P : Phases W) : Nat → Option Ctx → W → W × Option Ctx
  | 0, c, w => (w, c)
  | _ + 1, none, w => (w, none)
  | k + 1, some c, w =>
    let (w', c') := update P c w
    chain P k c' w'

theorem chain_succ {P : Phases W} {k : Nat} {c : Ctx} {w : W} :
    chain P (k + 1) (some c) w = chain P k (update P c w).2 (update P c w).1 := rfl

/-- A chain ends after exactly `k` tasks with world `w'`: it is still going after fewer. -/
def Ends (P : Phases W) (c : Ctx) (w : W) (k : Nat) (w' : W) : Prop :=
  chain P k (some c) w = (w', none) ∧ ∀ j < k, (chain P j (some c) w).2 ≠ none

theorem Ends.step {P : Phases W} {c c' : Ctx} {w w₁ w' : W} {k : Nat} (h : update P c w = (w₁, some c'))
    (he : Ends P c' w₁ k w') : Ends P c w (k + 1) w' := by
  refine ⟨by rw [chain_succ, h]; exact he.1, ?_⟩
  intro j hj
  cases j with
  | zero => simp [chain]
  | succ j => rw [chain_succ, h]; exact he.2 j (by omega)

theorem Ends.last {P : Phases W} {c : Ctx} {w w' : W} (h : update P c w = (w', none)) :
    Ends P c w 1 w' := by
  refine ⟨by rw [chain_succ, h]; rfl, ?_⟩
  intro j hj
  have : j = 0 := by omega
  subst this
  simp [chain]

theorem position_ends (P : Phases W) (numIter numPos : Nat) (hp : numPos < 256) (w : W) (i : Nat)
    (hi : i < numPos) :
    ∃ k, Ends P ⟨numIter, numPos, i, .solvePositionConstraints⟩ w k (positionLoop P (numPos - i) w) := by
  induction h : numPos - i generalizing w i with
  | zero => omega
  | succ n ih =>
    rw [positionLoop]
    cases hq : P.position w with
    | mk w' b =>
      cases b with
      | true => exact ⟨1, Ends.last (by simp [update, hq])⟩
      | false =>
        by_cases hl : i + 1 = numPos
        · refine ⟨1, Ends.last ?_⟩
          have hn : n = 0 := by omega
          subst hn
          have : (i + 1) % 256 = i + 1 := Nat.mod_eq_of_lt (by omega)
          have hge : numPos ≤ i + 1 := by omega
          simp [update, hq, Ctx.bump, this, hge, positionLoop]
        · obtain ⟨k, hk⟩ := ih w' (i + 1) (by omega) (by omega)
          refine ⟨k + 1, Ends.step ?_ (by simpa using hk)⟩
          have : (i + 1) % 256 = i + 1 := Nat.mod_eq_of_lt (by omega)
          have hlt : ¬ numPos ≤ i + 1 := by omega
          simp [update, hq, Ctx.bump, this, hlt]

theorem solve_ends (P : Phases W) (numIter numPos : Nat) (hn : numIter < 256) (w : W) (i : Nat)
    (hi : i < numIter) (rest : W → W)
    (hrest : ∀ j w, ∃ k, Ends P ⟨numIter, numPos, j, .applySolution⟩ w k (rest w)) :
    ∃ k, Ends P ⟨numIter, numPos, i, .solveConstraints⟩ w k (rest (solveLoop P (numIter - i) w)) := by
  induction h : numIter - i generalizing w i with
  | zero => omega
  | succ n ih =>
    have hm : (i + 1) % 256 = i + 1 := Nat.mod_eq_of_lt (by omega)
    rw [solveLoop]
    by_cases hl : i + 1 = numIter
    · have hz : n = 0 := by omega
      subst hz
      obtain ⟨k, hk⟩ := hrest (i + 1) (P.solve w)
      have hge : numIter ≤ i + 1 := by omega
      refine ⟨k + 1, Ends.step ?_ hk⟩
      simp [update, Ctx.bump, hm, hge]
    · obtain ⟨k, hk⟩ := ih (P.solve w) (i + 1) (by omega) (by omega)
      have hlt : ¬ numIter ≤ i + 1 := by omega
      exact ⟨k + 1, Ends.step (by simp [update, Ctx.bump, hm, hlt]) hk⟩

/-- The full statement: for all settings the chain of tasks ends with what the sequential function
computes. -/
def FullStatement : Prop :=
  ∀ (W : Type) (P : Phases W) (numIter numPos : Nat) (w : W),
    ∃ k, Ends P (Ctx.start numIter numPos) w k (runSeq P numIter numPos w)

/-- **C39**.  If at least one and at most 255 velocity iterations, and at most 255 position iterations,
are configured, the chain of tasks of an island ends, decrements the counter exactly once (in its last
task), and leaves the same world as the sequential function, whatever the phases do.
Missing: other settings, for which it is false (`zero_iterations_differ`,
`many_iterations_differ`). -/
theorem tasks_agree_with_sequential_partial (P : Phases W) (numIter numPos : Nat) (w : W)
    (h1 : 1 ≤ numIter) (h2 : numIter ≤ 255) (h3 : numPos ≤ 255) :
    ∃ k, Ends P (Ctx.start numIter numPos) w k (runSeq P numIter numPos w) := by
  have e1 : numIter % 256 = numIter := Nat.mod_eq_of_lt (by omega)
  have e2 : numPos % 256 = numPos := Nat.mod_eq_of_lt (by omega)
  have hassign : ∀ j w, ∃ k, Ends P ⟨numIter, numPos, j, .assignAppliedImpulses⟩ w k
      (positionLoop P numPos (P.assign w)) := by
    intro j w
    by_cases hp : numPos = 0
    · exact ⟨1, Ends.last (by simp [update, hp, positionLoop])⟩
    · obtain ⟨k, hk⟩ := position_ends P numIter numPos (by omega) (P.assign w) 0 (by omega)
      refine ⟨k + 1, Ends.step ?_ hk⟩
      have : 0 < numPos := by omega
      simp [update, this]
  have happly : ∀ j w, ∃ k, Ends P ⟨numIter, numPos, j, .applySolution⟩ w k
      (positionLoop P numPos (P.assign (P.apply w))) := by
    intro j w
    obtain ⟨k, hk⟩ := hassign j (P.apply w)
    exact ⟨k + 1, Ends.step (by simp [update]) hk⟩
  obtain ⟨k, hk⟩ := solve_ends P numIter numPos (by omega) (P.pack w) 0 (by omega)
    (fun w => positionLoop P numPos (P.assign (P.apply w))) happly
  refine ⟨k + 1, Ends.step (c' := ⟨numIter, numPos, 0, .solveConstraints⟩) ?_ hk⟩
  simp [update, Ctx.start, e1, e2]

/-- Phases that write down what was done. -/
def tracer : Phases (List String) where
  pack w := w ++ ["pack"]
  solve w := w ++ ["solve"]
  apply w := w ++ ["apply"]
  assign w := w ++ ["assign"]
  position w := (w ++ ["position"], decide (w.length = 6))

example : runSeq tracer 2 8 [] = ["pack", "solve", "solve", "apply", "assign", "position", "position"] ∧
    chain tracer 7 (some (Ctx.start 2 8)) [] = (runSeq tracer 2 8 [], none) := by decide +kernel

theorem Ends.unique {P : Phases W} {c : Ctx} {w w₁ w₂ : W} {k₁ k₂ : Nat} (h₁ : Ends P c w k₁ w₁)
    (h₂ : Ends P c w k₂ w₂) : k₁ = k₂ ∧ w₁ = w₂ := by
  rcases Nat.lt_trichotomy k₁ k₂ with h | h | h
  · exact absurd (by rw [h₁.1]) (h₂.2 k₁ h)
  · subst h
    have := h₁.1.symm.trans h₂.1
    exact ⟨rfl, (Prod.mk.inj this).1⟩
  · exact absurd (by rw [h₂.1]) (h₁.2 k₂ h)

/-- FINDING.  With zero velocity iterations configured the tasks still do one. -/
theorem zero_iterations_differ : ¬ FullStatement := by
  intro h
  obtain ⟨k, hk⟩ := h _ tracer 0 0 []
  have : Ends tracer (Ctx.start 0 0) [] 4 ["pack", "solve", "apply", "assign"] :=
    ⟨by decide +kernel, by decide +kernel⟩
  exact absurd (hk.unique this).2 (by decide +kernel)

/-- FINDING.  With 257 velocity iterations configured (the setting is an `unsigned`) the tasks do one. -/
theorem many_iterations_differ :
    Ends tracer (Ctx.start 257 0) [] 4 ["pack", "solve", "apply", "assign"] ∧
    (runSeq tracer 257 0 []).length = 260 := by
  refine ⟨⟨by decide +kernel, by decide +kernel⟩, by decide +kernel⟩

/-! ### Integration of velocities in tasks -/

/-- `integrate_velocities`, `island_solver.cpp` 357-376, over any range of entities: `integ` is what is
done to one body, `dyn` tells the bodies of the view. -/
def integrate {B : Type} (dyn : Nat → Bool) (integ : B → B) (es : List Nat) (b : Nat → B) : Nat → B :=
  es.foldl (fun b e => if dyn e then Function.update b e (integ (b e)) else b) b

theorem integrate_get {B : Type} (dyn : Nat → Bool) (integ : B → B) (es : List Nat) (hn : es.Nodup)
    (b : Nat → B) (x : Nat) :
    integrate dyn integ es b x = if x ∈ es ∧ dyn x then integ (b x) else b x := by
  induction es generalizing b with
  | nil => simp [integrate]
  | cons e es ih =>
    have hn' := List.nodup_cons.mp hn
    rw [integrate, List.foldl_cons, ← integrate, ih hn'.2]
    by_cases hx : x = e
    · subst hx
      cases hd : dyn x <;> simp [hd, hn'.1]
    · cases hd : dyn e <;> simp [hd, hx]

/-- **C39**, integration.  `apply_solution` (`island_solver.cpp` 378-440) cuts the bodies of the island
into ranges that are integrated by different threads in any order: whatever the ranges and the order,
every dynamic body of the island is integrated exactly once and nothing else changes, as in the
sequential loop. -/
theorem any_order_integration {B : Type} (dyn : Nat → Bool) (integ : B → B) (es : List Nat)
    (hn : es.Nodup) (ranges : List (List Nat)) (hr : ranges.flatten.Perm es) (b : Nat → B) :
    ranges.foldl (fun b r => integrate dyn integ r b) b = integrate dyn integ es b ∧
    ∀ x, integrate dyn integ es b x = if x ∈ es ∧ dyn x then integ (b x) else b x := by
  have hflat : ∀ (rs : List (List Nat)) (b : Nat → B),
      rs.foldl (fun b r => integrate dyn integ r b) b = integrate dyn integ rs.flatten b := by
    intro rs
    induction rs with
    | nil => intro b; rfl
    | cons r rs ih =>
      intro b
      rw [List.foldl_cons, ih, List.flatten_cons, integrate, integrate, integrate, List.foldl_append]
  refine ⟨?_, integrate_get dyn integ es hn b⟩
  funext x
  rw [hflat, integrate_get _ _ _ (hr.nodup_iff.mpr hn), integrate_get _ _ _ hn]
  simp [hr.mem_iff]

example : [[3, 1], [], [2]].foldl (fun b r => integrate (fun e => e != 2) (· + 10) r b) (fun x : Nat => x)
    = integrate (fun e => e != 2) (· + 10) [1, 2, 3] (fun x => x) :=
  (any_order_integration _ _ _ (by decide) _ (by decide) _).1

/-! ### All islands at the same time -/

variable {L V : Type}

/-- What the phases of island `i` may touch: they write only locations owned by `i`, and what they write
(and whether they have converged) depends only on locations owned by `i` or by nobody. -/
structure Local (owner : L → Option Nat) (i : Nat) (f : (L → V) → (L → V)) : Prop where
  write : ∀ w l, owner l ≠ some i → f w l = w l
  read : ∀ w w', (∀ l, owner l = some i ∨ owner l = none → w l = w' l) →
    ∀ l, owner l = some i → f w l = f w' l

structure LocalPhases (owner : L → Option Nat) (i : Nat) (P : Phases (L → V)) : Prop where
  pack : Local owner i P.pack
  solve : Local owner i P.solve
  apply : Local owner i P.apply
  assign : Local owner i P.assign
  position : Local owner i (fun w => (P.position w).1)
  converged : ∀ w w', (∀ l, owner l = some i ∨ owner l = none → w l = w' l) →
    (P.position w).2 = (P.position w').2

/-- The state of `solver::update` while it waits: the world, the pending task of each island, and the
count of `atomic_counter_sync`. -/
structure All (L V : Type) where
  world : L → V
  task : Nat → Option Ctx
  count : Nat

/-- `solver::update`, `solver.cpp` 411-421: one task for each of the `n` islands. -/
def All.start (numIter numPos n : Nat) (w : L → V) : All L V :=
  ⟨w, fun i => if i < n then some (Ctx.start numIter numPos) else none, n⟩

/-- One thread takes the task of island `i`; `none` if there is none pending, or if
`atomic_counter_sync::decrement` (`atomic_counter_sync.hpp` 22-31) would fail its assertion. -/
def All.step (P : Nat → Phases (L → V)) (s : All L V) (i : Nat) : Option (All L V) :=
  match s.task i with
  | none => none
  | some c =>
    match update (P i) c s.world with
    | (w', some c') => some ⟨w', Function.update s.task i (some c'), s.count⟩
    | (w', none) =>
      if s.count > 0 then some ⟨w', Function.update s.task i none, s.count - 1⟩ else none

/-- A schedule: the islands whose tasks run, in order. -/
def All.run (P : Nat → Phases (L → V)) (s : All L V) (is : List Nat) : Option (All L V) :=
  is.foldlM (fun s i => All.step P s i) s

theorem update_local {owner : L → Option Nat} {i : Nat} {P : Phases (L → V)} (hP : LocalPhases owner i P)
    (c : Ctx) :
    (∀ w l, owner l ≠ some i → (update P c w).1 l = w l) ∧
    (∀ w w', (∀ l, owner l = some i ∨ owner l = none → w l = w' l) →
      (update P c w).2 = (update P c w').2 ∧
      ∀ l, owner l = some i → (update P c w).1 l = (update P c w').1 l) := by
  cases hs : c.state with
  | packRows => simp only [update, hs]; exact ⟨hP.pack.write, fun w w' h => ⟨trivial, hP.pack.read w w' h⟩⟩
  | solveConstraints =>
    simp only [update, hs]
    by_cases hc : c.bump.iteration ≥ c.bump.numIter
    · simp only [hc, if_true]; exact ⟨hP.solve.write, fun w w' h => ⟨trivial, hP.solve.read w w' h⟩⟩
    · simp only [hc, if_false]; exact ⟨hP.solve.write, fun w w' h => ⟨trivial, hP.solve.read w w' h⟩⟩
  | applySolution => simp only [update, hs]; exact ⟨hP.apply.write, fun w w' h => ⟨trivial, hP.apply.read w w' h⟩⟩
  | assignAppliedImpulses =>
    simp only [update, hs]
    by_cases hc : c.numPos > 0
    · simp only [hc, if_true]; exact ⟨hP.assign.write, fun w w' h => ⟨trivial, hP.assign.read w w' h⟩⟩
    · simp only [hc, if_false]; exact ⟨hP.assign.write, fun w w' h => ⟨trivial, hP.assign.read w w' h⟩⟩
  | solvePositionConstraints =>
    have hval : ∀ w, update P c w = ((P.position w).1,
        if (P.position w).2 then none else if c.bump.iteration ≥ c.bump.numPos then none else some c.bump) := by
      intro w
      simp only [update, hs]
      rcases hq : P.position w with ⟨w', b⟩
      cases b
      · by_cases hc : c.bump.iteration ≥ c.bump.numPos <;> simp [hc]
      · simp
    constructor
    · intro w l hl
      rw [hval]
      exact hP.position.write w l hl
    · intro w w' h
      rw [hval, hval, hP.converged w w' h]
      exact ⟨rfl, hP.position.read w w' h⟩

/-- The state island `i` would be in if it had run alone for `k` tasks. -/
def Alone (P : Nat → Phases (L → V)) (owner : L → Option Nat) (numIter numPos n : Nat) (w₀ : L → V)
    (s : All L V) (k : Nat → Nat) : Prop :=
  (∀ l, owner l = none → s.world l = w₀ l) ∧
  (∀ i < n, s.task i = (chain (P i) (k i) (some (Ctx.start numIter numPos)) w₀).2 ∧
    ∀ l, owner l = some i →
      s.world l = (chain (P i) (k i) (some (Ctx.start numIter numPos)) w₀).1 l) ∧
  (∀ i, n ≤ i → s.task i = none) ∧
  s.count = (List.range n).countP (fun i => (s.task i).isSome)

theorem chain_last {P : Phases W} {k : Nat} {c : Ctx} {w : W} {c₁ : Ctx} {w₁ : W}
    (h : chain P k (some c) w = (w₁, some c₁)) :
    chain P (k + 1) (some c) w = update P c₁ w₁ := by
  induction k generalizing c w with
  | zero =>
    simp only [chain, Prod.mk.injEq, Option.some.injEq] at h
    obtain ⟨rfl, rfl⟩ := h
    rw [chain_succ]
    rfl
  | succ k ih =>
    rw [chain_succ] at h ⊢
    cases hu : (update P c w).2 with
    | none => rw [hu] at h; cases k <;> simp [chain] at h
    | some c' => rw [hu] at h; exact ih h

theorem chain_shared {owner : L → Option Nat} {i : Nat} {P : Phases (L → V)} (hP : LocalPhases owner i P)
    (k : Nat) (c : Option Ctx) (w : L → V) (l : L) (hl : owner l ≠ some i) : (chain P k c w).1 l = w l := by
  induction k generalizing c w with
  | zero => rfl
  | succ k ih =>
    cases c with
    | none => rfl
    | some c =>
      rw [chain_succ, ih]
      exact (update_local hP c).1 w l hl

theorem countP_update (n : Nat) (f g : Nat → Option Ctx) (i : Nat) (hi : i < n) (c : Ctx)
    (hf : f i = some c) (hg : g = Function.update f i none) :
    (List.range n).countP (fun j => (f j).isSome) =
      (List.range n).countP (fun j => (g j).isSome) + 1 := by
  subst hg
  induction n with
  | zero => omega
  | succ n ih =>
    rw [List.range_succ, List.countP_append, List.countP_append]
    by_cases h : i = n
    · subst h
      have : (List.range i).countP (fun j => (f j).isSome) =
          (List.range i).countP (fun j => (Function.update f i none j).isSome) := by
        apply List.countP_congr
        intro j hj
        have : j ≠ i := by simp at hj; omega
        simp [this]
      simp [this, hf]
    · rw [ih (by omega)]
      have : n ≠ i := fun e => h e.symm
      simp [this]
      omega

theorem countP_update_some (n : Nat) (f : Nat → Option Ctx) (i : Nat) (c c' : Ctx)
    (hf : f i = some c) :
    (List.range n).countP (fun j => (f j).isSome) =
      (List.range n).countP (fun j => (Function.update f i (some c') j).isSome) := by
  apply List.countP_congr
  intro j _
  by_cases h : j = i
  · subst h; simp [hf]
  · simp [h]

theorem step_alone {P : Nat → Phases (L → V)} {owner : L → Option Nat}
    (hP : ∀ i, LocalPhases owner i (P i)) {numIter numPos n : Nat} {w₀ : L → V} {s s' : All L V}
    {k : Nat → Nat} (h : Alone P owner numIter numPos n w₀ s k) {i : Nat} (hs : All.step P s i = some s') :
    Alone P owner numIter numPos n w₀ s' (Function.update k i (k i + 1)) := by
  obtain ⟨h0, h1, h2, h3⟩ := h
  unfold All.step at hs
  cases hc : s.task i with
  | none => rw [hc] at hs; simp at hs
  | some c =>
    rw [hc] at hs
    simp only at hs
    have hi : i < n := by
      by_contra hge
      rw [h2 i (by omega)] at hc
      simp at hc
    obtain ⟨ht, hw⟩ := h1 i hi
    -- the state of the chain of `i` alone
    set ch := chain (P i) (k i) (some (Ctx.start numIter numPos)) w₀ with hch
    have hsome : ch.2 = some c := by rw [← ht, hc]
    have hnext : chain (P i) (k i + 1) (some (Ctx.start numIter numPos)) w₀ = update (P i) c ch.1 :=
      chain_last (by rw [← hch]; exact Prod.ext rfl hsome)
    have hagree : ∀ l, owner l = some i ∨ owner l = none → s.world l = ch.1 l := by
      intro l hl
      rcases hl with hl | hl
      · exact hw l hl
      · rw [h0 l hl, hch, chain_shared (hP i) _ _ _ l (by rw [hl]; simp)]
    obtain ⟨hwr, hrd⟩ := update_local (hP i) c
    obtain ⟨hr2, hr1⟩ := hrd s.world ch.1 hagree
    have hshared : ∀ l, owner l = none → (update (P i) c s.world).1 l = w₀ l := by
      intro l hl
      rw [hwr _ _ (by rw [hl]; simp), h0 l hl]
    have hmain : ∀ t : Nat → Option Ctx, t = Function.update s.task i (update (P i) c s.world).2 →
        ∀ j < n, t j = (chain (P j) (Function.update k i (k i + 1) j)
          (some (Ctx.start numIter numPos)) w₀).2 ∧
        ∀ l, owner l = some j → (update (P i) c s.world).1 l =
          (chain (P j) (Function.update k i (k i + 1) j) (some (Ctx.start numIter numPos)) w₀).1 l := by
      intro t htt j hj
      subst htt
      by_cases hji : j = i
      · subst hji
        rw [Function.update_self, Function.update_self, hnext]
        exact ⟨hr2, hr1⟩
      · rw [Function.update_of_ne hji, Function.update_of_ne hji]
        refine ⟨(h1 j hj).1, ?_⟩
        intro l hl
        rw [hwr _ _ (by rw [hl]; simpa using hji)]
        exact (h1 j hj).2 l hl
    have hout : ∀ t : Nat → Option Ctx, ∀ o, t = Function.update s.task i o → ∀ j, n ≤ j → t j = none := by
      intro t o htt j hj
      have : j ≠ i := by omega
      rw [htt, Function.update_of_ne this, h2 j hj]
    rcases hu : update (P i) c s.world with ⟨w', o⟩
    rw [hu] at hs hmain hshared
    cases o with
    | some c' =>
      simp only [Option.some.injEq] at hs
      subst hs
      exact ⟨hshared, hmain _ rfl, hout _ _ rfl, by rw [h3]; exact countP_update_some n s.task i c c' hc⟩
    | none =>
      simp only at hs
      by_cases hpos : s.count > 0
      · rw [if_pos hpos] at hs
        simp only [Option.some.injEq] at hs
        subst hs
        refine ⟨hshared, hmain _ rfl, hout _ _ rfl, ?_⟩
        have := countP_update n s.task _ i hi c hc rfl
        simp only
        omega
      · rw [if_neg hpos] at hs
        simp at hs

theorem run_alone {P : Nat → Phases (L → V)} {owner : L → Option Nat}
    (hP : ∀ i, LocalPhases owner i (P i)) {numIter numPos n : Nat} {w₀ : L → V} (is : List Nat)
    {s s' : All L V} {k : Nat → Nat} (h : Alone P owner numIter numPos n w₀ s k)
    (hs : All.run P s is = some s') :
    ∃ k', Alone P owner numIter numPos n w₀ s' k' := by
  induction is generalizing s k with
  | nil =>
    simp only [All.run, List.foldlM_nil] at hs
    cases hs
    exact ⟨k, h⟩
  | cons i is ih =>
    simp only [All.run, List.foldlM_cons] at hs
    cases hst : All.step P s i with
    | none => rw [hst] at hs; simp at hs
    | some s₁ =>
      rw [hst] at hs
      exact ih (step_alone hP h hst) hs

theorem countP_range_zero {n : Nat} {p : Nat → Bool} (h : (List.range n).countP p = 0) :
    ∀ i < n, p i = false := by
  intro i hi
  rw [List.countP_eq_zero] at h
  have := h i (List.mem_range.mpr hi)
  simpa using this

theorem start_alone (P : Nat → Phases (L → V)) (owner : L → Option Nat) (numIter numPos n : Nat)
    (w₀ : L → V) : Alone P owner numIter numPos n w₀ (All.start numIter numPos n w₀) (fun _ => 0) := by
  refine ⟨fun _ _ => rfl, fun i hi => ⟨by simp [All.start, hi, chain], fun _ _ => rfl⟩,
    fun i hi => by simp [All.start, Nat.not_lt.mpr hi], ?_⟩
  have : (List.range n).countP (fun i => ((All.start numIter numPos n w₀).task i).isSome) =
      (List.range n).countP (fun _ => true) := by
    apply List.countP_congr
    intro i hi
    simp [All.start, List.mem_range.mp hi]
  rw [this]
  simp [All.start]

/-- **C39**, many islands.  The tasks of the islands run on any number of threads in any order (any
schedule): when the count reaches zero, which is when `solver::update` resumes, every island has ended,
nothing shared has changed and everything an island owns is what the sequential function would have
computed for that island alone. -/
theorem any_schedule_agrees_partial (P : Nat → Phases (L → V)) (owner : L → Option Nat)
    (hP : ∀ i, LocalPhases owner i (P i)) (numIter numPos n : Nat) (w₀ : L → V)
    (h1 : 1 ≤ numIter) (h2 : numIter ≤ 255) (h3 : numPos ≤ 255) (is : List Nat) (s : All L V)
    (hs : All.run P (All.start numIter numPos n w₀) is = some s) (hz : s.count = 0) :
    (∀ i, s.task i = none) ∧ (∀ l, owner l = none → s.world l = w₀ l) ∧
    ∀ i < n, ∀ l, owner l = some i → s.world l = runSeq (P i) numIter numPos w₀ l := by
  obtain ⟨k, ha0, ha1, ha2, ha3⟩ := run_alone hP is (start_alone P owner numIter numPos n w₀) hs
  have hdone : ∀ i < n, s.task i = none := by
    intro i hi
    have := countP_range_zero (ha3.symm.trans hz) i hi
    simpa using this
  refine ⟨?_, ha0, ?_⟩
  · intro i
    by_cases hi : i < n
    · exact hdone i hi
    · exact ha2 i (by omega)
  · intro i hi l hl
    obtain ⟨ht, hw⟩ := ha1 i hi
    obtain ⟨m, hm⟩ := tasks_agree_with_sequential_partial (P i) numIter numPos w₀ h1 h2 h3
    rw [hw l hl]
    rw [hdone i hi] at ht
    have hmk : m ≤ k i := by
      by_contra hlt
      exact hm.2 (k i) (by omega) ht.symm
    have hstay : ∀ d, chain (P i) (m + d) (some (Ctx.start numIter numPos)) w₀ =
        (runSeq (P i) numIter numPos w₀, none) := by
      intro d
      have happ : ∀ (a b : Nat) (c : Option Ctx) (w : L → V),
          chain (P i) (a + b) c w = chain (P i) b (chain (P i) a c w).2 (chain (P i) a c w).1 := by
        intro a
        induction a with
        | zero => intro b c w; simp [chain]
        | succ a ih =>
          intro b c w
          cases c with
          | none =>
            have : a + 1 + b = (a + b) + 1 := by omega
            rw [this]
            cases b <;> rfl
          | some c =>
            have : a + 1 + b = (a + b) + 1 := by omega
            rw [this, chain_succ, ih, chain_succ]
      rw [happ, hm.1]
      cases d <;> rfl
    have := hstay (k i - m)
    rw [Nat.add_sub_cancel' hmk] at this
    rw [this]

/-- **C39**, progress.  A pending task can always run (the counter never fails its assertion), and the
count is zero only when no task is pending: `solver::update` neither waits for ever nor resumes early. -/
theorem pending_tasks_can_run (P : Nat → Phases (L → V)) (owner : L → Option Nat)
    (hP : ∀ i, LocalPhases owner i (P i)) (numIter numPos n : Nat) (w₀ : L → V) (is : List Nat)
    (s : All L V) (hs : All.run P (All.start numIter numPos n w₀) is = some s) (i : Nat)
    (hi : s.task i ≠ none) : 0 < s.count ∧ ∃ s', All.step P s i = some s' := by
  obtain ⟨k, ha0, ha1, ha2, ha3⟩ := run_alone hP is (start_alone P owner numIter numPos n w₀) hs
  cases hc : s.task i with
  | none => exact absurd hc hi
  | some c =>
    have hin : i < n := by
      by_contra hge
      exact hi (ha2 i (by omega))
    have hpos : 0 < s.count := by
      rw [ha3, List.countP_pos_iff]
      exact ⟨i, List.mem_range.mpr hin, by simp [hc]⟩
    refine ⟨hpos, ?_⟩
    unfold All.step
    rw [hc]
    simp only
    rcases hu : update (P i) c s.world with ⟨w', o⟩
    cases o with
    | some c' => exact ⟨_, rfl⟩
    | none => exact ⟨_, by simp only; rw [if_pos hpos]⟩

/-- Phases of island `i` on the world `Nat → Nat`: location `i` is its own, location 100 is shared. -/
def counting (i : Nat) : Phases (Nat → Nat) where
  pack w := Function.update w i (w i + w 100)
  solve w := Function.update w i (2 * w i)
  apply w := Function.update w i (w i + 1)
  assign w := w
  position w := (Function.update w i (w i - 1), decide (w i < 3))

def ownerEx (l : Nat) : Option Nat := if l = 100 then none else some l

theorem counting_local (i : Nat) (hi : i ≠ 100) : LocalPhases ownerEx i (counting i) := by
  have hne : ∀ l, ownerEx l ≠ some i → l ≠ i := by
    intro l h e
    subst e
    simp [ownerEx, hi] at h
  have hown : ∀ l, ownerEx l = some i → l = i := by
    intro l h
    by_cases hl : l = 100
    · simp [ownerEx, hl] at h
    · simpa [ownerEx, hl] using h
  have hi' : ownerEx i = some i := by simp [ownerEx, hi]
  refine ⟨⟨?_, ?_⟩, ⟨?_, ?_⟩, ⟨?_, ?_⟩, ⟨fun _ _ _ => rfl, ?_⟩, ⟨?_, ?_⟩, ?_⟩
  all_goals first
    | (intro w l h; simp [counting, hne l h]; done)
    | (intro w w' h l hl
       have e := hown l hl
       subst e
       have e1 := h l (Or.inl hl)
       have e2 := h 100 (Or.inr rfl)
       simp [counting, e1, e2]; done)
    | (intro w w' h
       have e1 := h i (Or.inl hi')
       simp [counting, e1])

/-- Two islands, their tasks interleaved. -/
example : (All.run counting (All.start 1 2 2 (fun l => l)) [0, 1, 1, 0, 0, 1, 1, 0, 1, 1, 0, 0]).map
    (fun s => (s.count, s.world 0, s.world 1, runSeq (counting 0) 1 2 (fun l => l) 0,
      runSeq (counting 1) 1 2 (fun l => l) 1)) = some (0, 199, 201, 199, 201) := by decide +kernel

end Edyn.Solver.Machine
