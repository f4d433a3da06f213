import Verif.Poly.Leak
import Mathlib.Algebra.Field.Rat
import Mathlib.Tactic.IntervalCases

/-!
# Rotated meshes of polyhedra: examples and counterexamples (C91)

Meshes of one vertex, boxes that record what they were made from.
-/

namespace Edyn.Poly

open Edyn.Math

set_option synthInstance.maxSize 4000

/-- A mesh of one vertex and one normal. -/
def speck (a : ℚ) : Mesh ℚ := ⟨[⟨a, 0, 0⟩], [], [⟨a, 0, 0⟩], [⟨a, 0, 0⟩], []⟩

/-- Boxes are the vertices in space, with the position. -/
def trace : Shape ℚ → V3 ℚ → Quat ℚ → List (V3 ℚ) × V3 ℚ × ℕ
  | .poly m _, p, q => (m.vertices.map (Quat.rotate q), p, 0)
  | .compound ns, p, _ => ([], p, ns.length)
  | .other k, p, _ => ([], p, k)

abbrev Box := List (V3 ℚ) × V3 ℚ × ℕ

def seq : Cfg ℚ Box := ⟨trace, fun vs p => (vs, p, 0), false⟩
def wrk : Cfg ℚ Box := ⟨trace, fun vs p => (vs, p, 0), true⟩

/-- A half turn about the third axis. -/
def half : Quat ℚ := ⟨0, 0, 1, 0⟩

/-- A polyhedron as the user makes it. -/
def stone : Shape ℚ := .poly (speck 1) none
/-- A compound of two polyhedra, one of them turned, and a sphere. -/
def pair : Shape ℚ := .compound [.poly (speck 1) none 1, .other 1, .poly (speck 2) none half]

/-- What a body reads: the vertices that its pointers lead to. -/
def seen (w : World ℚ Box) (e : ℕ) : Option (List (Option (List (V3 ℚ)))) :=
  (w.shape e).map fun s => s.parts.map fun p =>
    p.rotated.bind fun i => (w.heap i).map (·.vertices)

/-- A history: a dynamic compound and a static polyhedron are made, initialized, turned and
simulated. -/
def history : List (Op ℚ) :=
  [.create (some pair) 0 1 .dynamic, .create (some stone) 0 1 .static, .init, .turn 0 half,
    .step fun _ => (⟨0, 1, 0⟩, half), .create (some stone) 0 1 .kinematic, .init, .setIdle 0 true,
    .step fun _ => (0, 1)]

/-- The history is possible, its bodies are not waiting and the compound is seen in its own
orientation.  So the hypotheses of `polyhedra_current`, `step_current`, `keeps_current` and
`keeps_boxed` are met. -/
example : ((World.empty.run wrk history).map fun w =>
    (w.body 0, w.newPoly, w.newComp, w.orn 0, seen w 0, seen w 1)) =
    some (true, [], [], half, some [some [⟨-1, 0, 0⟩], some [⟨2, 0, 0⟩]], some [some [⟨1, 0, 0⟩]]) := by
  decide +kernel

example : ((World.empty.run seq history).map fun w => (w.body 0, w.orn 0, seen w 0)) =
    some (true, half, some [some [⟨-1, 0, 0⟩], some [⟨2, 0, 0⟩]]) := by decide +kernel

/-- The hypotheses of `moved_boxed` and `turned_boxed_partial` are met. -/
example : ((World.empty.run wrk (history ++ [.move 1 ⟨5, 0, 0⟩, .turn 0 1])).map fun w =>
    (w.box 1, w.orn 0)) = some (some ([⟨1, 0, 0⟩], ⟨5, 0, 0⟩, 0), 1) := by decide +kernel

/-- The hypotheses of `destroy_releases` are met: three copies, of which two go. -/
example : ((World.empty.run wrk (history ++ [.destroy 0])).map fun w =>
    (w.body 0, (w.heap 0).isSome, (w.heap 1).isSome, (w.heap 2).isSome, w.list 0, w.list 2)) =
    some (false, true, false, false, none, none) := by decide +kernel

/-- The hypotheses of `no_leak_partial` are met. -/
example : ∀ o ∈ history, o.Once := by
  simp [history, Op.Once]

/-- Boxes as `boxed_encloses` asks for exist. -/
example (big : ℝ) : ∃ cfg : Cfg ℝ Geom.AABB, RealBoxes big cfg :=
  ⟨⟨fun s p q => match s with
      | .poly m _ => Geom.cloudAabb big m.vertices p q
      | _ => Geom.cloudAabb big [] p q,
    Geom.rotatedCloudAabb big, true⟩, fun _ _ _ _ => rfl, fun _ _ => rfl⟩

/-- The hypotheses of `init_defined` are met by worlds in which bodies wait. -/
example : ((World.empty.run seq [.create (some stone) 0 1 .static, .create (some pair) 0 1 .dynamic,
    .destroy 0, .create (some stone) 0 1 .static]).map fun w =>
      (w.newPoly, w.newComp, w.body 0, w.shape 1 == some pair, w.shape 2 == some stone)) =
    some ([0, 2], [1], false, true, true) := by decide +kernel

theorem run_some {cfg : Cfg ℚ Box} {os : List (Op ℚ)}
    (h : ((World.empty : World ℚ Box).run cfg os).isSome = true) :
    ∃ w, (World.empty : World ℚ Box).run cfg os = some w := Option.isSome_iff_exists.1 h

/-- **Finding (C91).**  In the worker, a static polyhedron that the user turns keeps the bounding box of
its old orientation: the box is updated before the rotated copy that it is made from.  The polyhedron is
at `-1`, its box at `1`, and neither the initializer nor a step mends that. -/
theorem turned_box_stale :
    ((World.empty.run wrk [.create (some stone) 0 1 .static, .init, .turn 0 half, .init,
        .step fun _ => (0, 1)]).map fun w =>
      (w.orn 0, seen w 0, w.box 0)) =
      some (half, some [some [⟨-1, 0, 0⟩]], some ([⟨1, 0, 0⟩], 0, 0)) := by decide +kernel

theorem turnedBoxedFull_false : ¬ TurnedBoxedFull := by
  intro h
  obtain ⟨w, hw⟩ := run_some (cfg := wrk) (os := [.create (some stone) 0 1 .static, .init])
    (by decide +kernel)
  obtain ⟨w', hw'⟩ := run_some (cfg := wrk)
    (os := [.create (some stone) 0 1 .static, .init] ++ [.turn 0 half]) (by decide +kernel)
  have facts : ((World.empty.run wrk ([.create (some stone) 0 1 .static, .init] ++
      [.turn 0 half])).map fun w => (w.shape 0, w.box 0, w.pos 0, w.orn 0, w.newPoly, w.newComp)) =
      some (some (.poly (speck 1) (some 0)), some ([⟨1, 0, 0⟩], 0, 0), 0, half, [], []) := by
    decide +kernel
  have fresh : ((World.empty.run wrk [.create (some stone) 0 1 .static, .init]).map fun w =>
      (w.newPoly, w.newComp)) = some ([], []) := by decide +kernel
  rw [hw'] at facts
  rw [hw] at fresh
  simp only [Option.map_some, Option.some.injEq, Prod.mk.injEq] at facts fresh
  obtain ⟨f1, f2, f3, f4, _⟩ := facts
  rw [run_append, hw, Option.bind_some] at hw'
  have ho : w.apply wrk (.turn 0 half) = some w' := by
    cases h1 : w.apply wrk (.turn 0 half) with
    | none => simp [World.run, h1] at hw'
    | some w1 => simpa [World.run, h1] using hw'
  have hb := h ℚ Box inferInstance wrk rfl _ w w' hw 0 half ho (by simp [Fresh, fresh.1, fresh.2])
  have key : ∀ (b : Box), b = (([⟨1, 0, 0⟩], 0, 0) : Box) → b = trace (.poly (speck 1) none) 0 half →
      False := by
    rintro b rfl
    decide +kernel
  rcases hb _ _ f1 f2 with k | ⟨m, p, k1, k2⟩
  · rw [f3, f4] at k
    exact key _ rfl k
  · obtain ⟨rfl, rfl⟩ : speck 1 = m ∧ some 0 = p := by simpa using k1
    rw [f3, f4] at k2
    exact key _ rfl k2

/-- **Finding (C91).**  In the worker, turning or moving a body whose polyhedron is still waiting for the
initializer reads the rotated copy through a null pointer. -/
theorem turned_before_init_fails :
    World.empty.run wrk [.create (some stone) 0 1 .dynamic] ≠ none ∧
    (World.empty.run wrk [.create (some stone) 0 1 .dynamic, .turn 0 half]).isNone = true ∧
    (World.empty.run wrk [.create (some stone) 0 1 .dynamic, .move 0 ⟨1, 0, 0⟩]).isNone = true := by
  refine ⟨?_, by decide +kernel, by decide +kernel⟩
  simp [World.run, World.apply]

/-- **Finding (C91).**  A body that is made with a polyhedron and then gets another type of shape, or
none, before the next update makes the initializer get a component that does not exist. -/
theorem replaced_before_init_fails :
    (World.empty.run seq [.create (some stone) 0 1 .dynamic, .setShape 0 (some (.other 1))]).isSome =
      true ∧
    (World.empty.run seq [.create (some stone) 0 1 .dynamic, .setShape 0 (some (.other 1)),
      .init]).isNone = true ∧
    (World.empty.run seq [.create (some stone) 0 1 .dynamic, .setShape 0 none, .init]).isNone = true ∧
    (World.empty.run seq [.create (some pair) 0 1 .dynamic, .setShape 0 (some stone),
      .init]).isNone = true := by
  refine ⟨by decide +kernel, by decide +kernel, by decide +kernel, by decide +kernel⟩

/-- **Finding (C91).**  A step that runs while a polyhedron is waiting reads a null pointer.  This is what
happens to a body made in the callback before a step of `update`, where the initializer runs before the
callback. -/
theorem stepped_before_init_fails :
    (World.empty.run seq [.init, .create (some stone) 0 1 .dynamic, .step fun _ => (0, 1)]).isNone =
      true := by decide +kernel

/-- **Finding (C91).**  Outside the worker, a static polyhedron that the user turns collides in its old
orientation for ever. -/
theorem turned_static_stale :
    ((World.empty.run seq [.create (some stone) 0 1 .static, .init, .turn 0 half, .init,
        .step fun _ => (0, 1)]).map fun w => (w.orn 0, seen w 0)) =
      some (half, some [some [⟨1, 0, 0⟩]]) := by decide +kernel

/-- **Finding (C91).**  A static body that gets another shape keeps the bounding box of the old one. -/
theorem new_shape_old_box :
    ((World.empty.run wrk [.create (some (.other 1)) 0 1 .static, .setShape 0 (some stone), .init,
        .step fun _ => (0, 1)]).map fun w => (w.box 0, trace stone (w.pos 0) (w.orn 0))) =
      some (some ([], 0, 1), ([⟨1, 0, 0⟩], 0, 0)) := by decide +kernel

/-- **Finding (C91).**  When a compound of two polyhedra is replaced by another compound, the entity made
for the second polyhedron of the old one is not destroyed, and remains when the body is destroyed. -/
theorem replaced_compound_leaks :
    ((World.empty.run seq [.create (some pair) 0 1 .static, .init, .setShape 0 (some pair), .init,
        .destroy 0]).map fun w => (w.body 0, w.body 1, w.body 2, w.n, w.list 0, (w.list 1).isSome,
          (w.heap 1).isSome, (w.list 2).isSome)) =
      some (false, false, false, 3, none, true, true, false) := by decide +kernel

theorem noLeakFull_false : ¬ NoLeakFull := by
  intro h
  have facts := replaced_compound_leaks
  obtain ⟨w, hw⟩ := run_some (cfg := seq) (os := [.create (some pair) 0 1 .static, .init,
    .setShape 0 (some pair), .init, .destroy 0]) (by decide +kernel)
  rw [hw] at facts
  simp only [Option.map_some, Option.some.injEq, Prod.mk.injEq] at facts
  obtain ⟨b0, b1, b2, hn, _, l1, _⟩ := facts
  obtain ⟨e, he, _⟩ := h ℚ Box inferInstance seq _ w hw 1 l1
  have hlt := (run_inv _ empty_inv hw).core.blt e he
  rw [hn] at hlt
  interval_cases e
  · rw [b0] at he; cases he
  · rw [b1] at he; cases he
  · rw [b2] at he; cases he

end Edyn.Poly
