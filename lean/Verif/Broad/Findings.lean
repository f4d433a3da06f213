import Mathlib.Data.Int.Order.Basic
import Mathlib.Algebra.Order.Group.Int
import Verif.Broad.Theorems

/-!
# C89: examples and what refutes the full statement

The unit of length is a millimetre: the breaking threshold is 20, the separation threshold is 26 and
the trees inflate boxes by 100.
-/

namespace Edyn.Broad

/-- The constants of the library, in millimetres; every two different bodies may collide. -/
def mm : Config ℤ where
  tree := ⟨⟨fun x => x - 100, fun x => x + 100, fun x => by omega, fun x => by omega⟩,
    fun _ _ _ _ _ _ => .stop⟩
  near := 20
  apart := 26
  collides x y := decide (x ≠ y)

/-- A cube of one metre at `x`. -/
def cube (x : ℤ) : Box ℤ := ⟨⟨x, 0, 0⟩, ⟨x + 1000, 1000, 1000⟩⟩

/-- A dynamic body 0 at the origin and a static body 1 at `x`. -/
def twoCubes (x : ℤ) : List (Op ℤ) :=
  [.setKind 0 .dynamic, .addAabb 0 (cube 0), .addAabb 1 (cube x)]

/-- An update that visits both. -/
def both : Op ℤ := .update false [0, 1] [0, 1] [0, 1]

/-- The manifolds after some operations. -/
def manifoldsAfter (ops : List (Op ℤ)) : Option (List (Nat × (Nat × Nat))) :=
  (run mm (init (cube 0)) ops).map fun w => w.map.manifolds.entries

/-- 20 mm apart: a manifold, which survives at 26 mm and not at 27 mm. -/
example : manifoldsAfter (twoCubes 1020 ++ [both]) = some [(0, (0, 1))] := by decide +kernel
example : manifoldsAfter (twoCubes 1021 ++ [both]) = some [] := by decide +kernel
example : manifoldsAfter (twoCubes 1020 ++ [both, .setAabb 0 (cube (-6)), both]) =
    some [(0, (0, 1))] := by decide +kernel
example : manifoldsAfter (twoCubes 1020 ++ [both, .setAabb 0 (cube (-7)), both]) = some [] := by
  decide +kernel

/-- The tags: a sleeping or disabled body starts no pair, a static one neither. -/
example : manifoldsAfter (twoCubes 1020 ++ [.setAsleep 0 true, both]) = some [] := by
  decide +kernel
example : manifoldsAfter (twoCubes 1020 ++ [.setOff 1 true, both]) = some [] := by decide +kernel
example : manifoldsAfter (twoCubes 1020 ++ [.setKind 0 .static, both]) = some [] := by
  decide +kernel
example : manifoldsAfter (twoCubes 1020 ++ [both, .setKind 0 .static, both]) = some [] := by
  decide +kernel

/-- A kinematic body is followed. -/
example : manifoldsAfter (twoCubes 5000 ++ [.setKind 1 .kinematic, both, .setAabb 1 (cube 1010),
    both]) = some [(0, (0, 1))] := by decide +kernel

/-- The hypotheses of the theorems: a history that is proper at each step. -/
theorem twoCubes_reach (x : ℤ) : ∃ w seen, Reach mm w seen ∧ Complete w [0, 1] [0, 1] [0, 1] ∧
    w.aabb 0 = some (cube 0) ∧ w.aabb 1 = some (cube x) ∧ w.kind 0 = .dynamic ∧
    w.kind 1 = .static ∧ w.asleep = (fun _ => false) ∧ w.off = (fun _ => false) ∧
    seen = (fun _ => none) ∧ run mm (init (cube 0)) (twoCubes x) = some w := by
  let w0 : World ℤ := init (cube 0)
  let w1 : World ℤ := { w0 with kind := DynTree.upd w0.kind 0 .dynamic }
  let w2 : World ℤ := { w1 with aabb := DynTree.upd w1.aabb 0 (some (cube 0)), fresh := [0] }
  let w3 : World ℤ := { w2 with aabb := DynTree.upd w2.aabb 1 (some (cube x)), fresh := [0, 1] }
  have r0 : Reach mm w0 (fun _ => none) := .init _
  have r1 : Reach mm w1 _ := .step (.setKind 0 .dynamic) r0 trivial rfl
  have r2 : Reach mm w2 _ := .step (.addAabb 0 (cube 0)) r1 (List.not_mem_nil) rfl
  have r3 : Reach mm w3 _ :=
    .step (.addAabb 1 (cube x)) r2 (show 1 ∉ [0] by decide) rfl
  refine ⟨w3, _, r3, ?_, rfl, rfl, rfl, rfl, rfl, rfl, ?_, rfl⟩
  · intro e he
    by_cases h0 : e = 0
    · subst h0; decide
    · by_cases h1 : e = 1
      · subst h1; decide
      · simp [w3, w2, w1, w0, init, DynTree.upd, h0, h1] at he
  · simp [note]

/-- `pairs_found_partial`, `still_found_partial` and the others apply to it. -/
example : ∃ w w' seen, Reach mm w seen ∧ Complete w [0, 1] [0, 1] [0, 1] ∧
    update mm true [0, 1] [0, 1] [0, 1] w = some w' ∧ Meets mm w 0 1 ∧ Paired w' 0 1 := by
  obtain ⟨w, seen, h1, h2, h3, h4, h5, h6, h7, h8, h9, -⟩ := twoCubes_reach 1020
  obtain ⟨w', hw'⟩ := operations_defined_partial h1 (.update true [0, 1] [0, 1] [0, 1]) h2 trivial
  have hm : Meets mm w 0 1 := by
    refine ⟨h5, by rw [h7], by rw [h8], by rw [h8], by decide, _, _, h3, h4, ?_⟩
    simp [Within, cube, mm]
  exact ⟨w, w', seen, h1, h2, hw', hm,
    pairs_found_partial h1 h2 hw' hm (Or.inr (Or.inr (by rw [h9])))⟩

/-- The library's thresholds meet the hypothesis of `update_steady` and `apart_unpaired`. -/
example : mm.near ≤ mm.apart := by decide

theorem run_append (C : Config ℤ) : ∀ (l l' : List (Op ℤ)) (u : World ℤ),
    run C u (l ++ l') = (run C u l).bind fun u' => run C u' l' := by
  intro l
  induction l with
  | nil => intro l' u; rfl
  | cons o l ih =>
    intro l' u
    simp only [List.cons_append, run]
    cases step C u o with
    | none => rfl
    | some u' => exact ih l' u'

/-- The static body is five metres away, an update takes it in, and then the user moves it next to
the dynamic one. -/
def movedStatic : List (Op ℤ) := twoCubes 5000 ++ [both, .setAabb 1 (cube 1010)]

/-- **Finding.** `move_aabbs` does not visit static bodies. A static body that was moved, so that its
AABB touches a dynamic body, gets no manifold at the next update (nor at any later one, as long as
the dynamic body stays out of the box under which the tree knows the static one). -/
theorem moved_static_missed : ∃ w w', run mm (init (cube 0)) movedStatic = some w ∧
    Complete w [0, 1] [0, 1] [0, 1] ∧ Meets mm w 0 1 ∧
    update mm false [0, 1] [0, 1] [0, 1] w = some w' ∧ ¬Paired w' 0 1 := by
  obtain ⟨v, seen, h1, h2, h3, h4, h5, h6, h7, h8, h9, h10⟩ := twoCubes_reach 5000
  obtain ⟨v1, hv1⟩ := operations_defined_partial h1 (.update false [0, 1] [0, 1] [0, 1]) h2 trivial
  obtain ⟨f1, f2, f3, f4, f5⟩ := update_frame h1 h2 hv1
  have r1 := Reach.step (.update false [0, 1] [0, 1] [0, 1]) h1 h2 hv1
  obtain ⟨v2, hv2⟩ := operations_defined_partial r1 (.setAabb 1 (cube 1010)) trivial
    (show v1.aabb 1 ≠ none by rw [f1, h4]; simp)
  have r2 := Reach.step (.setAabb 1 (cube 1010)) r1 trivial hv2
  have hv2' : v2 = { v1 with aabb := DynTree.upd v1.aabb 1 (some (cube 1010)) } := by
    simp only [step, setAabb, f1, h4, Option.some.injEq] at hv2
    rw [← hv2, f1]
  have hc : Complete v2 [0, 1] [0, 1] [0, 1] := by
    intro e he
    by_cases h0 : e = 1
    · subst h0; decide
    · apply h2
      simpa [hv2', DynTree.upd, h0, f1] using he
  obtain ⟨v3, hv3⟩ := operations_defined_partial r2 (.update false [0, 1] [0, 1] [0, 1]) hc trivial
  have hrun : run mm (init (cube 0)) movedStatic = some v2 := by
    rw [movedStatic, run_append, h10]
    simp only [Option.bind_some, run, both, hv1, hv2]
  refine ⟨v2, v3, hrun, hc, ?_, hv3, ?_⟩
  · refine ⟨?_, ?_, ?_, ?_, by decide, cube 0, cube 1010, ?_, ?_, ?_⟩
    · rw [hv2']; exact (congrFun f2 0).trans h5
    · rw [hv2']; exact (congrFun f3 0).trans (by rw [h7])
    · rw [hv2']; exact (congrFun f4 0).trans (by rw [h8])
    · rw [hv2']; exact (congrFun f4 1).trans (by rw [h8])
    · rw [hv2']; exact (congrFun f1 0).trans h3
    · rw [hv2']; rfl
    · simp [Within, cube, mm]
  · have hman : manifoldsAfter (movedStatic ++ [both]) = some [] := by decide +kernel
    rintro ⟨i, hi⟩
    have hrun3 : run mm (init (cube 0)) (movedStatic ++ [both]) = some v3 := by
      rw [run_append, hrun]
      simp only [Option.bind_some, run, both, hv3]
    rw [manifoldsAfter, hrun3] at hman
    simp only [Option.map_some, Option.some.injEq] at hman
    simp [AMap.get?, hman, AMap.lookupList] at hi

/-- The static body is then missed although nothing else is wrong: C89 as stated is false. -/
theorem broadFull_false : ¬BroadFull mm := by
  intro h
  obtain ⟨w, w', h1, h2, h3, h4, h5⟩ := moved_static_missed
  obtain ⟨w'', h6, h7⟩ := h movedStatic (cube 0) w false _ _ _ h1 h2
  rw [h4] at h6
  cases h6
  exact h5 (h7 0 1 h3)

/-- **Finding.** The shape of a body is removed and set again (`rigidbody.cpp:471-495`) between two updates, before the first
of which the body was created: the entity is in `m_new_aabb_entities` twice and gets a second
`tree_resident`, which fails entt's assertion (and, with assertions off, leaves a node in the tree
that nothing removes). -/
theorem shape_set_twice_fails : ∃ w,
    run mm (init (cube 0)) [.addAabb 0 (cube 0), .removeAabb 0, .addAabb 0 (cube 0)] = some w ∧
    update mm false [0] [0] [0] w = none :=
  ⟨_, rfl, by decide +kernel⟩

/-- **Finding.** The shape of a body with a manifold is removed (`rigidbody.cpp:476-494`): the manifold stays, and the next
update reads the missing AABB of the body. -/
theorem shape_removed_fails : ∃ w, run mm (init (cube 0))
      (twoCubes 1020 ++ [both, .removeAabb 0]) = some w ∧
    update mm false [1] [1] [1] w = none :=
  ⟨_, rfl, by decide +kernel⟩

end Edyn.Broad
