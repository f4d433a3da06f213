import Verif.EntityMap.Lemmas

/-!
# Properties of `entity_map` (C16)
-/

namespace Edyn.EntityMap

/-- C16. For every sequence of calls: the calls run without a failed assertion or exception exactly
when each is allowed by the specification (no entity inserted twice, only mapped entities erased). -/
theorem run_defined_iff (os : List Op) :
    (run init os).isSome = true ↔ Spec.allAllowed Spec.empty os := by
  constructor
  · intro h
    obtain ⟨m', hm⟩ := Option.isSome_iff_exists.1 h
    exact run_some_allowed os rel_init hm
  · intro h
    obtain ⟨m', hm, -⟩ := rel_run os rel_init h
    simp [hm]

/-- C16. After every successful sequence of calls, lookups in both directions report exactly the
pairs of the specification. -/
theorem lookups_match_spec (os : List Op) (m : EMap) (h : run init os = some m) :
    ∀ r l, (at? m r = some l ↔ Spec.run Spec.empty os r l) ∧
           (atLocal? m l = some r ↔ Spec.run Spec.empty os r l) := by
  obtain ⟨m', hm, rel⟩ := rel_run os rel_init (run_some_allowed os rel_init h)
  rw [h] at hm
  cases hm
  exact fun r l => ⟨rel.fwd r l, rel.bwd r l⟩

/-- C16. The map is a bijection: `at` and `at_local` are mutually inverse after every successful
sequence of calls. -/
theorem bijection (os : List Op) (m : EMap) (h : run init os = some m) (r l : Entity) :
    at? m r = some l ↔ atLocal? m l = some r :=
  ((lookups_match_spec os m h r l).1).trans ((lookups_match_spec os m h r l).2).symm

/-- C16. `contains`/`contains_local` tell whether `at`/`at_local` succeed, and `each` enumerates
every pair exactly once. -/
theorem each_exact (os : List Op) (m : EMap) (h : run init os = some m) :
    (each m).Nodup ∧ (∀ r l, (r, l) ∈ each m ↔ Spec.run Spec.empty os r l) ∧
    (∀ r, contains m r = true ↔ ∃ l, Spec.run Spec.empty os r l) ∧
    (∀ l, containsLocal m l = true ↔ ∃ r, Spec.run Spec.empty os r l) := by
  obtain ⟨m', hm, rel⟩ := rel_run os rel_init (run_some_allowed os rel_init h)
  rw [h] at hm
  cases hm
  refine ⟨?_, ?_, ?_, ?_⟩
  · exact List.Pairwise.of_map (S := (· ≠ ·)) (·.1) (by intro a b h e; exact h (by rw [e])) rel.wf
  · intro r l; rw [← rel.fwd]; exact AMap.mem_iff_get? rel.wf
  · intro r; simp only [contains, AMap.contains_iff, rel.fwd]
  · intro l; simp only [containsLocal, AMap.contains_iff, rel.bwd]

/-- Non-vacuity: a history with every kind of call that succeeds and leaves a non-empty map. -/
example : ∃ m, run init [.insert 1 10, .insert 2 20, .insert 3 30, .erase 1, .eraseLocal 20,
    .swap, .insert 1 10, .eraseIf (fun r _ => r == 1), .insert 7 3] = none ∧
    run init [.insert 1 10, .insert 2 20, .insert 3 30, .erase 1, .eraseLocal 20,
    .swap, .insert 1 10, .eraseIf (fun r _ => r == 1), .insert 7 4] = some m ∧
    at? m 30 = some 3 ∧ atLocal? m 4 = some 7 := by
  refine ⟨⟨⟨[(7, 4), (30, 3)]⟩, ⟨[(4, 7), (3, 30)]⟩⟩, ?_, ?_, ?_, ?_⟩ <;> decide

end Edyn.EntityMap
