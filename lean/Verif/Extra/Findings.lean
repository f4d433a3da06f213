import Verif.Extra.Total

/-!
# Where an extrapolation starts and what it reports: examples and counterexamples

Component types of the examples: 0 is a position, 1 a velocity, 2 an input; 3 is
a type which only the second registration has. Entities of the main registry
are 10 and 11, which are 0 and 1 in the worker.
-/

namespace Edyn.Extra

def exEnv : Env where
  sets k := if k = 0 then [0, 1, 2] else [0, 1, 2, 3]
  isInput c := c == 2

/-- An entity with a position, a velocity and an input. -/
def exBody (p v i : ℕ) : ℕ → Option ℕ
  | 0 => some p
  | 1 => some v
  | 2 => some i
  | _ => none

/-- Two entities, of which the second one is owned by the client. -/
def exCreate : Op ℕ := .create [(10, exBody 5 1 0), (11, exBody 7 2 0)] [11]

/-- A snapshot with the position of entity 10; both entities take part. The
solver moves both, an input of the owned entity and a velocity are patched. -/
def exRun : Run ℕ where
  entities := [10]
  pools := [⟨0, [(0, 6)]⟩]
  connecting _ := true
  reach _ := [0, 1]
  latest := [(11, 2, 3)]
  writes := [.raw 0 0 8, .raw 1 0 9, .patch 0 1 4, .patch 1 2 5]

/-- A state of the worker after a history of messages. -/
def exWorld (h : List (Op ℕ)) : World ℕ := (run exEnv 0 h).getD {}

example : ∃ w, run exEnv 0 [exCreate] = some w := ⟨_, rfl⟩

/-- The state after creation is orderly, and the request fits. -/
theorem ex_orderly : Orderly exEnv 0 [exCreate] (exWorld [exCreate]) :=
  .snoc (h := []) .nil trivial rfl

theorem ex_fine : Fine exEnv (exWorld [exCreate]) (.extrapolate exRun) := by
  refine ⟨?_, ?_, ?_⟩
  · intro m hm
    simp [exRun] at hm
    subst hm
    exact ⟨0, rfl, by simp [involved, exRun]⟩
  · intro i hi
    simp [exRun] at hi
    subst hi
    rfl
  · intro e c v h
    simp [exRun] at h

/-- The extrapolation starts with the snapshot and, for the other values, with
what was sent before. -/
example : (start exEnv (exWorld [exCreate]) exRun).map (·.map fun w =>
    [w.comp 0 0, w.comp 0 1, w.comp 1 0, w.comp 1 1, w.comp 1 2]) =
    some (some [some 6, some 1, some 7, some 2, some 3]) := by decide +kernel

/-- The result: the position of the snapshot with its extrapolated value and the
velocity which was patched, not the input of the owned entity. -/
theorem ex_result : (extrapolate exEnv (exWorld [exCreate]) exRun).map (·.2) =
    some (some [(10, 0, 8), (10, 1, 4)]) := by decide +kernel

/-- The hypotheses of `extrapolate_total` are met. -/
example : exRun.entities.Nodup ∧ (∀ p ∈ exRun.pools, ∀ cell ∈ p.cells, cell.1 < exRun.entities.length) ∧
    (∀ a ∈ exRun.writes, a.Ok (exWorld [exCreate])) ∧ exRun.Replaces (exWorld [exCreate]) 10 0 1 := by
  refine ⟨by simp [exRun], by simp [exRun], ?_, .inr ⟨4, by simp [exRun]⟩⟩
  intro a ha
  simp only [exRun, List.mem_cons, List.not_mem_nil, or_false] at ha
  rcases ha with rfl | rfl | rfl | rfl <;> simp only [Write.Ok] <;> decide +kernel

/-! ## Findings -/

/-- The full claim about results: every networked component which differs at the
end of the extrapolation from its value at the start is in the result. -/
def ReportedFull : Prop :=
  ∀ (E : Env) (k : ℕ) (h : List (Op ℕ)) (w w1 w' : World ℕ) (x : Run ℕ) (r : List (ℕ × ℕ × ℕ)),
    run E k h = some w → start E w x = some (some w1) → extrapolate E w x = some (w', some r) →
    ∀ m l, (m, l) ∈ w.emap → ∀ c ∈ E.sets w.kind, ¬ (l ∈ w.owned ∧ E.isInput c = true) →
      w'.comp l c ≠ w1.comp l c → ∃ v, (m, c, v) ∈ r

/-- It is false: what the solver moves is not noticed. In the example entity 11
takes part in the extrapolation and is moved from 7 to 9, but its position is
not in the snapshot and so not in the result. -/
theorem reportedFull_false : ¬ ReportedFull := by
  intro hf
  have h := hf exEnv 0 [exCreate] (exWorld [exCreate])
    (((start exEnv (exWorld [exCreate]) exRun).getD none).getD {})
    (((extrapolate exEnv (exWorld [exCreate]) exRun).map (·.1)).getD {}) exRun
    [(10, 0, 8), (10, 1, 4)] rfl rfl rfl 11 1 (by decide +kernel) 0 (by decide +kernel)
    (by decide +kernel) (by decide +kernel)
  obtain ⟨v, hv⟩ := h
  simp at hv

/-- A snapshot with the velocity of entity 10, in which code patches the position
only if `p`. -/
def exAgain (p : Bool) : Run ℕ where
  entities := [10]
  pools := [⟨1, [(0, 1)]⟩]
  connecting _ := true
  reach _ := [0, 1]
  latest := []
  writes := if p then [.patch 1 0 9] else []

/-- A component which one extrapolation reports and the next one does not change
is reset to the value which was sent, silently: the client keeps the value of
the first result (9), although the second extrapolation ended with 7. -/
theorem reset_not_reported :
    (extrapolate exEnv (exWorld [exCreate]) (exAgain true)).map (·.2) =
        some (some [(10, 1, 1), (11, 0, 9)]) ∧
      (extrapolate exEnv (exWorld [exCreate, .extrapolate (exAgain true)]) (exAgain false)).map
        (fun r => (r.1.comp 1 0, r.2)) = some (some 7, some [(10, 1, 1)]) := by
  decide +kernel

/-- The full claim about the initial state, without conditions on the history,
and for all known entities. -/
def StartsFull : Prop :=
  ∀ (E : Env) (k : ℕ) (h : List (Op ℕ)) (w w1 : World ℕ) (x : Run ℕ), run E k h = some w →
    start E w x = some (some w1) → ∀ m l, (m, l) ∈ w.emap → ∀ c ∈ E.sets w.kind,
      E.isInput c = false → w1.comp l c = sent m c (h ++ [.extrapolate x])

/-- A snapshot with the velocity of entity 10, which takes part alone, though
entity 11 is moved too (it is hit during the extrapolation). -/
def exHit (v : ℕ) : Run ℕ where
  entities := [10]
  pools := [⟨1, [(0, v)]⟩]
  connecting _ := true
  reach es := es
  latest := []
  writes := [.raw 0 0 8, .raw 1 0 9]

/-- It is false for entities which take no part: a body which was hit in one
extrapolation stands in the way of the next one where the first one left it (9),
not where the server has it (7). -/
theorem startsFull_false : ¬ StartsFull := by
  intro hf
  have h := hf exEnv 0 [exCreate, .extrapolate (exHit 1)]
    (exWorld [exCreate, .extrapolate (exHit 1)])
    (((start exEnv (exWorld [exCreate, .extrapolate (exHit 1)]) (exHit 2)).getD none).getD {})
    (exHit 2) rfl rfl 11 1 (by decide +kernel) 0 (by decide +kernel) rfl
  have h1 : (((start exEnv (exWorld [exCreate, .extrapolate (exHit 1)]) (exHit 2)).getD none).getD {}).comp
      1 0 = some 9 := by decide +kernel
  rw [h1] at h
  exact absurd h (by decide +kernel)

/-- A snapshot with the velocity of entity 10, which is not a connecting node of
the graph: nothing takes part, though user code moves the entity. -/
def exKinematic (v : ℕ) : Run ℕ where
  entities := [10]
  pools := [⟨1, [(0, v)]⟩]
  connecting _ := false
  reach es := es
  latest := []
  writes := [.patch 0 0 8]

/-- An entity of the snapshot which is not a connecting node, such as a kinematic
body, is not reset, and what the previous extrapolation left (8) is then stored
as if it came from the server (which said 5). -/
theorem leftover_stored_as_remote :
    (start exEnv (exWorld [exCreate, .extrapolate (exKinematic 1)]) (exKinematic 2)).map (·.map fun w =>
      (w.comp 0 0, w.remote 0 0)) = some (some (some 8, some 8)) ∧
    sent 10 0 [exCreate, .extrapolate (exKinematic 1), .extrapolate (exKinematic 2)] = some 5 := by
  decide +kernel

/-- A snapshot with the position of entity 10 and an entity which is unknown. -/
def exUnknown : Run ℕ where
  entities := [10, 99]
  pools := [⟨0, [(0, 6)]⟩]
  connecting _ := true
  reach es := es
  latest := []
  writes := []

/-- The values of an aborted request are lost: the next extrapolation starts with
the position 5, although 6 was sent. -/
theorem aborted_values_lost :
    (extrapolate exEnv (exWorld [exCreate]) exUnknown).map (·.2) = some none ∧
    (start exEnv (exWorld [exCreate, .extrapolate exUnknown]) (exAgain true)).map (·.map fun w =>
      w.comp 0 0) = some (some (some 5)) ∧
    sent 10 0 [exCreate, .extrapolate exUnknown, .extrapolate (exAgain true)] = some 6 := by
  decide +kernel

/-- A snapshot with an input of entity 11, which is owned. -/
def exOwned : Run ℕ where
  entities := [11]
  pools := [⟨2, [(0, 6)]⟩]
  connecting _ := true
  reach es := es
  latest := []
  writes := [.raw 1 0 9]

/-- If nothing but inputs of owned entities was replaced, the result is empty,
which is a failed assertion. -/
theorem empty_result_fails : (extrapolate exEnv (exWorld [exCreate]) exOwned).isNone = true := by
  decide +kernel

/-- Once further component types are registered, known entities are no longer
tracked: a request fails as its result is empty, and destroying the entity
removes a component which it does not have. -/
theorem register_again_fails :
    (extrapolate exEnv (exWorld [exCreate, .context 1]) exRun).isNone = true ∧
    (exec exEnv (exWorld [exCreate, .context 1]) (.destroy [10])).isNone = true := by
  decide +kernel

/-- Registering the same types again forgets what was sent: an extrapolation then
starts where the previous one ended (9 instead of 7). -/
theorem register_again_forgets :
    (start exEnv (exWorld [exCreate, .extrapolate exRun, .context 0]) exRun).map (·.map fun w =>
      w.comp 1 0) = some (some (some 9)) ∧
    sent 11 0 [exCreate, .extrapolate exRun, .context 0, .extrapolate exRun] = some 7 := by
  decide +kernel

/-- An input which the entity does not have yet is added during the extrapolation
without being reported. -/
theorem new_input_not_reported :
    (extrapolate exEnv (exWorld [.create [(10, exBody 5 1 0), (11, fun c => if c = 0 then some 7 else none)] []])
      { exRun with latest := [], writes := [.emplace 1 2 4] }).map (fun r => (r.1.comp 1 2, r.2)) =
    some (some 4, some [(10, 0, 6)]) := by
  decide +kernel

end Edyn.Extra
