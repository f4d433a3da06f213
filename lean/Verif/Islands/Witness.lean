import Verif.Islands.Props

/-!
# Islands: concrete histories

Non-trivial cases of the theorems in `Props.lean`, and the histories in which the full statements fail.
-/

namespace Edyn.Islands

/-- The neighbours of a body, read off the list of edges. -/
def exAdj (E : List Edge) (n : Nat) : List (Nat × List Nat) :=
  E.flatMap fun x => (if x.a = n then [(x.b, [x.id])] else []) ++ if x.b = n then [(x.a, [x.id])] else []

/-- A concrete environment: entities are visited in the order in which they were added. -/
def exEnv : Env ℤ where
  adj := exAdj
  adjOk := by
    intro E
    constructor
    · intro n m l h
      simp only [exAdj, List.mem_flatMap, List.mem_append] at h
      obtain ⟨x, hx, h⟩ := h
      rcases h with h | h
      · split at h
        · simp at h; obtain ⟨rfl, rfl⟩ := h
          refine ⟨by simp, fun e he => ?_⟩
          simp at he; subst he
          exact ⟨x, hx, rfl, by grind⟩
        · simp at h
      · split at h
        · simp at h; obtain ⟨rfl, rfl⟩ := h
          refine ⟨by simp, fun e he => ?_⟩
          simp at he; subst he
          exact ⟨x, hx, rfl, by grind⟩
        · simp at h
    · intro e n m h
      obtain ⟨x, hx, rfl, h⟩ := h
      refine ⟨[x.id], ?_, by simp⟩
      simp only [exAdj, List.mem_flatMap, List.mem_append]
      refine ⟨x, hx, ?_⟩
      rcases h with ⟨rfl, rfl⟩ | ⟨rfl, rfl⟩ <;> simp
  ord := id
  ordOk := fun l => List.Perm.refl l
  timeToSleep := 2

/-- no body is fast -/
def slow : Nat → Bool := fun _ => false

/-! ### Cases of the theorems -/

/-- Five bodies, 4 of them static; constraints make one island of 0, 1 and 2, and one of 3; both rest
on the static body 4, and sleeping is disabled for 3. -/
def exOps : List (Op ℤ) :=
  [.addNode 0 true false, .addNode 1 true false, .addNode 2 true false, .addNode 3 true true,
   .addNode 4 false false, .addEdge 0 0 1, .addEdge 1 1 2, .addEdge 2 0 4, .addEdge 3 3 4]

/-- C10: after the first update there are two islands, which share the static body. -/
example : ∃ w, run exEnv (start 0) (exOps ++ [.update 1 slow]) = some w ∧
    w.isl 0 = some ⟨[0, 4, 1, 2], [0, 2, 1]⟩ ∧ w.isl 1 = some ⟨[3, 4], [3]⟩ ∧ w.mres 4 = [0, 1] ∧
    WellPlaced w := by
  have h : (run exEnv (start 0) (exOps ++ [.update 1 slow])).map
      (fun w => (w.isl 0, w.isl 1, w.mres 4)) =
      some (some ⟨[0, 4, 1, 2], [0, 2, 1]⟩, some ⟨[3, 4], [3]⟩, [0, 1]) := by decide +kernel
  obtain ⟨w, hw, h⟩ := Option.map_eq_some_iff.1 h
  simp only [Prod.mk.injEq] at h
  exact ⟨w, hw, h.1, h.2.1, h.2.2,
    bodies_live_in_one_island_partial exEnv 0 exOps 1 slow w (by simp [exOps]) hw⟩

/-- C11: the constraint between 0 and 1 is removed; bodies 1 and 2 move to a new island. -/
example : ∃ w₀ w₁ w, run exEnv (start 0) (exOps ++ [.update 1 slow]) = some w₀ ∧
    step exEnv w₀ (.removeEdge 0 true) = some w₁ ∧ Lost w₀ w₁ 0 ∧
    run exEnv (start 0) ((exOps ++ [.update 1 slow]) ++ .removeEdge 0 true :: [] ++ [.update 2 slow]) =
      some w ∧
    w.isl 0 = some ⟨[0, 4], [2]⟩ ∧ w.isl 2 = some ⟨[1, 2], [1]⟩ := by
  have h : (run exEnv (start 0) (exOps ++ [.update 1 slow])).map (fun w => (w.isl 0, w.edges)) =
      some (some ⟨[0, 4, 1, 2], [0, 2, 1]⟩, [⟨0, 0, 1⟩, ⟨1, 1, 2⟩, ⟨2, 0, 4⟩, ⟨3, 3, 4⟩]) := by
    decide +kernel
  obtain ⟨w₀, hw₀, h⟩ := Option.map_eq_some_iff.1 h
  simp only [Prod.mk.injEq] at h
  have h1 : (run exEnv (start 0) ((exOps ++ [.update 1 slow]) ++ [.removeEdge 0 true])).map
      (fun w => w.edges) = some [⟨1, 1, 2⟩, ⟨2, 0, 4⟩, ⟨3, 3, 4⟩] := by decide +kernel
  obtain ⟨w₁, hw₁, h1⟩ := Option.map_eq_some_iff.1 h1
  have h2 : (run exEnv (start 0)
      ((exOps ++ [.update 1 slow]) ++ .removeEdge 0 true :: [] ++ [.update 2 slow])).map
      (fun w => (w.isl 0, w.isl 2)) = some (some ⟨[0, 4], [2]⟩, some ⟨[1, 2], [1]⟩) := by decide +kernel
  obtain ⟨w, hw, h2⟩ := Option.map_eq_some_iff.1 h2
  simp only [Prod.mk.injEq] at h2
  obtain ⟨w0', g0, g1⟩ := run_snoc exEnv hw₁
  rw [hw₀] at g0; cases g0
  refine ⟨w₀, w₁, w, hw₀, g1, Or.inl ⟨⟨0, 0, 1⟩, by rw [h.2]; simp, ⟨_, h.1, by simp⟩, ?_⟩, hw,
    h2.1, h2.2⟩
  rw [h1]; simp

/-- C12: the first island falls asleep after the fourth update, the second does not, since sleeping is
disabled for body 3.  Removing a constraint wakes up both parts of the first island. -/
example :
    (run exEnv (start 0) (exOps ++ [.update 1 slow, .update 2 slow, .update 3 slow])).map
      (fun w => [w.slI 0, w.slI 1]) = some [false, false] ∧
    (run exEnv (start 0) (exOps ++ [.update 1 slow, .update 2 slow, .update 3 slow, .update 4 slow])).map
      (fun w => ([w.slI 0, w.slI 1], [0, 1, 2, 3, 4].map w.slN, [0, 1, 2, 3].map w.slE)) =
      some ([true, false], [true, true, true, false, false], [true, true, true, false]) ∧
    (run exEnv (start 0) (exOps ++ [.update 1 slow, .update 2 slow, .update 3 slow, .update 4 slow,
        .removeEdge 0 true, .update 5 slow])).map
      (fun w => ([w.slI 0, w.slI 1, w.slI 2], [0, 1, 2, 3, 4].map w.slN)) =
      some ([false, false, false], [false, false, false, false, false]) := by decide +kernel

/-- C54: no island is merged in this history. -/
example : ∃ w, run exEnv (start 0) (exOps ++ [.update 1 slow]) = some w ∧
    NoFlagLost exEnv (start 0) (exOps ++ [.update 1 slow]) := by
  have h : (run exEnv (start 0) (exOps ++ [.update 1 slow])).isSome = true := by decide +kernel
  obtain ⟨w, hw⟩ := Option.isSome_iff_exists.1 h
  refine ⟨w, hw, ?_⟩
  intro pre t f post w0 w1 ho hr
  have hpre : pre = exOps := by
    rcases List.append_eq_append_iff.1 ho with ⟨as, h1, h2⟩ | ⟨bs, h1, h2⟩
    · cases as with
      | nil => simpa using h1
      | cons a as => simp at h2
    · cases bs with
      | nil => simpa using h1.symm
      | cons b bs =>
        exfalso
        simp only [List.cons_append, List.cons.injEq] at h2
        have : (Op.update t f : Op ℤ) ∈ exOps := by rw [h1, h2.1]; simp
        simp [exOps] at this
  subst hpre
  have hs : (run exEnv (start 0) exOps).map (fun w => w.toSplit) = some [] := by decide +kernel
  rw [hr] at hs
  simp only [Option.map_some, Option.some.injEq] at hs
  intro _ i hi
  rw [hs] at hi; simp at hi

/-! ### Where the full statements fail -/

/-- A static body, whose constraint has been removed together with another one, so that the island has
come apart, keeps a reference to an island in which it is not listed.  Making it dynamic leaves a
procedural body that no island lists: nothing will move it. -/
def strayOps : List (Op ℤ) :=
  [.addNode 0 true false, .addNode 1 true false, .addNode 2 false false, .addEdge 0 0 1, .addEdge 1 0 2,
   .update 1 slow, .removeEdge 0 true, .removeEdge 1 true, .update 2 slow, .setProcedural 2 true]

theorem kind_change_loses_body : ¬ C10FullStatement := by
  intro hfull
  have h : (run exEnv (start 0) (strayOps ++ [.update 3 slow])).map
      (fun w => (decide (2 ∈ w.nodes), w.proc 2, w.nres 2, w.isl 0)) =
      some (true, true, some 0, some ⟨[0], []⟩) := by decide +kernel
  obtain ⟨w, hw, h⟩ := Option.map_eq_some_iff.1 h
  simp only [Prod.mk.injEq, decide_eq_true_eq] at h
  obtain ⟨h1, h2, h3, h4⟩ := h
  obtain ⟨I, hI, hm⟩ := ((hfull exEnv 0 strayOps 3 slow w hw).bodyRef 2 h1 h2 0).1 h3
  rw [h4] at hI; cases hI
  simp at hm

/-- If instead the static body is destroyed, the erasure of an element that is not in the set fails
(an assertion of the entity set, or undefined behaviour): the call is not defined in the model. -/
theorem destroying_stray_static_body_fails :
    (run exEnv (start 0) (strayOps.dropLast)).isSome = true ∧
    run exEnv (start 0) (strayOps.dropLast ++ [.removeNode 2]) = none := by
  constructor
  · decide +kernel
  · have : (run exEnv (start 0) (strayOps.dropLast ++ [.removeNode 2])).isNone = true := by
      decide +kernel
    simpa using this

/-- A constraint that is cleared (without its entity being destroyed) before the update in which it
would have been processed makes that update fail. -/
theorem clearing_new_constraint_breaks_update :
    (run exEnv (start 0) [.addNode 0 true false, .addNode 1 true false, .addEdge 0 0 1,
      .removeEdge 0 false]).isSome = true ∧
    (run exEnv (start 0) [.addNode 0 true false, .addNode 1 true false, .addEdge 0 0 1,
      .removeEdge 0 false, .update 1 slow]).isNone = true := by decide +kernel

/-- A body made static before the first update has no island yet; the null island is stored. -/
theorem early_kind_change_fails :
    (run exEnv (start 0) [.addNode 0 true false, .setProcedural 0 false]).isNone = true := by
  decide +kernel

/-- A body that is made static while it has two constraints to a static body; when one of them is
removed the next update fails the assertion that an island without procedural bodies has no edges. -/
theorem static_pair_breaks_update :
    (run exEnv (start 0) [.addNode 0 true false, .addNode 1 false false, .addEdge 0 0 1, .addEdge 1 0 1,
      .update 1 slow, .setProcedural 0 false, .removeEdge 0 true]).isSome = true ∧
    (run exEnv (start 0) [.addNode 0 true false, .addNode 1 false false, .addEdge 0 0 1, .addEdge 1 0 1,
      .update 1 slow, .setProcedural 0 false, .removeEdge 0 true, .update 2 slow]).isNone = true := by
  decide +kernel

/-- Bodies 0 and 1 are joined; 2, 3 and 4 are a bigger island.  Between two updates the constraint
between 0 and 1 is removed and 0 is joined to 2. -/
def mergeOps : List (Op ℤ) :=
  [.addNode 0 true false, .addNode 1 true false, .addNode 2 true false, .addNode 3 true false,
   .addNode 4 true false, .addEdge 0 0 1, .addEdge 1 2 3, .addEdge 2 3 4, .update 1 slow,
   .removeEdge 0 true, .addEdge 5 0 2]

/-- The island that waits to be split is merged into the other one, and its flag is lost: body 1, which
touches nothing, stays in the island of the others. -/
theorem flag_lost_in_merge : ¬ C54FullStatement := by
  intro hfull
  have h : (run exEnv (start 0) (mergeOps ++ [.update 2 slow])).map
      (fun w => (w.isl 1, w.edges, w.nodes, (w.proc 0, w.proc 1))) =
      some (some ⟨[2, 3, 4, 0, 1], [1, 2, 5]⟩, [⟨1, 2, 3⟩, ⟨2, 3, 4⟩, ⟨5, 0, 2⟩], [0, 1, 2, 3, 4],
        (true, true)) := by decide +kernel
  obtain ⟨w, hw, h⟩ := Option.map_eq_some_iff.1 h
  simp only [Prod.mk.injEq] at h
  obtain ⟨h1, h2, h3, h4, h5⟩ := h
  have := (hfull exEnv 0 mergeOps 2 slow w (by simp [mergeOps]) hw 1 (by rw [h3]; simp) 0
    (by rw [h3]; simp) h5 h4).1 ⟨1, ⟨_, h1, by simp⟩, ⟨_, h1, by simp⟩⟩
  rcases Relation.ReflTransGen.cases_head this with h | ⟨c, ⟨_, _, x, hx, hj⟩, _⟩
  · cases h
  · rw [h2] at hx
    simp only [List.mem_cons, List.not_mem_nil, or_false] at hx
    rcases hx with rfl | rfl | rfl <;> simp at hj

/-- The flag stays lost: nothing happens in later updates either. -/
theorem flag_lost_for_good :
    (run exEnv (start 0) (mergeOps ++ [.update 2 slow, .update 3 slow, .update 4 slow])).map
      (fun w => (w.isl 1, w.toSplit)) = some (some ⟨[2, 3, 4, 0, 1], [1, 2, 5]⟩, []) := by decide +kernel

/-- A static body made dynamic before the first update leaves its island in the collection used for
the next start body: two bodies that have nothing to do with each other get the same island. -/
theorem unrelated_bodies_share_island :
    (run exEnv (start 0) [.addNode 0 false false, .setProcedural 0 true, .addNode 1 true false,
      .update 1 slow]).map (fun w => (w.isl 0, w.edges)) = some (some ⟨[0, 1], []⟩, []) := by
  decide +kernel

/-- Making the middle one of three bodies static does not split their island. -/
theorem kind_change_does_not_split :
    (run exEnv (start 0) [.addNode 0 true false, .addNode 1 true false, .addNode 2 true false,
      .addEdge 0 0 1, .addEdge 1 1 2, .update 1 slow, .setProcedural 1 false, .update 2 slow]).map
      (fun w => (w.isl 0, w.toSplit)) = some (some ⟨[0, 1, 2], [0, 1]⟩, []) := by decide +kernel

/-- If nothing but a static body comes off an island, the island goes on listing it. -/
theorem static_body_stays_listed :
    (run exEnv (start 0) [.addNode 0 true false, .addNode 1 true false, .addNode 2 false false,
      .addEdge 0 0 1, .addEdge 1 0 2, .update 1 slow, .removeEdge 1 true, .update 2 slow]).map
      (fun w => (w.isl 0, w.edges)) = some (some ⟨[0, 2, 1], [0]⟩, [⟨0, 0, 1⟩]) := by decide +kernel

/-- A static body of a sleeping island that is made dynamic is not marked as sleeping, and the island
is not woken up. -/
theorem kind_change_breaks_sleep : ¬ C12FullStatement := by
  intro hfull
  let ops : List (Op ℤ) := [.addNode 0 true false, .addNode 1 false false, .addEdge 0 0 1,
    .update 1 slow, .update 2 slow, .update 4 slow, .update 5 slow, .update 6 slow,
    .setProcedural 1 true]
  have h : (run exEnv (start 0) ops).map (fun w => (w.isl 0, w.slI 0, w.proc 1, w.slN 1)) =
      some (some ⟨[0, 1], [0]⟩, true, true, false) := by decide +kernel
  obtain ⟨w, hw, h⟩ := Option.map_eq_some_iff.1 h
  simp only [Prod.mk.injEq] at h
  obtain ⟨h1, h2, h3, h4⟩ := h
  have := ((hfull exEnv 0 ops w hw 0 _ h1).1 h2).1 1 (by simp) h3
  rw [h4] at this; cases this

/-- The timer belongs to the island: a body that joins an island at rest sleeps in its first update. -/
theorem newcomer_sleeps_at_once :
    (run exEnv (start 0) [.addNode 0 true false, .update 1 slow, .update 2 slow, .update 3 slow,
      .addNode 1 true false, .addEdge 0 0 1, .update 6 slow]).map (fun w => (w.isl 0, w.slN 1)) =
      some (some ⟨[0, 1], [0]⟩, true) := by decide +kernel

/-- `put_all_to_sleep` does not look at `sleeping_disabled_tag`. -/
theorem sleepNow_ignores_sleeping_disabled :
    (run exEnv (start 0) [.addNode 0 true true, .update 1 slow, .sleepNow]).map
      (fun w => (w.nosleep 0, w.slN 0)) = some (true, true) := by decide +kernel

end Edyn.Islands
