import Verif.Repl.MappingFull

/-!
# C17: main thread and worker agree on entity identity

The properties below speak about `run (init n k) as = some s`: `s` is reached from two empty
registries by the schedule `as`, an arbitrary interleaving of creations, destructions and
deliveries on both sides.
-/

namespace Edyn.Repl.Mapping

open Edyn.EntityMap (Entity EMap)

/-! ## Specification -/

/-- The pair of entities which one step makes stand for one another: the side which moves imports
the creation of an entity it has not mapped yet. Written (entity of the main thread, entity of the
worker, created by the main thread). -/
def stepBirth (s : Sys) (a : Bool × Act) : Option (Entity × Entity × Bool) :=
  if a.1 then (birth s.main s.worker a.2).map fun p => (p.1, p.2, false)
  else (birth s.worker s.main a.2).map fun p => (p.2, p.1, true)

/-- All the pairs made during a schedule: "the same logical entity". -/
def births (s : Sys) : List (Bool × Act) → List (Entity × Entity × Bool)
  | [] => []
  | a :: as =>
    match step s a with
    | none => []
    | some t => (stepBirth s a).toList ++ births t as

/-- No entity is cleared and made again under the same identifier. -/
def NoRemake (as : List (Bool × Act)) : Prop := ∀ a ∈ as, ∀ e bs, a.2 ≠ .remake e bs

/-- No entity is cleared, and whenever the destruction of an entity is imported the entity has no
edge (constraint or contact manifold) left in the importing registry. -/
def Quiet (s : Sys) : List (Bool × Act) → Prop
  | [] => True
  | a :: as =>
    (if a.1 then QuietAct s.main s.worker a.2 else QuietAct s.worker s.main a.2) ∧
    match step s a with
    | none => True
    | some t => Quiet t as

/-! ## The invariant along a schedule -/

/-- The relation given by a history. -/
def sameOf (P : List (Entity × Entity × Bool)) : Same := fun m w b => (m, w, b) ∈ P

structure Inv (s : Sys) (P : List (Entity × Entity × Bool)) : Prop where
  main : Safe s.main (sameOf P)
  worker : Safe s.worker (flip (sameOf P))

structure InvFull (s : Sys) (P : List (Entity × Entity × Bool)) : Prop extends Inv s P where
  fmain : Full s.main s.worker (sameOf P)
  fworker : Full s.worker s.main (flip (sameOf P))

theorem flip_flip (K : Same) : flip (flip K) = K := by
  funext m w b; simp [flip]

theorem grow_main (P : List (Entity × Entity × Bool)) (o : Option (Entity × Entity)) :
    grow (sameOf P) o = sameOf (P ++ (o.map fun p => (p.1, p.2, false)).toList) := by
  funext m w b
  cases o with
  | none => simp [grow, sameOf]
  | some p =>
    obtain ⟨x, y⟩ := p
    simp only [grow, sameOf, Option.some.injEq, Prod.mk.injEq, Option.map_some,
      Option.toList_some, List.mem_append, List.mem_singleton, eq_iff_iff]
    constructor
    · rintro (h | ⟨⟨rfl, rfl⟩, rfl⟩)
      · exact Or.inl h
      · exact Or.inr ⟨rfl, rfl, rfl⟩
    · rintro (h | ⟨rfl, rfl, rfl⟩)
      · exact Or.inl h
      · exact Or.inr ⟨⟨rfl, rfl⟩, rfl⟩

theorem grow_worker (P : List (Entity × Entity × Bool)) (o : Option (Entity × Entity)) :
    flip (grow (flip (sameOf P)) o) = sameOf (P ++ (o.map fun p => (p.2, p.1, true)).toList) := by
  funext m w b
  cases o with
  | none => simp [grow, sameOf, flip]
  | some p =>
    obtain ⟨x, y⟩ := p
    simp only [flip, grow, sameOf, Bool.not_not, Option.some.injEq, Prod.mk.injEq, Option.map_some,
      Option.toList_some, List.mem_append, List.mem_singleton, eq_iff_iff, Bool.not_eq_false']
    constructor
    · rintro (h | ⟨⟨rfl, rfl⟩, rfl⟩)
      · exact Or.inl h
      · exact Or.inr ⟨rfl, rfl, rfl⟩
    · rintro (h | ⟨rfl, rfl, rfl⟩)
      · exact Or.inl h
      · exact Or.inr ⟨⟨rfl, rfl⟩, rfl⟩

theorem inv_step {s t : Sys} {P : List (Entity × Entity × Bool)} (h : Inv s P) {a : Bool × Act}
    (hno : ∀ e bs, a.2 ≠ .remake e bs) (ht : step s a = some t) :
    Inv t (P ++ (stepBirth s a).toList) := by
  obtain ⟨b, a⟩ := a
  cases b with
  | true =>
    simp only [step, if_true, Option.map_eq_some_iff] at ht
    obtain ⟨⟨s', r'⟩, h1, rfl⟩ := ht
    obtain ⟨h2, h3⟩ := act_safe h.main h.worker hno h1
    rw [grow_main] at h2 h3
    exact ⟨h2, h3⟩
  | false =>
    simp only [step, Bool.false_eq_true, if_false, Option.map_eq_some_iff] at ht
    obtain ⟨⟨s', r'⟩, h1, rfl⟩ := ht
    obtain ⟨h2, h3⟩ := act_safe h.worker (by rw [flip_flip]; exact h.main) hno h1
    rw [grow_worker] at h3
    refine ⟨h3, ?_⟩
    have := grow_worker P (birth s.worker s.main a)
    rw [← flip_flip (grow (flip (sameOf P)) (birth s.worker s.main a)), this] at h2
    exact h2

theorem invFull_step {s t : Sys} {P : List (Entity × Entity × Bool)} (h : InvFull s P)
    {a : Bool × Act}
    (hq : if a.1 then QuietAct s.main s.worker a.2 else QuietAct s.worker s.main a.2)
    (ht : step s a = some t) :
    InvFull t (P ++ (stepBirth s a).toList) := by
  have hno : ∀ e bs, a.2 ≠ .remake e bs := by
    intro e bs he
    cases hb : a.1 <;> rw [hb, he] at hq <;> simp [QuietAct] at hq
  refine ⟨inv_step h.toInv hno ht, ?_, ?_⟩
  all_goals
    obtain ⟨b, a⟩ := a
    cases b with
    | true =>
      simp only [step, if_true, Option.map_eq_some_iff] at ht
      obtain ⟨⟨s', r'⟩, h1, rfl⟩ := ht
      obtain ⟨h2, h3⟩ := act_full h.main h.worker h.fmain h.fworker (by simpa using hq) h1
      rw [grow_main] at h2 h3
      first | exact h2 | exact h3
    | false =>
      simp only [step, Bool.false_eq_true, if_false, Option.map_eq_some_iff] at ht
      obtain ⟨⟨s', r'⟩, h1, rfl⟩ := ht
      obtain ⟨h2, h3⟩ := act_full h.worker (by rw [flip_flip]; exact h.main) h.fworker
        (by rw [flip_flip]; exact h.fmain) (by simpa using hq) h1
      rw [grow_worker] at h3
      have := grow_worker P (birth s.worker s.main a)
      rw [← flip_flip (grow (flip (sameOf P)) (birth s.worker s.main a)), this] at h2
      first | exact h3 | exact h2

theorem inv_init (n k : Nat) : InvFull (init n k) [] := by
  constructor
  · constructor
    · constructor <;> first | exact good_init | simp [init, sameOf, EntityMap.init, creates]
    · constructor <;> first | exact good_init | simp [init, sameOf, flip, EntityMap.init, creates]
  · constructor <;> simp [init, sameOf, EntityMap.init, Side.valid]
  · constructor <;> simp [init, sameOf, flip, EntityMap.init, Side.valid]

theorem inv_run (as : List (Bool × Act)) : ∀ {s t : Sys} {P : List (Entity × Entity × Bool)},
    Inv s P → NoRemake as → run s as = some t → Inv t (P ++ births s as) := by
  induction as with
  | nil => intro s t P h _ hr; cases hr; simpa [births] using h
  | cons a as ih =>
    intro s t P h hno hr
    cases hs : step s a with
    | none => rw [run, hs] at hr; exact absurd hr (by simp)
    | some u =>
      rw [run, hs, Option.bind_some] at hr
      have := ih (inv_step h (hno a List.mem_cons_self) hs)
        (fun x hx => hno x (List.mem_cons_of_mem _ hx)) hr
      simpa [births, hs, List.append_assoc] using this

theorem invFull_run (as : List (Bool × Act)) : ∀ {s t : Sys} {P : List (Entity × Entity × Bool)},
    InvFull s P → Quiet s as → run s as = some t → InvFull t (P ++ births s as) := by
  induction as with
  | nil => intro s t P h _ hr; cases hr; simpa [births] using h
  | cons a as ih =>
    intro s t P h hq hr
    cases hs : step s a with
    | none => rw [run, hs] at hr; exact absurd hr (by simp)
    | some u =>
      rw [run, hs, Option.bind_some] at hr
      rw [Quiet, hs] at hq
      have := ih (invFull_step h hq.1 hs) hq.2 hr
      simpa [births, hs, List.append_assoc] using this

/-! ## Properties -/

/-- Under every interleaving in which no entity is made again under the same identifier, each side
maps entities only to the entity created for them (or for which they were created), and that
correspondence is one to one. -/
theorem identity_partial (n k : Nat) (as : List (Bool × Act)) (s : Sys)
    (h : run (init n k) as = some s) (hno : NoRemake as) :
    (∀ w m, EntityMap.at? s.main.map w = some m → ∃ b, (m, w, b) ∈ births (init n k) as) ∧
    (∀ m w, EntityMap.at? s.worker.map m = some w → ∃ b, (m, w, b) ∈ births (init n k) as) ∧
    (∀ m w b m' w' b', (m, w, b) ∈ births (init n k) as → (m', w', b') ∈ births (init n k) as →
      (m = m' ↔ w = w')) := by
  have hi := inv_run as (inv_init n k).toInv hno h
  rw [List.nil_append] at hi
  refine ⟨hi.main.mapK, ?_, ?_⟩
  · intro m w hw
    obtain ⟨b, hb⟩ := hi.worker.mapK m w hw
    exact ⟨!b, hb⟩
  · intro m w b m' w' b' h1 h2
    constructor
    · rintro rfl
      exact (hi.main.kfun _ _ _ _ _ h1 h2).1
    · rintro rfl
      exact (hi.worker.kfun w m (!b) m' (!b') (by simpa [flip, sameOf] using h1)
        (by simpa [flip, sameOf] using h2)).1

/-- Under the same interleavings, the two maps never disagree: if the main thread holds `m` for the
worker's `w` and the worker holds anything for `m`, it holds `w`; and the other way around. -/
theorem agree_partial (n k : Nat) (as : List (Bool × Act)) (s : Sys)
    (h : run (init n k) as = some s) (hno : NoRemake as) :
    (∀ w m w', EntityMap.at? s.main.map w = some m → EntityMap.at? s.worker.map m = some w' →
      w' = w) ∧
    (∀ m w m', EntityMap.at? s.worker.map m = some w → EntityMap.at? s.main.map w = some m' →
      m' = m) := by
  obtain ⟨h1, h2, h3⟩ := identity_partial n k as s h hno
  constructor
  · intro w m w' hw hm
    obtain ⟨b, hb⟩ := h1 w m hw
    obtain ⟨b', hb'⟩ := h2 m w' hm
    exact (h3 _ _ _ _ _ _ hb' hb).1 rfl
  · intro m w m' hm hw
    obtain ⟨b, hb⟩ := h2 m w hm
    obtain ⟨b', hb'⟩ := h1 w m' hw
    exact (h3 _ _ _ _ _ _ hb' hb).2 rfl

/-- Under the same interleavings no assertion of the maps fails and no lookup throws: every
delivery succeeds, and so does every destruction of a valid entity. -/
theorem never_fails_partial (n k : Nat) (as : List (Bool × Act)) (s : Sys)
    (h : run (init n k) as = some s) (hno : NoRemake as) (b : Bool) :
    (∃ t, step s (b, .recv) = some t) ∧
    ∀ e, (if b then s.main else s.worker).valid e = true → ∃ t, step s (b, .del e) = some t := by
  have hi := inv_run as (inv_init n k).toInv hno h
  cases b with
  | true =>
    refine ⟨?_, fun e he => ?_⟩
    · obtain ⟨p, hp⟩ := recv_defined hi.main hi.worker
      exact ⟨_, by simp only [step, if_true, hp, Option.map_some]; rfl⟩
    · obtain ⟨t, ht, _⟩ := hi.main.del (e := e) (by simpa using he)
      exact ⟨_, by simp only [step, if_true, act, ht, Option.map_some]; rfl⟩
  | false =>
    refine ⟨?_, fun e he => ?_⟩
    · obtain ⟨p, hp⟩ := recv_defined hi.worker (by rw [flip_flip]; exact hi.main)
      exact ⟨_, by simp only [step, Bool.false_eq_true, if_false, hp, Option.map_some]; rfl⟩
    · obtain ⟨t, ht, _⟩ := hi.worker.del (e := e) (by simpa using he)
      exact ⟨_, by simp only [step, Bool.false_eq_true, if_false, act, ht, Option.map_some]; rfl⟩

/-- Once both queues are empty the two maps are inverse to one another and every shared entity of
either side has its counterpart. -/
def Settled (s : Sys) : Prop :=
  (∀ w m, EntityMap.at? s.main.map w = some m ↔ EntityMap.at? s.worker.map m = some w) ∧
  (∀ m, s.main.valid m = true ↔ ∃ w, EntityMap.at? s.main.map w = some m) ∧
  (∀ w, s.worker.valid w = true ↔ ∃ m, EntityMap.at? s.worker.map m = some w)

/-- The full claim, for all interleavings. Refuted below. -/
def DrainedFull : Prop := ∀ (n k : Nat) (as : List (Bool × Act)) (s : Sys),
  run (init n k) as = some s → s.main.out = [] → s.worker.out = [] → Settled s

/-- The part which holds: all interleavings of creations, destructions and deliveries, as long as
no body is destroyed while an edge on it, unknown to the side which destroys it, exists on the
other side. Missing: exactly those races, and entities which are cleared without being destroyed
(see `race_leaves_orphan`, `clear_leaves_mapping`). -/
theorem drained_partial (n k : Nat) (as : List (Bool × Act)) (s : Sys)
    (h : run (init n k) as = some s) (hq : Quiet (init n k) as)
    (hm : s.main.out = []) (hw : s.worker.out = []) : Settled s := by
  have hi := invFull_run as (inv_init n k) hq h
  rw [List.nil_append] at hi
  have hsm : Safe s.main (flip (flip (sameOf (births (init n k) as)))) := by
    rw [flip_flip]; exact hi.main
  have hfm : Full s.main s.worker (flip (flip (sameOf (births (init n k) as)))) := by
    rw [flip_flip]; exact hi.fmain
  exact ⟨fun w m => ⟨hi.fmain.inverse hi.main hi.worker hi.fworker hm hw,
      hi.fworker.inverse hi.worker hsm hfm hw hm⟩,
    fun m => ⟨hi.fmain.total hm hw, fun ⟨w, hw'⟩ => hi.fmain.mapLive w m hw'⟩,
    fun w => ⟨hi.fworker.total hw hm, fun ⟨m, hm'⟩ => hi.fworker.mapLive m w hm'⟩⟩

/-! ## Cases -/

/-- Two bodies made by the main thread, a contact manifold made by the worker while the main thread
makes a constraint; the main thread destroys a body after it learned about the manifold while the
worker makes another body. All messages are delivered. -/
def calm : List (Bool × Act) :=
  [(true, .new []), (true, .new []), (false, .recv), (false, .recv), (true, .recv),
   (false, .new [100, 101]), (true, .recv), (true, .new [0, 1]), (true, .recv), (false, .recv),
   (true, .recv), (true, .del 0), (false, .new []), (false, .recv), (false, .recv),
   (false, .recv), (false, .recv), (true, .recv), (false, .recv), (false, .recv)]

example : (run (init 0 100) calm).map (fun s => (s.main.map.map.entries, s.worker.map.map.entries,
      s.main.out, s.worker.out)) =
    some ([(104, 4), (101, 1)], [(4, 104), (1, 101)], [], []) := by decide +kernel

/-- `QuietAct` can be computed. -/
def quietAct (s r : Side) : Act → Bool
  | .clear _ => false
  | .remake _ _ => false
  | .recv =>
    match r.out with
    | .destroy e :: _ =>
      match s.map.map.get? e with
      | some l => (s.edgesOf l).isEmpty
      | none => true
    | _ => true
  | _ => true

def quiet (s : Sys) : List (Bool × Act) → Bool
  | [] => true
  | a :: as =>
    (if a.1 then quietAct s.main s.worker a.2 else quietAct s.worker s.main a.2) &&
    match step s a with
    | none => true
    | some t => quiet t as

theorem quietAct_sound {s r : Side} {a : Act} (h : quietAct s r a = true) : QuietAct s r a := by
  cases a with
  | new _ => trivial
  | del _ => trivial
  | clear _ => simp [quietAct] at h
  | remake _ _ => simp [quietAct] at h
  | recv =>
    intro e rest l ho hl
    simp only [quietAct, ho, hl] at h
    simpa using h

theorem quiet_sound (as : List (Bool × Act)) : ∀ {s : Sys}, quiet s as = true → Quiet s as := by
  induction as with
  | nil => intro s _; trivial
  | cons a as ih =>
    intro s h
    simp only [quiet, Bool.and_eq_true] at h
    refine ⟨?_, ?_⟩
    · have := h.1
      cases hb : a.1 <;> rw [hb] at this <;>
        simp only [if_true, Bool.false_eq_true, if_false] at this ⊢ <;> exact quietAct_sound this
    · cases hs : step s a with
      | none => trivial
      | some t =>
        have := h.2
        rw [hs] at this
        exact ih this

/-- The schedule above meets the hypotheses of `drained_partial`. -/
example : Quiet (init 0 100) calm := quiet_sound _ (by decide +kernel)

/-- And of the other theorems. -/
example : NoRemake calm := by
  intro a ha e bs h
  obtain ⟨b, a⟩ := a
  simp only at h
  subst h
  simp [calm] at ha

/-- Finding. The worker makes a contact manifold; before the main thread hears about it, the main
thread destroys one of the bodies. The worker destroys the manifold together with the body, without
a record, since its observer is inactive while it imports. The main thread then creates its copy
of the manifold, which nothing will ever destroy. -/
def race : List (Bool × Act) :=
  [(true, .new []), (true, .new []), (false, .recv), (false, .recv), (true, .recv), (true, .recv),
   (false, .new [100, 101]), (true, .del 0), (false, .recv), (true, .recv), (false, .recv)]

theorem race_leaves_orphan :
    ∃ s, run (init 0 100) race = some s ∧ s.main.out = [] ∧ s.worker.out = [] ∧
      EntityMap.at? s.main.map 102 = some 2 ∧ s.main.valid 2 = true ∧
      EntityMap.at? s.worker.map 2 = none ∧ s.worker.valid 102 = false := by
  refine ⟨_, rfl, ?_⟩
  decide +kernel

theorem drained_refuted : ¬ DrainedFull := by
  intro h
  obtain ⟨s, h1, h2, h3, h4, _, h6, _⟩ := race_leaves_orphan
  have := ((h 0 100 race s h1 h2 h3).1 102 2).1 h4
  rw [h6] at this
  exact absurd this (by simp)

/-- Finding. The same race the other way around: the main thread attaches a constraint to a body
which the worker is destroying. The constraint entity stays in the worker for ever. -/
theorem race_leaves_orphan_in_worker :
    ∃ s, run (init 0 100)
        [(true, .new []), (true, .new []), (false, .recv), (false, .recv), (true, .recv),
         (true, .recv), (true, .new [0, 1]), (false, .del 100), (true, .recv), (false, .recv),
         (true, .recv)] = some s ∧ s.main.out = [] ∧ s.worker.out = [] ∧
      EntityMap.at? s.worker.map 2 = some 102 ∧ s.worker.valid 102 = true ∧
      EntityMap.at? s.main.map 102 = none ∧ s.main.valid 2 = false := by
  refine ⟨_, rfl, ?_⟩
  decide +kernel

/-- Finding. `clear_rigidbody` before the worker's answer arrives: the answer is accepted because
the entity is still valid, and the main thread keeps a mapping the worker has given up. -/
theorem clear_leaves_mapping :
    ∃ s, run (init 0 100)
        [(true, .new []), (false, .recv), (true, .clear 0), (true, .recv), (false, .recv)] =
          some s ∧ s.main.out = [] ∧ s.worker.out = [] ∧
      EntityMap.at? s.main.map 100 = some 0 ∧ EntityMap.at? s.worker.map 0 = none := by
  refine ⟨_, rfl, ?_⟩
  decide +kernel

/-- Finding. If in addition the entity is made a rigid body again, the next answer of the worker
fails the assertion of `entity_map::insert`. -/
theorem remake_fails :
    ∃ s, run (init 0 100)
        [(true, .new []), (false, .recv), (true, .clear 0), (true, .recv), (true, .remake 0 []),
         (false, .recv), (false, .recv)] = some s ∧
      step s (true, .recv) = none := by
  refine ⟨_, rfl, ?_⟩
  decide +kernel

end Edyn.Repl.Mapping
