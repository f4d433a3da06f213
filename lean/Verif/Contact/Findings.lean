import Verif.Contact.Steady
import Mathlib.Data.List.Perm.Subperm

/-!
# C33: examples, and what does not hold
-/

namespace Edyn.Contact

open Edyn.Math

variable {T : Type} [Field T] [LinearOrder T] [IsStrictOrderedRing T] {X : Type}

/-! ### Sleeping manifolds -/

/-- `narrowphase::update`, `src/edyn/collision/narrowphase.cpp` 21-40, after the tagged manifolds were
cleared: `all` are the manifolds in the registry, `awake` those that are not asleep nor disabled, and
`order` the order of the tasks. The sequential version is given the awake manifolds, the parallel one uses
a view of all manifolds, lines 45 and 68. -/
def update (mt : Bool) (awake : Nat → Bool) (e : Nat → Env T X) (res : Nat → List (Pt T X)) (all order : List Nat)
    (r : Reg (Dat T X)) : Option (Reg (Dat T X)) :=
  if mt = true ∧ (all.filter awake).length > 4 then parStep e res order all r
  else seqStep e res (all.filter awake) r

/-- The full claim: the narrowphase leaves sleeping manifolds as they are. -/
def SleepingUntouchedFull (T X : Type) [Field T] [LinearOrder T] [IsStrictOrderedRing T] : Prop :=
  ∀ (mt : Bool) (awake : Nat → Bool) (e : Nat → Env T X) (res : Nat → List (Pt T X)) (all order : List Nat)
    (r r' : Reg (Dat T X)) (f f' : Nat → List (Nat × Dat T X)), Reach r → Lists r f → all.Nodup → order.Perm all →
    (∀ m ∈ all, r.man m ≠ none) → update mt awake e res all order r = some r' → Lists r' f' →
    ∀ m, awake m = false → f' m = f m

/-- Proved for the sequential narrowphase. -/
theorem sleeping_untouched_partial {awake : Nat → Bool} {e : Nat → Env T X} {res : Nat → List (Pt T X)}
    {all order : List Nat} {r r' : Reg (Dat T X)} {f f' : Nat → List (Nat × Dat T X)} (h : Reach r) (H : Lists r f)
    (hn : all.Nodup) (hm : ∀ m ∈ all, r.man m ≠ none) (hs : update false awake e res all order r = some r')
    (H' : Lists r' f') : ∀ m, awake m = false → f' m = f m := by
  intro m hw
  have hu : update false awake e res all order r = seqStep e res (all.filter awake) r := by
    unfold update; rw [if_neg (by simp)]
  rw [hu] at hs
  obtain ⟨r1, f1, h1, h2, h3, -⟩ := narrowphase_sequential (e := e) (res := res) h H (hn.filter awake)
    fun m hmm => hm m (List.mem_of_mem_filter hmm)
  rw [hs] at h1
  cases h1
  rw [← h2.eq H']
  exact h3 m fun hmm => by rw [(List.mem_filter.1 hmm).2] at hw; cases hw

/-! ### Destroying a manifold only -/

/-- `registry.destroy` of a manifold, in `rigidbody_apply_kind`, `src/edyn/util/rigidbody.cpp` 600-602: the
contact points are left behind. -/
def dropManifold {D : Type} (r : Reg D) (m : Nat) : Reg D := { r with man := Function.update r.man m none }

/-- A body with contacts that becomes non-dynamic leaves contact points whose parent does not exist. -/
theorem kind_change_leaves_points {D : Type} {r : Reg D} {f : Nat → List (Nat × D)} {m : Nat} (H : Lists r f)
    (hne : f m ≠ []) :
    (¬ ∃ g, Lists (dropManifold r m) g) ∧ ∃ id k, (dropManifold r m).cp id = some k ∧
      (dropManifold r m).man k.parent = none ∧ destroy (dropManifold r m) id = none := by
  obtain ⟨x, hx⟩ := List.exists_mem_of_ne_nil _ hne
  obtain ⟨nx, hc⟩ := H.cp hx
  have hman : (dropManifold r m).man m = none := by simp [dropManifold]
  have hcp : (dropManifold r m).cp x.1 = some ⟨m, nx, x.2⟩ := hc
  refine ⟨?_, x.1, _, hcp, hman, ?_⟩
  · rintro ⟨g, G⟩
    have h1 := G.listed _ _ hcp
    simp only at h1
    rw [G.absent m hman] at h1
    cases h1
  · simp only [destroy, hcp, hman]

/-! ### Examples -/

/-- A point on the x axis, for bodies at the origin. -/
def onX (x : ℚ) : Pt ℚ Unit := ⟨⟨x, 0, 0⟩, ⟨x, 0, 0⟩, ()⟩

/-- Bodies that do not move apart. -/
def env : Env ℚ Unit where
  c := exC
  near := findNearest (1 / 25)
  breaks := fun _ => false

theorem getD_of_isSome {α : Type} {o : Option α} {d : α} (h : o.isSome = true) : o = some (o.getD d) := by
  cases o with
  | none => cases h
  | some a => rfl

/-- A manifold, two contacts one metre apart, and an impulse at the second. -/
def ops1 : List (Op ℚ Unit) :=
  [.make 0, .seq (fun _ => env) (fun _ => [onX 0, onX 1]) [0], .impulse 1 ⟨5, 0, 0⟩]

/-- A contact that persists: the hypotheses of `persistent_contact`. -/
example : ([onX 1, onX 0].map fun p => env.near p [onX (1 / 100), onX (101 / 100)]) = [1, 0] := by decide +kernel

/-- In the next step the result has two points close to each other, one metre further. -/
def op2 : Op ℚ Unit := .seq (fun _ => env) (fun _ => [onX 2, onX (2001 / 1000)]) [0]

def run (ops : List (Op ℚ Unit)) : Option (Reg (Dat ℚ Unit)) := ops.foldlM (fun r o => step o r) {}

def st (ops : List (Op ℚ Unit)) : Reg (Dat ℚ Unit) := (run ops).getD {}

theorem run_snoc (ops : List (Op ℚ Unit)) (o : Op ℚ Unit) (h : (run (ops ++ [o])).isSome = true) :
    step o (st ops) = some (st (ops ++ [o])) := by
  have h1 : run (ops ++ [o]) = (run ops).bind fun r => step o r := by
    simp [run, List.foldlM_append, bind, pure, Option.bind_some]
  cases hr : run ops with
  | none => rw [h1, hr] at h; cases h
  | some r =>
    have : st ops = r := by simp [st, hr]
    rw [this]
    have h2 : run (ops ++ [o]) = step o r := by rw [h1, hr]; rfl
    rw [← h2]
    exact getD_of_isSome h

theorem ops1_reach : Reach (st ops1) := by
  have h0 : Reach (st []) := .start
  have h1 : Reach (st ([] ++ [.make 0])) := h0.step (o := .make 0) rfl (run_snoc _ _ (by decide +kernel))
  have h2 : Reach (st ([.make 0] ++ [.seq (fun _ => env) (fun _ => [onX 0, onX 1]) [0]])) := by
    refine h1.step (o := .seq (fun _ => env) (fun _ => [onX 0, onX 1]) [0]) ⟨by simp, ?_⟩
      (run_snoc [.make 0] _ (by decide +kernel))
    intro m hm
    simp only [List.mem_singleton] at hm
    subst hm
    decide +kernel
  refine h2.step (o := .impulse 1 ⟨5, 0, 0⟩) ?_ (run_snoc _ _ (by decide +kernel))
  show (st ([.make 0] ++ [.seq (fun _ => env) (fun _ => [onX 0, onX 1]) [0]])).cp 1 ≠ none
  have : ((st ([.make 0] ++ [.seq (fun _ => env) (fun _ => [onX 0, onX 1]) [0]])).cp 1).isSome = true := by
    decide +kernel
  intro h
  rw [h] at this
  cases this

/-- The facts about a contact point that the examples look at. -/
def look (r : Reg (Dat ℚ Unit)) (id : Nat) : Option (Nat × V3 ℚ × V3 ℚ × Nat × V3 ℚ) :=
  (r.cp id).map fun k => (k.parent, k.data.pt.pA, k.data.pt.pB, k.data.life, k.data.imp)

example : look (st ops1) 0 = some (0, ⟨0, 0, 0⟩, ⟨0, 0, 0⟩, 0, ⟨0, 0, 0⟩) ∧
    look (st ops1) 1 = some (0, ⟨1, 0, 0⟩, ⟨1, 0, 0⟩, 0, ⟨5, 0, 0⟩) ∧ (st ops1).man 0 = some ⟨2, some 1⟩ := by
  refine ⟨?_, ?_, ?_⟩ <;> decide +kernel

/-- The contact point that was at 1 is now at 2.001, with the impulse it had at 1. -/
theorem impulse_carried_away :
    look (st (ops1 ++ [op2])) 1 = some (0, ⟨2001 / 1000, 0, 0⟩, ⟨2001 / 1000, 0, 0⟩, 1, ⟨5, 0, 0⟩) := by
  decide +kernel

theorem look_some {r : Reg (Dat ℚ Unit)} {id : Nat} {a} (h : look r id = some a) :
    ∃ k, r.cp id = some k ∧ a = (k.parent, k.data.pt.pA, k.data.pt.pB, k.data.life, k.data.imp) := by
  unfold look at h
  cases hc : r.cp id with
  | none => rw [hc] at h; cases h
  | some k => rw [hc] at h; exact ⟨k, rfl, (Option.some.inj h).symm⟩

/-- The example of `persistent_contact`. -/
def op2' : Op ℚ Unit := .seq (fun _ => env) (fun _ => [onX (1 / 100), onX (101 / 100)]) [0]

example : look (st (ops1 ++ [op2'])) 1 = some (0, ⟨101 / 100, 0, 0⟩, ⟨101 / 100, 0, 0⟩, 1, ⟨5, 0, 0⟩) ∧
    look (st (ops1 ++ [op2'])) 0 = some (0, ⟨1 / 100, 0, 0⟩, ⟨1 / 100, 0, 0⟩, 1, ⟨0, 0, 0⟩) := by
  refine ⟨?_, ?_⟩ <;> decide +kernel

/-- The full claim is false: a contact point may keep its impulses although it moved to a place far away,
namely when it was to be replaced and another point of the result is similar to its replacement. -/
theorem impulses_stay_refuted : ¬ ImpulsesStayFull ℚ Unit := by
  intro hfull
  obtain ⟨f, H, -⟩ := contact_lists ops1_reach
  have hs := run_snoc ops1 op2 (by decide +kernel)
  have hm : ∀ m ∈ [0], (st ops1).man m ≠ none := by
    intro m hm
    simp only [List.mem_singleton] at hm
    subst hm
    decide +kernel
  have hr : Reach (st (ops1 ++ [op2])) := ops1_reach.step (o := op2) ⟨by simp, hm⟩ hs
  obtain ⟨f', H', -⟩ := contact_lists hr
  have hall := hfull (st ops1) _ f f' (fun _ => env) (fun _ => [onX 2, onX (2001 / 1000)]) [0] (1 / 25) ops1_reach H
    (by simp) hm (fun _ _ _ => rfl) hs H' 0 (by simp)
  obtain ⟨k, hk, ek⟩ := look_some (show look (st ops1) 1 = some (0, ⟨1, 0, 0⟩, ⟨1, 0, 0⟩, 0, ⟨5, 0, 0⟩) by decide +kernel)
  obtain ⟨k', hk', ek'⟩ := look_some impulse_carried_away
  simp only [Prod.mk.injEq] at ek ek'
  have m1 := H.listed 1 k hk
  have m2 := H'.listed 1 k' hk'
  rw [← ek.1] at m1
  rw [← ek'.1] at m2
  rcases hall _ m2 _ m1 with h | h
  · simp only at h
    rw [h, ← ek.2.1] at ek'
    exact absurd ek'.2.1 (by decide +kernel)
  · simp only [Near] at h
    rw [← ek.2.1, ← ek.2.2.1, ← ek'.2.1, ← ek'.2.2.1] at h
    revert h
    decide +kernel

/-! Six manifolds, the last of which is asleep. -/

def ops3 : List (Op ℚ Unit) :=
  [.make 0, .make 1, .make 2, .make 3, .make 4, .make 5,
    .seq (fun _ => env) (fun _ => [onX 0]) [0, 1, 2, 3, 4, 5]]

theorem makes_reach : ∀ k : Nat, k ≤ 6 → Reach (st (ops3.take k)) ∧ ∀ m : Nat, k ≤ m → (st (ops3.take k)).man m = none := by
  intro k hk
  induction k with
  | zero => exact ⟨.start, fun _ _ => rfl⟩
  | succ k ih =>
    obtain ⟨h1, h2⟩ := ih (by omega)
    have ht : ops3.take (k + 1) = ops3.take k ++ [.make k] := by
      have : k = 0 ∨ k = 1 ∨ k = 2 ∨ k = 3 ∨ k = 4 ∨ k = 5 := by omega
      rcases this with rfl | rfl | rfl | rfl | rfl | rfl <;> rfl
    have hstep : step (.make k) (st (ops3.take k)) =
        some { (st (ops3.take k)) with man := Function.update (st (ops3.take k)).man k (some {}) } := by
      simp only [step, makeManifold, h2 k (le_refl _)]
    have hst : st (ops3.take (k + 1)) =
        { (st (ops3.take k)) with man := Function.update (st (ops3.take k)).man k (some {}) } := by
      have hrun : run (ops3.take (k + 1)) = (run (ops3.take k)).bind fun r => step (.make k) r := by
        rw [ht]; simp [run, List.foldlM_append, bind, pure, Option.bind_some]
      cases hr : run (ops3.take k) with
      | none =>
        exfalso
        have : k = 0 ∨ k = 1 ∨ k = 2 ∨ k = 3 ∨ k = 4 ∨ k = 5 := by omega
        rcases this with rfl | rfl | rfl | rfl | rfl | rfl <;> cases hr
      | some r =>
        have e1 : st (ops3.take k) = r := by simp [st, hr]
        rw [e1] at hstep ⊢
        simp only [st]
        rw [hrun, hr]
        show (step (.make k) r).getD {} = _
        rw [hstep]
        rfl
    refine ⟨?_, ?_⟩
    · rw [hst]; exact h1.step (o := .make k) (h2 k (le_refl _)) hstep
    · intro m hm
      rw [hst]
      show Function.update (st (ops3.take k)).man k (some {}) m = none
      rw [Function.update_of_ne (by omega)]
      exact h2 m (by omega)

theorem six_exist : ∀ m ∈ [0, 1, 2, 3, 4, 5], (st ops3).man m ≠ none := by
  have h : [0, 1, 2, 3, 4, 5].all (fun m => ((st ops3).man m).isSome) = true := by decide +kernel
  intro m hm e
  have := List.all_eq_true.1 h m hm
  rw [e] at this
  cases this

theorem ops3_reach : Reach (st ops3) := by
  have h6 := (makes_reach 6 (le_refl _)).1
  refine h6.step (o := .seq (fun _ => env) (fun _ => [onX 0]) [0, 1, 2, 3, 4, 5]) ⟨by simp, ?_⟩
    (run_snoc (ops3.take 6) _ (by decide +kernel))
  have h : [0, 1, 2, 3, 4, 5].all (fun m => ((st (ops3.take 6)).man m).isSome) = true := by decide +kernel
  intro m hm e
  have := List.all_eq_true.1 h m hm
  rw [e] at this
  cases this

/-- The next step, with the sixth manifold asleep. -/
def next3 (mt : Bool) : Option (Reg (Dat ℚ Unit)) :=
  update mt (fun m => decide (m ≠ 5)) (fun _ => env) (fun _ => [onX 0]) [0, 1, 2, 3, 4, 5] [3, 5, 1, 0, 4, 2] (st ops3)

example : (next3 false).bind (fun r => look r 5) = some (5, ⟨0, 0, 0⟩, ⟨0, 0, 0⟩, 0, ⟨0, 0, 0⟩) := by decide +kernel

/-- The age of the contact point of the sleeping manifold is increased in the parallel version. -/
theorem sleeping_point_ages :
    (next3 true).bind (fun r => look r 5) = some (5, ⟨0, 0, 0⟩, ⟨0, 0, 0⟩, 1, ⟨0, 0, 0⟩) := by decide +kernel

/-- The full claim is false in the parallel version. -/
theorem sleeping_untouched_refuted : ¬ SleepingUntouchedFull ℚ Unit := by
  intro hfull
  have hs := sleeping_point_ages
  cases hn : next3 true with
  | none => rw [hn] at hs; cases hs
  | some r' =>
    rw [hn] at hs
    obtain ⟨f, H, -⟩ := contact_lists ops3_reach
    have hpar : parStep (fun _ => env) (fun _ => [onX 0]) [3, 5, 1, 0, 4, 2] [0, 1, 2, 3, 4, 5] (st ops3) = some r' := by
      rw [← hn]; rfl
    have hr : Reach r' := ops3_reach.step
      (o := .par (fun _ => env) (fun _ => [onX 0]) [3, 5, 1, 0, 4, 2] [0, 1, 2, 3, 4, 5])
      ⟨by simp, by decide, six_exist⟩ hpar
    obtain ⟨f', H', -⟩ := contact_lists hr
    have := hfull true (fun m => decide (m ≠ 5)) (fun _ => env) (fun _ => [onX 0]) [0, 1, 2, 3, 4, 5] [3, 5, 1, 0, 4, 2]
      (st ops3) r' f f' ops3_reach H (by simp) (by decide) six_exist hn H' 5 (by decide)
    obtain ⟨k, hk, ek⟩ := look_some
      (show look (st ops3) 5 = some (5, ⟨0, 0, 0⟩, ⟨0, 0, 0⟩, 0, ⟨0, 0, 0⟩) by decide +kernel)
    obtain ⟨k', hk', ek'⟩ := look_some (show look r' 5 = some _ from hs)
    simp only [Prod.mk.injEq] at ek ek'
    have m1 := H.listed 5 k hk
    have m2 := H'.listed 5 k' hk'
    rw [← ek.1] at m1
    rw [← ek'.1, this] at m2
    have := (H.unique m1 m2 rfl).2
    simp only [Prod.mk.injEq, true_and] at this
    have l1 := ek.2.2.2.1
    have l2 := ek'.2.2.2.1
    rw [this, ← l2] at l1
    exact absurd l1 (by decide)

/-! A fifth point takes the place of one of the four points of a manifold. -/

def ops5 : List (Op ℚ Unit) :=
  [.make 0, .seq (fun _ => env) (fun _ => [⟨⟨0, 0, 0⟩, ⟨0, 0, 0⟩, ()⟩, ⟨⟨1, 0, 0⟩, ⟨1, 0, 0⟩, ()⟩,
    ⟨⟨1, 0, 1⟩, ⟨1, 0, 1⟩, ()⟩, ⟨⟨0, 0, 1⟩, ⟨0, 0, 1⟩, ()⟩]) [0],
    .seq (fun _ => env) (fun _ => [⟨⟨3, 0, 3⟩, ⟨3, 0, 3⟩, ()⟩]) [0]]

example : (st (ops5.take 2)).man 0 = some ⟨4, some 3⟩ ∧ (st ops5).man 0 = some ⟨4, some 4⟩ ∧
    look (st ops5) 4 = some (0, ⟨3, 0, 3⟩, ⟨3, 0, 3⟩, 0, ⟨0, 0, 0⟩) ∧
    look (st ops5) 0 = some (0, ⟨0, 0, 0⟩, ⟨0, 0, 0⟩, 1, ⟨0, 0, 0⟩) ∧ look (st ops5) 2 = none := by
  refine ⟨?_, ?_, ?_, ?_, ?_⟩ <;> decide +kernel

/-! Import. -/

/-- Both imported points have an impulse. The one that is near an existing point is taken over with it, the
other is created without. -/
def imported : Option (Reg (Dat ℚ Unit)) :=
  replaceManifold (fun p l => findNearest (1 / 25) p (l.map Dat.pt)) 0
    [⟨onX 0, 7, ⟨3, 0, 0⟩⟩, ⟨onX 9, 7, ⟨4, 0, 0⟩⟩] (st ops1)

/-- The full claim: a manifold has the imported impulses after the import. -/
def ImportImpulsesFull (T X : Type) [Field T] [LinearOrder T] [IsStrictOrderedRing T] : Prop :=
  ∀ (r r' : Reg (Dat T X)) (f' : Nat → List (Nat × Dat T X)) (near : Pt T X → List (Dat T X) → Nat) (m : Nat)
    (info : List (Dat T X)), Reach r → r.man m ≠ none → info.length ≤ 4 → replaceManifold near m info r = some r' →
    Lists r' f' → ∀ d ∈ info, ∃ x ∈ f' m, x.2.imp = d.imp

theorem import_loses_impulse :
    imported.bind (fun r => look r 0) = some (0, ⟨0, 0, 0⟩, ⟨0, 0, 0⟩, 7, ⟨3, 0, 0⟩) ∧
    imported.bind (fun r => look r 1) = none ∧
    imported.bind (fun r => look r 2) = some (0, ⟨9, 0, 0⟩, ⟨9, 0, 0⟩, 0, ⟨0, 0, 0⟩) ∧
    imported.bind (fun r => r.man 0) = some ⟨2, some 2⟩ := by
  refine ⟨?_, ?_, ?_, ?_⟩ <;> decide +kernel

theorem import_impulses_refuted : ¬ ImportImpulsesFull ℚ Unit := by
  intro hfull
  have hl := import_loses_impulse
  cases hi : imported with
  | none => rw [hi] at hl; cases hl.1
  | some r' =>
    rw [hi] at hl
    simp only [Option.bind_some] at hl
    have hm : (st ops1).man 0 ≠ none := by decide +kernel
    obtain ⟨f, H, -⟩ := contact_lists ops1_reach
    have hr : Reach r' := ops1_reach.step (o := .replace _ 0 _) ⟨hm, by decide⟩ hi
    obtain ⟨f', H', h4⟩ := contact_lists hr
    obtain ⟨x, hx, he⟩ := hfull (st ops1) r' f' _ 0 _ ops1_reach hm (by decide) hi H'
      ⟨onX 9, 7, ⟨4, 0, 0⟩⟩ (by simp)
    have hman := hl.2.2.2
    have hnum := H'.num 0 _ hman
    simp only at hnum
    obtain ⟨k0, c0, e0⟩ := look_some hl.1
    obtain ⟨k2, c2, e2⟩ := look_some hl.2.2.1
    simp only [Prod.mk.injEq] at e0 e2
    have m0 := H'.listed 0 k0 c0
    have m2 := H'.listed 2 k2 c2
    rw [← e0.1] at m0
    rw [← e2.1] at m2
    have hsub : ([(0, k0.data), (2, k2.data)] : List (Nat × Dat ℚ Unit)).Subperm (f' 0) := by
      apply List.subperm_of_subset
      · simp
      · intro y hy
        simp only [List.mem_cons, List.not_mem_nil, or_false] at hy
        rcases hy with rfl | rfl
        · exact m0
        · exact m2
    have hperm := hsub.perm_of_length_le (by simp [← hnum])
    have := hperm.mem_iff.2 hx
    simp only [List.mem_cons, List.not_mem_nil, or_false] at this
    rcases this with rfl | rfl
    · simp only at he
      rw [← e0.2.2.2.2] at he
      exact absurd he (by decide +kernel)
    · simp only at he
      rw [← e2.2.2.2.2] at he
      exact absurd he (by decide +kernel)

end Edyn.Contact
