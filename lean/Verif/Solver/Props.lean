import Verif.Solver.Spec
import Mathlib.Algebra.BigOperators.Group.List.Basic
import Mathlib.Tactic.Linarith
import Mathlib.Tactic.FieldSimp
import Mathlib.Tactic.Set
import Mathlib.Tactic.Abel

/-!
# Impulse limits, accounting and friction (C35, C36)
-/

namespace Edyn.Solver

open Edyn.Math

variable {T : Type} [Field T] [LinearOrder T] [IsStrictOrderedRing T]

/-! ### Effects -/

theorem addAt_eq (f : Nat → V3 T) (i : Nat) (x : V3 T) :
    addAt f i x = f + fun y => if y = i then x else 0 := by
  funext y
  by_cases h : y = i
  · subst h; simp [addAt]
  · simp [addAt, h]

theorem smul_smul' (a b : T) (v : V3 T) : (v.smul a).smul b = v.smul (a * b) := by
  ext <;> simp <;> ring

theorem applyImpulse_eq (p : Pair T) (J : Jac T) (d : T) (u : Vel T) :
    applyImpulse p J d u = u + effect p J d := by
  simp only [applyImpulse, addAt_eq, smul_smul', effect]
  refine Prod.ext ?_ ?_ <;> (funext x; simp [add_assoc])

theorem smul_zero' (a : T) : (0 : V3 T).smul a = 0 := by ext <;> simp

theorem applySpin_eq (p : Pair T) (jA jB : V3 T) (d : T) (u : Vel T) :
    applySpin p jA jB d u = u + effect p (angularOnly jA jB) d := by
  simp only [applySpin, addAt_eq, effect, angularOnly, smul_zero']
  refine Prod.ext ?_ ?_ <;> (funext x; simp [add_assoc])

theorem smul_add' (a b : T) (v : V3 T) : v.smul (a + b) = v.smul a + v.smul b := by
  ext <;> simp [add_mul]

theorem effect_add (p : Pair T) (J : Jac T) (d e : T) :
    effect p J (d + e) = effect p J d + effect p J e := by
  refine Prod.ext ?_ ?_ <;> funext x <;>
    simp only [effect, mul_add, smul_add', Prod.fst_add, Prod.snd_add, Pi.add_apply] <;>
    split_ifs <;> abel

theorem effect_sub (p : Pair T) (J : Jac T) (d e : T) :
    effect p J (d - e) = effect p J d - effect p J e := by
  have h := effect_add p J (d - e) e
  rw [sub_add_cancel] at h
  rw [h, add_sub_cancel_right]

/-- The effect of the two rows of a friction constraint. -/
def fricEffect (rows : List (Row T)) (f : Friction T) : Vel T :=
  match rows[f.normal]? with
  | some n => effect n.pair f.row0.J f.row0.impulse + effect n.pair f.row1.J f.row1.impulse
  | none => 0

def spinEffect (rows : List (Row T)) (s : Spin T) : Vel T :=
  match rows[s.normal]? with
  | some n => effect n.pair (angularOnly s.angA s.angB) s.impulse
  | none => 0

theorem sum_flatMap_map {α β γ : Type} [AddCommGroup γ] (l : List α) (g : α → List β) (h : β → γ) :
    ((l.flatMap g).map h).sum = (l.map fun a => ((g a).map h).sum).sum := by
  induction l with
  | nil => rfl
  | cons a l ih => simp [List.flatMap_cons, ih]

theorem totalEffect_eq (c : Cache T) :
    totalEffect c = (c.rows.map fun r => effect r.pair r.J r.impulse).sum +
      (c.friction.map (fricEffect c.rows)).sum + (c.rolling.map (fricEffect c.rows)).sum +
      (c.spinning.map (spinEffect c.rows)).sum := by
  have hf : ∀ f : Friction T, (((c.rows[f.normal]?).toList.flatMap fun n =>
      [(n.pair, f.row0.J, f.row0.impulse), (n.pair, f.row1.J, f.row1.impulse)]).map
        fun e => effect e.1 e.2.1 e.2.2).sum = fricEffect c.rows f := by
    intro f
    simp only [fricEffect]
    cases c.rows[f.normal]? <;> simp
  have hs : ∀ s : Spin T, (((c.rows[s.normal]?).toList.map fun n =>
      (n.pair, angularOnly s.angA s.angB, s.impulse)).map
        fun e => effect e.1 e.2.1 e.2.2).sum = spinEffect c.rows s := by
    intro s
    simp only [spinEffect]
    cases c.rows[s.normal]? <;> simp
  simp only [totalEffect, impulses, List.map_append, List.sum_append, sum_flatMap_map, hf, hs,
    add_assoc]
  simp only [List.map_map, Function.comp_def]

/-! ### One unit of work -/

theorem sum_set {α γ : Type} [AddCommGroup γ] (g : α → γ) (l : List α) (i : Nat) (a a' : α)
    (h : l[i]? = some a) : ((l.set i a').map g).sum = (l.map g).sum + (g a' - g a) := by
  induction l generalizing i with
  | nil => simp at h
  | cons b l ih =>
    cases i with
    | zero =>
      simp only [List.getElem?_cons_zero, Option.some.injEq] at h
      subst h
      simp only [List.set_cons_zero, List.map_cons, List.sum_cons]
      abel
    | succ i =>
      simp only [List.getElem?_cons_succ] at h
      simp only [List.set_cons_succ, List.map_cons, List.sum_cons, ih i h, add_assoc]

theorem forall₂_set {α : Type} (R : α → α → Prop) (hr : ∀ a, R a a) (l : List α) (i : Nat) (a a' : α)
    (h : l[i]? = some a) (ha : R a a') : List.Forall₂ R l (l.set i a') := by
  induction l generalizing i with
  | nil => exact .nil
  | cons b l ih =>
    cases i with
    | zero =>
      simp only [List.getElem?_cons_zero, Option.some.injEq] at h
      subst h
      exact .cons ha (List.forall₂_same.2 fun x _ => hr x)
    | succ i => exact .cons (hr b) (ih i h)

theorem Row.same_refl (r : Row T) : Row.Same r r := rfl
theorem Friction.same_refl (f : Friction T) : Friction.Same f f := rfl
theorem Spin.same_refl (f : Spin T) : Spin.Same f f := rfl

theorem Cache.same_refl (c : Cache T) : Cache.Same c c :=
  ⟨List.forall₂_same.2 fun x _ => rfl, List.forall₂_same.2 fun x _ => rfl,
    List.forall₂_same.2 fun x _ => rfl, List.forall₂_same.2 fun x _ => rfl⟩

theorem forall₂_trans {α : Type} {R : α → α → Prop} (ht : ∀ a b c, R a b → R b c → R a c)
    {l m n : List α} (h : List.Forall₂ R l m) (h' : List.Forall₂ R m n) : List.Forall₂ R l n := by
  induction h generalizing n with
  | nil => cases h'; exact .nil
  | cons hab _ ih => cases h' with | cons hbc h' => exact .cons (ht _ _ _ hab hbc) (ih h')

theorem Cache.same_trans {c d e : Cache T} (h : Cache.Same c d) (h' : Cache.Same d e) :
    Cache.Same c e := by
  refine ⟨forall₂_trans ?_ h.rows h'.rows, forall₂_trans ?_ h.friction h'.friction,
    forall₂_trans ?_ h.rolling h'.rolling, forall₂_trans ?_ h.spinning h'.spinning⟩
  all_goals
    intro a b c hab hbc
    first
      | (simp only [Row.Same] at *; rw [hbc, hab])
      | (simp only [Friction.Same] at *; rw [hbc, hab])
      | (simp only [Spin.Same] at *; rw [hbc, hab])

theorem solveRow_same (r : Row T) (u : Vel T) : Row.Same r (solveRow r u).1 := by
  simp only [solveRow]
  split
  · rfl
  · split <;> rfl

/-- The returned delta is the change of the accumulated impulse. -/
theorem solveRow_delta (r : Row T) (u : Vel T) :
    (solveRow r u).2 = (solveRow r u).1.impulse - r.impulse := by
  simp only [solveRow]
  split
  · rfl
  · split
    · rfl
    · ring

theorem solveRow_limits (r : Row T) (u : Vel T) (h : r.lower ≤ r.upper) :
    r.lower ≤ (solveRow r u).1.impulse ∧ (solveRow r u).1.impulse ≤ r.upper := by
  simp only [solveRow]
  split
  · exact ⟨le_refl _, h⟩
  · split
    · exact ⟨h, le_refl _⟩
    · rename_i h1 h2
      exact ⟨not_lt.1 h1, not_lt.1 h2⟩

theorem solveFriction_same (root : T → T) (eps : T) (f : Friction T) (n : Row T) (u : Vel T) :
    Friction.Same f (solveFriction root eps f n u).1 := by
  simp only [solveFriction]
  split <;> rfl

theorem solveFriction_vel (root : T → T) (eps : T) (f : Friction T) (n : Row T) (u : Vel T) :
    (solveFriction root eps f n u).2 = u +
      effect n.pair f.row0.J ((solveFriction root eps f n u).1.row0.impulse - f.row0.impulse) +
      effect n.pair f.row1.J ((solveFriction root eps f n u).1.row1.impulse - f.row1.impulse) := by
  simp only [solveFriction]
  split
  · simp only [applyImpulse_eq]
  · simp only [applyImpulse_eq, add_sub_cancel_left]

/-- After `solve_friction` the impulse lies in the friction circle. -/
theorem solveFriction_bound (root : T → T) (hroot : IsSqrt root) (eps : T) (heps : 0 ≤ eps)
    (f : Friction T) (n : Row T) (u : Vel T) :
    (solveFriction root eps f n u).1.row0.impulse ^ 2 + (solveFriction root eps f n u).1.row1.impulse ^ 2 ≤
      (f.coeff * n.impulse) ^ 2 := by
  simp only [solveFriction]
  split
  · dsimp only
    generalize f.row0.impulse + (f.row0.rhs - relSpeed n.pair f.row0.J u) * f.row0.effMass = x
    generalize f.row1.impulse + (f.row1.rhs - relSpeed n.pair f.row1.J u) * f.row1.effMass = y
    have h0 : 0 ≤ x * x + y * y := add_nonneg (mul_self_nonneg _) (mul_self_nonneg _)
    obtain ⟨hl, hl2⟩ := hroot _ h0
    set len := root (x * x + y * y)
    by_cases h : eps < len
    · rw [if_pos h, if_pos h]
      have hp : len ≠ 0 := ne_of_gt (lt_of_le_of_lt heps h)
      have : (x / len * (f.coeff * n.impulse)) ^ 2 + (y / len * (f.coeff * n.impulse)) ^ 2 =
          (f.coeff * n.impulse) ^ 2 := by
        have : (x / len * (f.coeff * n.impulse)) ^ 2 + (y / len * (f.coeff * n.impulse)) ^ 2 =
          (x * x + y * y) / (len * len) * (f.coeff * n.impulse) ^ 2 := by field_simp
        rw [this, hl2, div_self, one_mul]
        rw [← hl2]
        exact mul_ne_zero hp hp
      exact le_of_eq this
    · rw [if_neg h, if_neg h]
      have := sq_nonneg (f.coeff * n.impulse)
      simpa using this
  · rename_i h
    have := not_lt.1 h
    dsimp only
    linarith [this, sq (f.coeff * n.impulse)]

theorem solveSpin_same (s : Spin T) (n : Row T) (u : Vel T) : Spin.Same s (solveSpin s n u).1 := by
  simp only [solveSpin]
  split
  · rfl
  · split <;> rfl

theorem solveSpin_vel (s : Spin T) (n : Row T) (u : Vel T) :
    (solveSpin s n u).2 = u +
      effect n.pair (angularOnly s.angA s.angB) ((solveSpin s n u).1.impulse - s.impulse) := by
  simp only [solveSpin]
  split
  · simp only [applySpin_eq]
  · split
    · simp only [applySpin_eq]
    · simp only [applySpin_eq, add_sub_cancel_left]

theorem solveSpin_bound (s : Spin T) (n : Row T) (u : Vel T) (h : 0 ≤ s.coeff * n.impulse) :
    |(solveSpin s n u).1.impulse| ≤ s.coeff * n.impulse := by
  simp only [solveSpin]
  rw [abs_le]
  split
  · exact ⟨le_refl _, by dsimp only; linarith⟩
  · split
    · exact ⟨by dsimp only; linarith, le_refl _⟩
    · rename_i h1 h2
      exact ⟨not_lt.1 h1, not_lt.1 h2⟩

/-! ### Steps -/

/-- The possible results of a step. -/
theorem step_cases {root : T → T} {eps : T} {c c' : Cache T} {u u' : Vel T} {o : Op}
    (h : step root eps c u o = some (c', u')) :
    (∃ i r, o = .row i ∧ c.rows[i]? = some r ∧
      c' = { c with rows := c.rows.set i (solveRow r u).1 } ∧
      u' = applyImpulse (solveRow r u).1.pair (solveRow r u).1.J (solveRow r u).2 u) ∨
    (∃ i f n, o = .friction i ∧ c.friction[i]? = some f ∧ c.rows[f.normal]? = some n ∧
      c' = { c with friction := c.friction.set i (solveFriction root eps f n u).1 } ∧
      u' = (solveFriction root eps f n u).2) ∨
    (∃ i f n, o = .rolling i ∧ c.rolling[i]? = some f ∧ c.rows[f.normal]? = some n ∧
      c' = { c with rolling := c.rolling.set i (solveFriction root eps f n u).1 } ∧
      u' = (solveFriction root eps f n u).2) ∨
    (∃ i s n, o = .spinning i ∧ c.spinning[i]? = some s ∧ c.rows[s.normal]? = some n ∧
      c' = { c with spinning := c.spinning.set i (solveSpin s n u).1 } ∧
      u' = (solveSpin s n u).2) := by
  cases o with
  | row i =>
    refine .inl ?_
    cases hr : c.rows[i]? with
    | none => simp [step, hr] at h
    | some r =>
      simp only [step, hr, Option.bind_eq_bind, Option.bind_some, Option.some.injEq, Prod.mk.injEq] at h
      exact ⟨i, r, rfl, hr, h.1.symm, h.2.symm⟩
  | friction i =>
    refine .inr (.inl ?_)
    cases hf : c.friction[i]? with
    | none => simp [step, hf] at h
    | some f =>
      cases hn : c.rows[f.normal]? with
      | none => simp [step, hf, hn] at h
      | some n =>
        simp only [step, hf, hn, Option.bind_eq_bind, Option.bind_some, Option.some.injEq,
          Prod.mk.injEq] at h
        exact ⟨i, f, n, rfl, hf, hn, h.1.symm, h.2.symm⟩
  | rolling i =>
    refine .inr (.inr (.inl ?_))
    cases hf : c.rolling[i]? with
    | none => simp [step, hf] at h
    | some f =>
      cases hn : c.rows[f.normal]? with
      | none => simp [step, hf, hn] at h
      | some n =>
        simp only [step, hf, hn, Option.bind_eq_bind, Option.bind_some, Option.some.injEq,
          Prod.mk.injEq] at h
        exact ⟨i, f, n, rfl, hf, hn, h.1.symm, h.2.symm⟩
  | spinning i =>
    refine .inr (.inr (.inr ?_))
    cases hf : c.spinning[i]? with
    | none => simp [step, hf] at h
    | some f =>
      cases hn : c.rows[f.normal]? with
      | none => simp [step, hf, hn] at h
      | some n =>
        simp only [step, hf, hn, Option.bind_eq_bind, Option.bind_some, Option.some.injEq,
          Prod.mk.injEq] at h
        exact ⟨i, f, n, rfl, hf, hn, h.1.symm, h.2.symm⟩

theorem step_same {root : T → T} {eps : T} {c c' : Cache T} {u u' : Vel T} {o : Op}
    (h : step root eps c u o = some (c', u')) : Cache.Same c c' := by
  have hc := Cache.same_refl c
  rcases step_cases h with ⟨i, r, -, hr, rfl, -⟩ | ⟨i, f, n, -, hf, hn, rfl, -⟩ |
    ⟨i, f, n, -, hf, hn, rfl, -⟩ | ⟨i, s, n, -, hs, hn, rfl, -⟩
  · exact { hc with rows := forall₂_set _ Row.same_refl _ _ _ _ hr (solveRow_same r u) }
  · exact { hc with friction := forall₂_set _ Friction.same_refl _ _ _ _ hf (solveFriction_same ..) }
  · exact { hc with rolling := forall₂_set _ Friction.same_refl _ _ _ _ hf (solveFriction_same ..) }
  · exact { hc with spinning := forall₂_set _ Spin.same_refl _ _ _ _ hs (solveSpin_same ..) }

theorem pair_set (rows : List (Row T)) (i : Nat) (r r' : Row T) (h : rows[i]? = some r)
    (hs : Row.Same r r') (j : Nat) :
    (rows.set i r')[j]?.map (·.pair) = rows[j]?.map (·.pair) := by
  by_cases hj : i = j
  · subst hj
    have hi : i < rows.length := (List.getElem?_eq_some_iff.1 h).1
    rw [List.getElem?_set_self hi, h]
    simp only [Option.map_some]
    rw [hs]
  · rw [List.getElem?_set_ne hj]

theorem fricEffect_congr {rows rows' : List (Row T)}
    (h : ∀ j : Nat, rows'[j]?.map (·.pair) = rows[j]?.map (·.pair)) : fricEffect rows' = fricEffect rows := by
  funext f
  have := h f.normal
  simp only [fricEffect]
  cases h1 : rows[f.normal]? <;> cases h2 : rows'[f.normal]? <;> simp_all

theorem spinEffect_congr {rows rows' : List (Row T)}
    (h : ∀ j : Nat, rows'[j]?.map (·.pair) = rows[j]?.map (·.pair)) : spinEffect rows' = spinEffect rows := by
  funext f
  have := h f.normal
  simp only [spinEffect]
  cases h1 : rows[f.normal]? <;> cases h2 : rows'[f.normal]? <;> simp_all

theorem step_total {root : T → T} {eps : T} {c c' : Cache T} {u u' : Vel T} {o : Op}
    (h : step root eps c u o = some (c', u')) : u' - totalEffect c' = u - totalEffect c := by
  rcases step_cases h with ⟨i, r, -, hr, rfl, rfl⟩ | ⟨i, f, n, -, hf, hn, rfl, rfl⟩ |
    ⟨i, f, n, -, hf, hn, rfl, rfl⟩ | ⟨i, s, n, -, hs, hn, rfl, rfl⟩
  · have hsame := solveRow_same r u
    have hp := pair_set c.rows i r _ hr hsame
    simp only [totalEffect_eq, fricEffect_congr hp, spinEffect_congr hp, applyImpulse_eq,
      sum_set _ _ _ _ _ hr, solveRow_delta, effect_sub]
    have h1 : (solveRow r u).1.pair = r.pair := by rw [hsame]
    have h2 : (solveRow r u).1.J = r.J := by rw [hsame]
    rw [h1, h2]
    abel
  · have hsame := solveFriction_same root eps f n u
    have h1 : (solveFriction root eps f n u).1.normal = f.normal := by rw [hsame]
    have h2 : (solveFriction root eps f n u).1.row0.J = f.row0.J := by rw [hsame]
    have h3 : (solveFriction root eps f n u).1.row1.J = f.row1.J := by rw [hsame]
    rw [solveFriction_vel]
    simp only [totalEffect_eq, sum_set _ _ _ _ _ hf, effect_sub]
    simp only [fricEffect, h1, hn, h2, h3]
    abel
  · have hsame := solveFriction_same root eps f n u
    have h1 : (solveFriction root eps f n u).1.normal = f.normal := by rw [hsame]
    have h2 : (solveFriction root eps f n u).1.row0.J = f.row0.J := by rw [hsame]
    have h3 : (solveFriction root eps f n u).1.row1.J = f.row1.J := by rw [hsame]
    rw [solveFriction_vel]
    simp only [totalEffect_eq, sum_set _ _ _ _ _ hf, effect_sub]
    simp only [fricEffect, h1, hn, h2, h3]
    abel
  · have hsame := solveSpin_same s n u
    have h1 : (solveSpin s n u).1.normal = s.normal := by rw [hsame]
    have h2 : (solveSpin s n u).1.angA = s.angA := by rw [hsame]
    have h3 : (solveSpin s n u).1.angB = s.angB := by rw [hsame]
    rw [solveSpin_vel]
    simp only [totalEffect_eq, sum_set _ _ _ _ _ hs, effect_sub]
    simp only [spinEffect, h1, hn, h2, h3]
    abel

theorem run_cons {root : T → T} {eps : T} {o : Op} {os : List Op} {s s' : Cache T × Vel T}
    (h : run root eps (o :: os) s = some s') :
    ∃ s1, step root eps s.1 s.2 o = some s1 ∧ run root eps os s1 = some s' :=
  Option.bind_eq_some_iff.1 h

theorem run_append (root : T → T) (eps : T) (os ps : List Op) (s : Cache T × Vel T) :
    run root eps (os ++ ps) s = (run root eps os s).bind (run root eps ps) := by
  induction os generalizing s with
  | nil => rfl
  | cons o os ih =>
    simp only [List.cons_append, run]
    cases step root eps s.1 s.2 o with
    | none => rfl
    | some s1 => simp [ih]

theorem run_same {root : T → T} {eps : T} {os : List Op} {s s' : Cache T × Vel T}
    (h : run root eps os s = some s') : Cache.Same s.1 s'.1 := by
  induction os generalizing s with
  | nil => cases h; exact Cache.same_refl _
  | cons o os ih =>
    obtain ⟨s1, h1, h2⟩ := run_cons h
    exact Cache.same_trans (step_same h1) (ih h2)

theorem run_total {root : T → T} {eps : T} {os : List Op} {s s' : Cache T × Vel T}
    (h : run root eps os s = some s') : s'.2 - totalEffect s'.1 = s.2 - totalEffect s.1 := by
  induction os generalizing s with
  | nil => cases h; rfl
  | cons o os ih =>
    obtain ⟨s1, h1, h2⟩ := run_cons h
    rw [ih h2, step_total h1]

theorem row_of_same {c c' : Cache T} (h : Cache.Same c c') {i : Nat} {r' : Row T}
    (hr : c'.rows[i]? = some r') : ∃ r, c.rows[i]? = some r ∧ Row.Same r r' := by
  have := h.rows
  obtain ⟨hi, rfl⟩ := List.getElem?_eq_some_iff.1 hr
  have hl := this.length_eq
  refine ⟨c.rows[i], by simp [hl, hi], ?_⟩
  exact (List.forall₂_iff_get.1 this).2 i _ _

/-! ### Warm starting -/

theorem foldl_apply (rows : List (Row T)) (u : Vel T) :
    rows.foldl (fun u r => applyImpulse r.pair r.J r.impulse u) u =
      u + (rows.map fun r => effect r.pair r.J r.impulse).sum := by
  induction rows generalizing u with
  | nil => simp
  | cons r rows ih =>
    rw [List.foldl_cons, ih, applyImpulse_eq, List.map_cons, List.sum_cons, add_assoc]

theorem foldlM_friction (rows : List (Row T)) (fs : List (Friction T)) (u u' : Vel T)
    (h : fs.foldlM (fun u f => warmFriction rows f u) u = some u') :
    u' = u + (fs.map (fricEffect rows)).sum ∧ ∀ f ∈ fs, f.normal < rows.length := by
  induction fs generalizing u with
  | nil => simp at h; simp [h]
  | cons f fs ih =>
    simp only [List.foldlM_cons, warmFriction, Option.bind_eq_bind] at h
    cases hn : rows[f.normal]? with
    | none => simp [hn] at h
    | some n =>
      simp only [hn, Option.bind_some] at h
      obtain ⟨h1, h2⟩ := ih _ h
      refine ⟨?_, ?_⟩
      · rw [h1]
        simp only [applyImpulse_eq, List.map_cons, List.sum_cons, fricEffect, hn]
        abel
      · intro g hg
        rcases List.mem_cons.1 hg with rfl | hg
        · exact (List.getElem?_eq_some_iff.1 hn).1
        · exact h2 g hg

theorem foldlM_spin (rows : List (Row T)) (fs : List (Spin T)) (u u' : Vel T)
    (h : fs.foldlM (fun u f => warmSpin rows f u) u = some u') :
    u' = u + (fs.map (spinEffect rows)).sum ∧ ∀ f ∈ fs, f.normal < rows.length := by
  induction fs generalizing u with
  | nil => simp at h; simp [h]
  | cons f fs ih =>
    simp only [List.foldlM_cons, warmSpin, Option.bind_eq_bind] at h
    cases hn : rows[f.normal]? with
    | none => simp [hn] at h
    | some n =>
      simp only [hn, Option.bind_some] at h
      obtain ⟨h1, h2⟩ := ih _ h
      refine ⟨?_, ?_⟩
      · rw [h1]
        simp only [applySpin_eq, List.map_cons, List.sum_cons, spinEffect, hn]
        abel
      · intro g hg
        rcases List.mem_cons.1 hg with rfl | hg
        · exact (List.getElem?_eq_some_iff.1 hn).1
        · exact h2 g hg

/-- Every friction constraint of a cache refers to an existing row. -/
def Cache.Valid (c : Cache T) : Prop :=
  (∀ f ∈ c.friction ++ c.rolling, f.normal < c.rows.length) ∧ ∀ s ∈ c.spinning, s.normal < c.rows.length

theorem warmStart_total {c : Cache T} {u u' : Vel T} (h : warmStart c u = some u') :
    u' = u + totalEffect c ∧ c.Valid := by
  simp only [warmStart, Option.bind_eq_bind] at h
  obtain ⟨u2, h2, h⟩ := Option.bind_eq_some_iff.1 h
  obtain ⟨u3, h3, h4⟩ := Option.bind_eq_some_iff.1 h
  obtain ⟨e2, v2⟩ := foldlM_friction _ _ _ _ h2
  obtain ⟨e3, v3⟩ := foldlM_friction _ _ _ _ h3
  obtain ⟨e4, v4⟩ := foldlM_spin _ _ _ _ h4
  refine ⟨?_, ?_, v4⟩
  · rw [e4, e3, e2, foldl_apply, totalEffect_eq]
    abel
  · intro f hf
    rcases List.mem_append.1 hf with hf | hf
    · exact v2 f hf
    · exact v3 f hf

/-! ### Limits -/

/-- Row `i` is within its limits. -/
def InLimits (i : Nat) (c : Cache T) : Prop :=
  ∀ r, c.rows[i]? = some r → r.lower ≤ r.upper → r.lower ≤ r.impulse ∧ r.impulse ≤ r.upper

theorem step_row_limits {root : T → T} {eps : T} {c c' : Cache T} {u u' : Vel T} {i : Nat}
    (h : step root eps c u (.row i) = some (c', u')) : InLimits i c' := by
  rcases step_cases h with ⟨j, r, ho, hr, rfl, -⟩ | ⟨_, _, _, ho, _⟩ | ⟨_, _, _, ho, _⟩ | ⟨_, _, _, ho, _⟩
  · cases ho
    intro r' hr' hle
    rw [List.getElem?_set_self (List.getElem?_eq_some_iff.1 hr).1] at hr'
    cases hr'
    have hs := solveRow_same r u
    have hl : (solveRow r u).1.lower = r.lower := by rw [hs]
    have hu : (solveRow r u).1.upper = r.upper := by rw [hs]
    rw [hl, hu] at hle ⊢
    exact solveRow_limits r u hle
  all_goals cases ho

theorem step_limits {root : T → T} {eps : T} {c c' : Cache T} {u u' : Vel T} {o : Op} {i : Nat}
    (h : step root eps c u o = some (c', u')) (hi : InLimits i c) : InLimits i c' := by
  by_cases ho : o = .row i
  · subst ho
    exact step_row_limits h
  · rcases step_cases h with ⟨j, r, ho', hr, rfl, -⟩ | ⟨j, f, n, -, hf, hn, rfl, -⟩ |
      ⟨j, f, n, -, hf, hn, rfl, -⟩ | ⟨j, s, n, -, hs, hn, rfl, -⟩
    · subst ho'
      have hj : j ≠ i := fun e => ho (by rw [e])
      intro r' hr'
      rw [List.getElem?_set_ne hj] at hr'
      exact hi r' hr'
    all_goals exact hi

theorem run_limits_mono {root : T → T} {eps : T} {os : List Op} {s s' : Cache T × Vel T} {i : Nat}
    (h : run root eps os s = some s') (hi : InLimits i s.1) : InLimits i s'.1 := by
  induction os generalizing s with
  | nil => cases h; exact hi
  | cons o os ih =>
    obtain ⟨s1, h1, h2⟩ := run_cons h
    exact ih h2 (step_limits h1 hi)

theorem run_limits {root : T → T} {eps : T} {os : List Op} {s s' : Cache T × Vel T} {i : Nat}
    (h : run root eps os s = some s') (hi : Op.row i ∈ os) : InLimits i s'.1 := by
  induction os generalizing s with
  | nil => cases hi
  | cons o os ih =>
    obtain ⟨s1, h1, h2⟩ := run_cons h
    rcases List.mem_cons.1 hi with rfl | hi
    · exact run_limits_mono h2 (step_row_limits h1)
    · exact ih h2 hi

/-- **C35.** Warm start a cache and let the solver visit its rows any number of times, in any order.
Then every row that was visited has its accumulated impulse between its limits, and the velocity of
every body is its original velocity plus the effect of the accumulated impulses: the deltas that were
applied on the way add up to the accumulated impulses.  Nothing but the accumulated impulses changed. -/
theorem impulses_within_limits_and_accounted (root : T → T) (eps : T) (c c' : Cache T)
    (u₀ u u' : Vel T) (ops : List Op) (hw : warmStart c u₀ = some u)
    (h : run root eps ops (c, u) = some (c', u')) :
    (∀ i r, c'.rows[i]? = some r → Op.row i ∈ ops → r.lower ≤ r.upper →
      r.lower ≤ r.impulse ∧ r.impulse ≤ r.upper) ∧
    u' = u₀ + ((impulses c').map fun e => effect e.1 e.2.1 e.2.2).sum ∧ Cache.Same c c' := by
  refine ⟨fun i r hr hi hle => run_limits h hi r hr hle, ?_, run_same h⟩
  have h1 := run_total h
  have h2 := (warmStart_total hw).1
  simp only at h1
  rw [h2, add_sub_cancel_right] at h1
  rw [← h1]
  exact (sub_add_cancel _ _).symm

/-! ### The iterations of the island solver -/

theorem iterate_run {root : T → T} {eps : T} {k : Nat} {s s' : Cache T × Vel T}
    (h : iterate root eps k s = some s') : ∃ os, run root eps os s = some s' ∧
      (0 < k → ∀ i < s.1.rows.length, Op.row i ∈ os) := by
  induction k generalizing s with
  | zero => exact ⟨[], h, by omega⟩
  | succ k ih =>
    obtain ⟨s1, h1, h2⟩ := Option.bind_eq_some_iff.1 h
    obtain ⟨os, h3, -⟩ := ih h2
    refine ⟨islandOrder s.1 ++ os, ?_, ?_⟩
    · rw [run_append]
      simp only [solve] at h1
      rw [h1]
      exact h3
    · intro _ i hi
      simp [islandOrder, hi]

/-- **C35** for the calls the solver makes: after warm starting and one or more iterations, every row is
within its limits and the velocities are accounted for. -/
theorem island_solver_impulses (root : T → T) (eps : T) (c c' : Cache T) (u₀ u u' : Vel T) (k : Nat)
    (hw : warmStart c u₀ = some u) (h : iterate root eps k (c, u) = some (c', u')) :
    (0 < k → ∀ r ∈ c'.rows, r.lower ≤ r.upper → r.lower ≤ r.impulse ∧ r.impulse ≤ r.upper) ∧
    u' = u₀ + ((impulses c').map fun e => effect e.1 e.2.1 e.2.2).sum ∧ Cache.Same c c' := by
  obtain ⟨os, hr, hmem⟩ := iterate_run h
  obtain ⟨h1, h2, h3⟩ := impulses_within_limits_and_accounted root eps c c' u₀ u u' os hw hr
  refine ⟨?_, h2, h3⟩
  intro hk r hrm
  obtain ⟨i, hi, rfl⟩ := List.mem_iff_getElem.1 hrm
  exact h1 i _ (List.getElem?_eq_some_iff.2 ⟨hi, rfl⟩) (hmem hk i (by rw [h3.rows.length_eq]; exact hi))

theorem Cache.Same.valid {c c' : Cache T} (h : Cache.Same c c') (hv : c.Valid) : c'.Valid := by
  have hl := h.rows.length_eq
  have key : ∀ {l l' : List (Friction T)}, List.Forall₂ Friction.Same l l' →
      (∀ f ∈ l, f.normal < c.rows.length) → ∀ f ∈ l', f.normal < c'.rows.length := by
    intro l l' hf
    induction hf with
    | nil => simp
    | cons hab _ ih =>
      intro hall f hf
      rcases List.mem_cons.1 hf with rfl | hf
      · have := hall _ List.mem_cons_self
        rw [hab, ← hl]
        exact this
      · exact ih (fun g hg => hall g (List.mem_cons_of_mem _ hg)) f hf
  have keys : ∀ {l l' : List (Spin T)}, List.Forall₂ Spin.Same l l' →
      (∀ f ∈ l, f.normal < c.rows.length) → ∀ f ∈ l', f.normal < c'.rows.length := by
    intro l l' hf
    induction hf with
    | nil => simp
    | cons hab _ ih =>
      intro hall f hf
      rcases List.mem_cons.1 hf with rfl | hf
      · have := hall _ List.mem_cons_self
        rw [hab, ← hl]
        exact this
      · exact ih (fun g hg => hall g (List.mem_cons_of_mem _ hg)) f hf
  refine ⟨?_, keys h.spinning hv.2⟩
  intro f hf
  rcases List.mem_append.1 hf with hf | hf
  · exact key h.friction (fun g hg => hv.1 g (List.mem_append_left _ hg)) f hf
  · exact key h.rolling (fun g hg => hv.1 g (List.mem_append_right _ hg)) f hf

/-- An operation on an existing row. -/
def Op.Valid (c : Cache T) : Op → Prop
  | .row i => i < c.rows.length
  | .friction i => i < c.friction.length
  | .rolling i => i < c.rolling.length
  | .spinning i => i < c.spinning.length

theorem step_succeeds (root : T → T) (eps : T) (c : Cache T) (u : Vel T) (o : Op) (hv : c.Valid)
    (ho : o.Valid c) : ∃ s, step root eps c u o = some s := by
  cases o with
  | row i =>
    simp only [Op.Valid] at ho
    simp [step, List.getElem?_eq_getElem ho]
  | friction i =>
    simp only [Op.Valid] at ho
    have := hv.1 c.friction[i] (by simp)
    simp [step, List.getElem?_eq_getElem ho, List.getElem?_eq_getElem this]
  | rolling i =>
    simp only [Op.Valid] at ho
    have := hv.1 c.rolling[i] (by simp)
    simp [step, List.getElem?_eq_getElem ho, List.getElem?_eq_getElem this]
  | spinning i =>
    simp only [Op.Valid] at ho
    have := hv.2 c.spinning[i] (by simp)
    simp [step, List.getElem?_eq_getElem ho, List.getElem?_eq_getElem this]

theorem Cache.Same.op_valid {c c' : Cache T} (h : Cache.Same c c') {o : Op} (ho : o.Valid c) :
    o.Valid c' := by
  cases o with
  | row i => exact (show i < c'.rows.length from h.rows.length_eq ▸ (show i < c.rows.length from ho))
  | friction i => exact (show i < c'.friction.length from h.friction.length_eq ▸ (show i < c.friction.length from ho))
  | rolling i => exact (show i < c'.rolling.length from h.rolling.length_eq ▸ (show i < c.rolling.length from ho))
  | spinning i => exact (show i < c'.spinning.length from h.spinning.length_eq ▸ (show i < c.spinning.length from ho))

theorem run_succeeds (root : T → T) (eps : T) (os : List Op) (s : Cache T × Vel T) (hv : s.1.Valid)
    (ho : ∀ o ∈ os, o.Valid s.1) : ∃ s', run root eps os s = some s' := by
  induction os generalizing s with
  | nil => exact ⟨s, rfl⟩
  | cons o os ih =>
    obtain ⟨s1, h1⟩ := step_succeeds root eps s.1 s.2 o hv (ho o List.mem_cons_self)
    have hs := step_same h1
    obtain ⟨s', h2⟩ := ih s1 (hs.valid hv) fun p hp => hs.op_valid (ho p (List.mem_cons_of_mem _ hp))
    exact ⟨s', by simp [run, h1, h2]⟩

theorem islandOrder_valid (c : Cache T) : ∀ o ∈ islandOrder c, o.Valid c := by
  intro o ho
  simp only [islandOrder, List.mem_append, List.mem_map, List.mem_range] at ho
  rcases ho with ((⟨i, hi, rfl⟩ | ⟨i, hi, rfl⟩) | ⟨i, hi, rfl⟩) | ⟨i, hi, rfl⟩ <;> exact hi

/-- No access beyond the end of the row array: if warm starting went well, so does any number of
iterations. -/
theorem iterate_succeeds (root : T → T) (eps : T) (c : Cache T) (u₀ u : Vel T) (k : Nat)
    (hw : warmStart c u₀ = some u) : ∃ s', iterate root eps k (c, u) = some s' := by
  have hv := (warmStart_total hw).2
  clear hw
  suffices ∀ s : Cache T × Vel T, s.1.Valid → ∃ s', iterate root eps k s = some s' from this (c, u) hv
  induction k with
  | zero => exact fun s _ => ⟨s, rfl⟩
  | succ k ih =>
    intro s hs
    obtain ⟨s1, h1⟩ := run_succeeds root eps (islandOrder s.1) s hs (islandOrder_valid s.1)
    obtain ⟨s', h2⟩ := ih s1 ((run_same h1).valid hs)
    exact ⟨s', by simp [iterate, solve, h1, h2]⟩

/-! ### Friction -/

/-- The `i`-th friction constraint is inside its circle. -/
def InCircle (get : Cache T → List (Friction T)) (i : Nat) (c : Cache T) : Prop :=
  ∀ f n, (get c)[i]? = some f → c.rows[f.normal]? = some n →
    f.row0.impulse ^ 2 + f.row1.impulse ^ 2 ≤ (f.coeff * n.impulse) ^ 2

def SpinOk (i : Nat) (c : Cache T) : Prop :=
  ∀ s n, c.spinning[i]? = some s → c.rows[s.normal]? = some n → 0 ≤ s.coeff * n.impulse →
    |s.impulse| ≤ s.coeff * n.impulse

theorem getElem?_set_some {α : Type} {l : List α} {i j : Nat} {a b : α} (h : (l.set i a)[j]? = some b) :
    (i = j ∧ b = a) ∨ (i ≠ j ∧ l[j]? = some b) := by
  by_cases hij : i = j
  · subst hij
    left
    have : i < l.length := by
      have := (List.getElem?_eq_some_iff.1 h).1
      simpa using this
    rw [List.getElem?_set_self this] at h
    exact ⟨rfl, (Option.some.inj h).symm⟩
  · right
    rw [List.getElem?_set_ne hij] at h
    exact ⟨hij, h⟩

theorem solveFriction_circle {root : T → T} (hroot : IsSqrt root) {eps : T} (heps : 0 ≤ eps)
    {f : Friction T} {n n' : Row T} {u : Vel T} {rows : List (Row T)}
    (hn : rows[f.normal]? = some n)
    (hn' : rows[(solveFriction root eps f n u).1.normal]? = some n') :
    (solveFriction root eps f n u).1.row0.impulse ^ 2 + (solveFriction root eps f n u).1.row1.impulse ^ 2 ≤
      ((solveFriction root eps f n u).1.coeff * n'.impulse) ^ 2 := by
  have hs := solveFriction_same root eps f n u
  have h1 : (solveFriction root eps f n u).1.normal = f.normal := by rw [hs]
  have h2 : (solveFriction root eps f n u).1.coeff = f.coeff := by rw [hs]
  rw [h1, hn] at hn'
  cases hn'
  rw [h2]
  exact solveFriction_bound root hroot eps heps f n u

theorem step_circle {root : T → T} (hroot : IsSqrt root) {eps : T} (heps : 0 ≤ eps) {c c' : Cache T}
    {u u' : Vel T} {o : Op} {i : Nat} (h : step root eps c u o = some (c', u'))
    (hi : o = .friction i ∨ (InCircle Cache.friction i c ∧
      ∀ f, c.friction[i]? = some f → o ≠ .row f.normal)) : InCircle Cache.friction i c' := by
  intro f' n' hf' hn'
  rcases step_cases h with ⟨j, r, rfl, hr, rfl, -⟩ | ⟨j, f, n, rfl, hf, hn, rfl, -⟩ |
      ⟨j, f, n, rfl, hf, hn, rfl, -⟩ | ⟨j, s, n, rfl, hs, hn, rfl, -⟩
  · rcases hi with hi | ⟨hc, hne⟩
    · cases hi
    · rcases getElem?_set_some hn' with ⟨rfl, -⟩ | ⟨-, hn'⟩
      · exact absurd rfl (hne f' hf')
      · exact hc f' n' hf' hn'
  · rcases getElem?_set_some hf' with ⟨rfl, rfl⟩ | ⟨hne, hf'⟩
    · exact solveFriction_circle hroot heps hn hn'
    · rcases hi with hi | ⟨hc, -⟩
      · cases hi; exact absurd rfl hne
      · exact hc f' n' hf' hn'
  · rcases hi with hi | ⟨hc, -⟩
    · cases hi
    · exact hc f' n' hf' hn'
  · rcases hi with hi | ⟨hc, -⟩
    · cases hi
    · exact hc f' n' hf' hn'

theorem step_circle_rolling {root : T → T} (hroot : IsSqrt root) {eps : T} (heps : 0 ≤ eps)
    {c c' : Cache T} {u u' : Vel T} {o : Op} {i : Nat} (h : step root eps c u o = some (c', u'))
    (hi : o = .rolling i ∨ (InCircle Cache.rolling i c ∧
      ∀ f, c.rolling[i]? = some f → o ≠ .row f.normal)) : InCircle Cache.rolling i c' := by
  intro f' n' hf' hn'
  rcases step_cases h with ⟨j, r, rfl, hr, rfl, -⟩ | ⟨j, f, n, rfl, hf, hn, rfl, -⟩ |
      ⟨j, f, n, rfl, hf, hn, rfl, -⟩ | ⟨j, s, n, rfl, hs, hn, rfl, -⟩
  · rcases hi with hi | ⟨hc, hne⟩
    · cases hi
    · rcases getElem?_set_some hn' with ⟨rfl, -⟩ | ⟨-, hn'⟩
      · exact absurd rfl (hne f' hf')
      · exact hc f' n' hf' hn'
  · rcases hi with hi | ⟨hc, -⟩
    · cases hi
    · exact hc f' n' hf' hn'
  · rcases getElem?_set_some hf' with ⟨rfl, rfl⟩ | ⟨hne, hf'⟩
    · exact solveFriction_circle hroot heps hn hn'
    · rcases hi with hi | ⟨hc, -⟩
      · cases hi; exact absurd rfl hne
      · exact hc f' n' hf' hn'
  · rcases hi with hi | ⟨hc, -⟩
    · cases hi
    · exact hc f' n' hf' hn'

theorem step_spin {root : T → T} {eps : T} {c c' : Cache T} {u u' : Vel T} {o : Op} {i : Nat}
    (h : step root eps c u o = some (c', u'))
    (hi : o = .spinning i ∨ (SpinOk i c ∧ ∀ f, c.spinning[i]? = some f → o ≠ .row f.normal)) :
    SpinOk i c' := by
  intro f' n' hf' hn' hpos
  rcases step_cases h with ⟨j, r, rfl, hr, rfl, -⟩ | ⟨j, f, n, rfl, hf, hn, rfl, -⟩ |
      ⟨j, f, n, rfl, hf, hn, rfl, -⟩ | ⟨j, s, n, rfl, hs, hn, rfl, -⟩
  · rcases hi with hi | ⟨hc, hne⟩
    · cases hi
    · rcases getElem?_set_some hn' with ⟨rfl, -⟩ | ⟨-, hn'⟩
      · exact absurd rfl (hne f' hf')
      · exact hc f' n' hf' hn' hpos
  · rcases hi with hi | ⟨hc, -⟩
    · cases hi
    · exact hc f' n' hf' hn' hpos
  · rcases hi with hi | ⟨hc, -⟩
    · cases hi
    · exact hc f' n' hf' hn' hpos
  · rcases getElem?_set_some hf' with ⟨rfl, rfl⟩ | ⟨hne, hf'⟩
    · have hsame := solveSpin_same s n u
      have h1 : (solveSpin s n u).1.normal = s.normal := by rw [hsame]
      have h2 : (solveSpin s n u).1.coeff = s.coeff := by rw [hsame]
      rw [h1] at hn'
      simp only at hn'
      rw [hn] at hn'
      cases hn'
      rw [h2] at hpos ⊢
      exact solveSpin_bound _ _ _ hpos
    · rcases hi with hi | ⟨hc, -⟩
      · cases hi; exact absurd rfl hne
      · exact hc f' n' hf' hn' hpos

theorem getElem?_same {α : Type} {R : α → α → Prop} {l l' : List α} (h : List.Forall₂ R l l') {i : Nat}
    {a' : α} (ha : l'[i]? = some a') : ∃ a, l[i]? = some a ∧ R a a' := by
  obtain ⟨hi, rfl⟩ := List.getElem?_eq_some_iff.1 ha
  have hl := h.length_eq
  exact ⟨l[i], by simp [hl, hi], (List.forall₂_iff_get.1 h).2 i _ _⟩

theorem getElem?_same' {α : Type} {R : α → α → Prop} {l l' : List α} (h : List.Forall₂ R l l') {i : Nat}
    {a : α} (ha : l[i]? = some a) : ∃ a', l'[i]? = some a' ∧ R a a' := by
  obtain ⟨hi, rfl⟩ := List.getElem?_eq_some_iff.1 ha
  have hl := h.length_eq
  exact ⟨l'[i], by simp [← hl, hi], (List.forall₂_iff_get.1 h).2 i _ _⟩

theorem run_circle {root : T → T} (hroot : IsSqrt root) {eps : T} (heps : 0 ≤ eps) {os : List Op}
    {s s' : Cache T × Vel T} {i : Nat} (h : run root eps os s = some s')
    (hc : InCircle Cache.friction i s.1)
    (hne : ∀ f, s.1.friction[i]? = some f → Op.row f.normal ∉ os) : InCircle Cache.friction i s'.1 := by
  induction os generalizing s with
  | nil => cases h; exact hc
  | cons o os ih =>
    obtain ⟨s1, h1, h2⟩ := run_cons h
    refine ih h2 (step_circle hroot heps h1 (.inr ⟨hc, ?_⟩)) ?_
    · intro f hf e
      exact hne f hf (e ▸ List.mem_cons_self)
    · intro f hf hm
      obtain ⟨g, hg, hs⟩ := getElem?_same (step_same h1).friction hf
      have : f.normal = g.normal := by rw [hs]
      rw [this] at hm
      exact hne g hg (List.mem_cons_of_mem _ hm)

theorem run_circle_rolling {root : T → T} (hroot : IsSqrt root) {eps : T} (heps : 0 ≤ eps)
    {os : List Op} {s s' : Cache T × Vel T} {i : Nat} (h : run root eps os s = some s')
    (hc : InCircle Cache.rolling i s.1)
    (hne : ∀ f, s.1.rolling[i]? = some f → Op.row f.normal ∉ os) : InCircle Cache.rolling i s'.1 := by
  induction os generalizing s with
  | nil => cases h; exact hc
  | cons o os ih =>
    obtain ⟨s1, h1, h2⟩ := run_cons h
    refine ih h2 (step_circle_rolling hroot heps h1 (.inr ⟨hc, ?_⟩)) ?_
    · intro f hf e
      exact hne f hf (e ▸ List.mem_cons_self)
    · intro f hf hm
      obtain ⟨g, hg, hs⟩ := getElem?_same (step_same h1).rolling hf
      have : f.normal = g.normal := by rw [hs]
      rw [this] at hm
      exact hne g hg (List.mem_cons_of_mem _ hm)

theorem run_spin {root : T → T} {eps : T} {os : List Op} {s s' : Cache T × Vel T} {i : Nat}
    (h : run root eps os s = some s') (hc : SpinOk i s.1)
    (hne : ∀ f, s.1.spinning[i]? = some f → Op.row f.normal ∉ os) : SpinOk i s'.1 := by
  induction os generalizing s with
  | nil => cases h; exact hc
  | cons o os ih =>
    obtain ⟨s1, h1, h2⟩ := run_cons h
    refine ih h2 (step_spin h1 (.inr ⟨hc, ?_⟩)) ?_
    · intro f hf e
      exact hne f hf (e ▸ List.mem_cons_self)
    · intro f hf hm
      obtain ⟨g, hg, hs⟩ := getElem?_same (step_same h1).spinning hf
      have : f.normal = g.normal := by rw [hs]
      rw [this] at hm
      exact hne g hg (List.mem_cons_of_mem _ hm)

/-- **C36.** In any sequence of solver visits, once a friction constraint has been solved its impulse
stays inside the circle of radius friction coefficient times normal impulse until the normal row is
solved again. -/
theorem friction_in_circle (root : T → T) (hroot : IsSqrt root) (eps : T) (heps : 0 ≤ eps)
    (pre post : List Op) (s s' : Cache T × Vel T) (i : Nat) (f : Friction T) (n : Row T)
    (h : run root eps (pre ++ .friction i :: post) s = some s')
    (hf : s'.1.friction[i]? = some f) (hn : s'.1.rows[f.normal]? = some n)
    (hpost : Op.row f.normal ∉ post) :
    f.row0.impulse ^ 2 + f.row1.impulse ^ 2 ≤ (f.coeff * n.impulse) ^ 2 := by
  rw [run_append] at h
  obtain ⟨s1, -, h⟩ := Option.bind_eq_some_iff.1 h
  obtain ⟨s2, h2, h3⟩ := run_cons h
  refine run_circle hroot heps h3 (step_circle hroot heps h2 (.inl rfl)) ?_ f n hf hn
  intro g hg
  obtain ⟨g', hg', hs⟩ := getElem?_same' (run_same h3).friction hg
  rw [hf] at hg'
  cases hg'
  have : f.normal = g.normal := by rw [hs]
  rwa [← this]

theorem rolling_in_circle (root : T → T) (hroot : IsSqrt root) (eps : T) (heps : 0 ≤ eps)
    (pre post : List Op) (s s' : Cache T × Vel T) (i : Nat) (f : Friction T) (n : Row T)
    (h : run root eps (pre ++ .rolling i :: post) s = some s')
    (hf : s'.1.rolling[i]? = some f) (hn : s'.1.rows[f.normal]? = some n)
    (hpost : Op.row f.normal ∉ post) :
    f.row0.impulse ^ 2 + f.row1.impulse ^ 2 ≤ (f.coeff * n.impulse) ^ 2 := by
  rw [run_append] at h
  obtain ⟨s1, -, h⟩ := Option.bind_eq_some_iff.1 h
  obtain ⟨s2, h2, h3⟩ := run_cons h
  refine run_circle_rolling hroot heps h3 (step_circle_rolling hroot heps h2 (.inl rfl)) ?_ f n hf hn
  intro g hg
  obtain ⟨g', hg', hs⟩ := getElem?_same' (run_same h3).rolling hg
  rw [hf] at hg'
  cases hg'
  have : f.normal = g.normal := by rw [hs]
  rwa [← this]

theorem spin_in_limit (root : T → T) (eps : T)
    (pre post : List Op) (s s' : Cache T × Vel T) (i : Nat) (f : Spin T) (n : Row T)
    (h : run root eps (pre ++ .spinning i :: post) s = some s')
    (hf : s'.1.spinning[i]? = some f) (hn : s'.1.rows[f.normal]? = some n)
    (hpost : Op.row f.normal ∉ post) (hpos : 0 ≤ f.coeff * n.impulse) :
    |f.impulse| ≤ f.coeff * n.impulse := by
  rw [run_append] at h
  obtain ⟨s1, -, h⟩ := Option.bind_eq_some_iff.1 h
  obtain ⟨s2, h2, h3⟩ := run_cons h
  refine run_spin h3 (step_spin h2 (.inl rfl)) ?_ f n hf hn hpos
  intro g hg
  obtain ⟨g', hg', hs⟩ := getElem?_same' (run_same h3).spinning hg
  rw [hf] at hg'
  cases hg'
  have : f.normal = g.normal := by rw [hs]
  rwa [← this]

theorem iterate_last {root : T → T} {eps : T} {k : Nat} {s s' : Cache T × Vel T}
    (h : iterate root eps (k + 1) s = some s') :
    ∃ s1, solve root eps s1 = some s' ∧ Cache.Same s1.1 s'.1 := by
  induction k generalizing s with
  | zero =>
    obtain ⟨s1, h1, h2⟩ := Option.bind_eq_some_iff.1 h
    cases h2
    exact ⟨s, h1, run_same h1⟩
  | succ k ih =>
    obtain ⟨s1, h1, h2⟩ := Option.bind_eq_some_iff.1 h
    exact ih h2

theorem range_split {n i : Nat} (h : i < n) (g : Nat → Op) :
    ∃ pre post, (List.range n).map g = pre ++ g i :: post ∧ ∀ o ∈ post, ∃ j, o = g j := by
  have hi : i < (List.range n).length := by simpa using h
  refine ⟨((List.range n).take i).map g, ((List.range n).drop (i + 1)).map g, ?_, ?_⟩
  · conv_lhs => rw [← List.take_append_drop i (List.range n), List.drop_eq_getElem_cons hi]
    simp
  · intro o ho
    obtain ⟨j, -, rfl⟩ := List.mem_map.1 ho
    exact ⟨j, rfl⟩

/-- **C36** for the calls the solver makes: after one or more iterations over an island, the impulse of
every friction and rolling friction constraint is inside the circle given by the final impulse of its
normal row, and the impulse of every spinning friction constraint is within its limit. -/
theorem island_friction_limits (root : T → T) (hroot : IsSqrt root) (eps : T) (heps : 0 ≤ eps)
    (c : Cache T) (u : Vel T) (k : Nat) (c' : Cache T) (u' : Vel T)
    (h : iterate root eps (k + 1) (c, u) = some (c', u')) :
    (∀ f ∈ c'.friction ++ c'.rolling, ∀ n, c'.rows[f.normal]? = some n →
      f.row0.impulse ^ 2 + f.row1.impulse ^ 2 ≤ (f.coeff * n.impulse) ^ 2) ∧
    (∀ s ∈ c'.spinning, ∀ n, c'.rows[s.normal]? = some n → 0 ≤ s.coeff → 0 ≤ n.lower →
      n.lower ≤ n.upper → |s.impulse| ≤ s.coeff * n.impulse) := by
  obtain ⟨s1, h1, hsame⟩ := iterate_last h
  simp only [solve] at h1
  refine ⟨?_, ?_⟩
  · intro f hf n hn
    rcases List.mem_append.1 hf with hf | hf
    · obtain ⟨i, hi, rfl⟩ := List.mem_iff_getElem.1 hf
      have hi' : i < s1.1.friction.length := by rw [hsame.friction.length_eq]; exact hi
      obtain ⟨pre, post, he, hp⟩ := range_split hi' .friction
      rw [islandOrder, he] at h1
      refine friction_in_circle root hroot eps heps (List.map Op.row (List.range s1.1.rows.length) ++ pre)
        (post ++ (List.map Op.rolling (List.range s1.1.rolling.length) ++
          List.map Op.spinning (List.range s1.1.spinning.length))) s1 _ i _ n
        (by simpa [List.append_assoc] using h1) (List.getElem?_eq_getElem hi) hn ?_
      intro hm
      rcases List.mem_append.1 hm with hm | hm
      · obtain ⟨j, hj⟩ := hp _ hm
        cases hj
      · simp at hm
    · obtain ⟨i, hi, rfl⟩ := List.mem_iff_getElem.1 hf
      have hi' : i < s1.1.rolling.length := by rw [hsame.rolling.length_eq]; exact hi
      obtain ⟨pre, post, he, hp⟩ := range_split hi' .rolling
      rw [islandOrder, he] at h1
      refine rolling_in_circle root hroot eps heps (List.map Op.row (List.range s1.1.rows.length) ++
        List.map Op.friction (List.range s1.1.friction.length) ++ pre)
        (post ++ List.map Op.spinning (List.range s1.1.spinning.length)) s1 _ i _ n
        (by simpa [List.append_assoc] using h1) (List.getElem?_eq_getElem hi) hn ?_
      intro hm
      rcases List.mem_append.1 hm with hm | hm
      · obtain ⟨j, hj⟩ := hp _ hm
        cases hj
      · simp at hm
  · intro f hf n hn hc hl hlu
    obtain ⟨i, hi, rfl⟩ := List.mem_iff_getElem.1 hf
    have hi' : i < s1.1.spinning.length := by rw [hsame.spinning.length_eq]; exact hi
    have hnpos : 0 ≤ n.impulse := by
      obtain ⟨hj, -⟩ := List.getElem?_eq_some_iff.1 hn
      have := run_limits (i := c'.spinning[i].normal) h1
        (by simp [islandOrder]; rw [hsame.rows.length_eq]; exact hj) n hn hlu
      exact le_trans hl this.1
    obtain ⟨pre, post, he, hp⟩ := range_split hi' .spinning
    rw [islandOrder, he] at h1
    refine spin_in_limit root eps (List.map Op.row (List.range s1.1.rows.length) ++
      List.map Op.friction (List.range s1.1.friction.length) ++
      List.map Op.rolling (List.range s1.1.rolling.length) ++ pre) post s1 _ i _ n
      (by simpa [List.append_assoc] using h1) (List.getElem?_eq_getElem hi) hn ?_
      (mul_nonneg hc hnpos)
    intro hm
    obtain ⟨j, hj⟩ := hp _ hm
    cases hj

end Edyn.Solver
