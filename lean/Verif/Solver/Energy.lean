import Verif.Solver.Momentum

/-!
# Complementarity and energy

What one visit of a row achieves, and the kinetic energy during the velocity iterations.
-/

namespace Edyn.Solver

open Edyn.Math V3

variable {T : Type} [Field T] [LinearOrder T] [IsStrictOrderedRing T]

/-- The velocity of body `x` changes by its inverse mass and inertia; the two bodies of the row are
different. -/
theorem relSpeed_effect (p : Pair T) (J : Jac T) (d : T) (u : Vel T) (hne : p.a ≠ p.b) :
    relSpeed p J (u + effect p J d) = relSpeed p J u + d * invEffMass p J := by
  have h1 : (u + effect p J d).1 p.a = u.1 p.a + J.linA.smul (p.invMA * d) := by
    simp [effect, hne]
  have h2 : (u + effect p J d).1 p.b = u.1 p.b + J.linB.smul (p.invMB * d) := by
    simp [effect, hne.symm]
  have h3 : (u + effect p J d).2 p.a = u.2 p.a + (p.invIA.mulVec J.angA).smul d := by
    simp [effect, hne]
  have h4 : (u + effect p J d).2 p.b = u.2 p.b + (p.invIB.mulVec J.angB).smul d := by
    simp [effect, hne.symm]
  simp only [relSpeed, invEffMass, h1, h2, h3, h4]
  vsimp
  ring

/-- **C35.** What one visit of a row does (`invEffMass > 0` and the effective mass is that of
`prepare_row`): afterwards either the relative velocity along the row is the wanted one, or the impulse is
at the lower limit and the velocity is on the side the row may not push any further, or the impulse is at
the upper limit and likewise. -/
theorem visit_satisfies_row (r : Row T) (u : Vel T) (hne : r.pair.a ≠ r.pair.b)
    (hK : 0 < invEffMass r.pair r.J) (he : r.effMass = 1 / invEffMass r.pair r.J) :
    let res := solveRow r u
    let v := relSpeed r.pair r.J (applyImpulse res.1.pair res.1.J res.2 u)
    (v = r.rhs ∧ r.lower ≤ res.1.impulse ∧ res.1.impulse ≤ r.upper) ∨
      (res.1.impulse = r.lower ∧ r.rhs < v) ∨ (res.1.impulse = r.upper ∧ v < r.rhs) := by
  intro res v
  have hs := solveRow_same r u
  have hp : res.1.pair = r.pair := by rw [show res = solveRow r u from rfl, hs]
  have hJ : res.1.J = r.J := by rw [show res = solveRow r u from rfl, hs]
  have hv : v = relSpeed r.pair r.J u + res.2 * invEffMass r.pair r.J := by
    simp only [v, hp, hJ, applyImpulse_eq]
    exact relSpeed_effect _ _ _ _ hne
  rw [hv]
  simp only [res, solveRow, he]
  set K := invEffMass r.pair r.J
  set w := relSpeed r.pair r.J u
  have hd : (r.rhs - w) * (1 / K) * K = r.rhs - w := by field_simp
  split
  · rename_i h
    right; left
    refine ⟨rfl, ?_⟩
    have : (r.rhs - w) * (1 / K) < r.lower - r.impulse := by linarith
    have := mul_lt_mul_of_pos_right this hK
    dsimp only
    linarith
  · split
    · rename_i h
      right; right
      refine ⟨rfl, ?_⟩
      have : r.upper - r.impulse < (r.rhs - w) * (1 / K) := by linarith
      have := mul_lt_mul_of_pos_right this hK
      dsimp only
      linarith
    · rename_i h1 h2
      left
      refine ⟨?_, not_lt.1 h1, not_lt.1 h2⟩
      dsimp only
      linarith

/-! ### Kinetic energy -/

/-- Kinetic energy of the bodies in `S` moving with velocities `u`. -/
def kineticEnergy (S : Finset Nat) (m : Nat → T) (I : Nat → M3 T) (u : Vel T) : T :=
  ∑ x ∈ S, (m x * (u.1 x).dot (u.1 x) + (u.2 x).dot ((I x).mulVec (u.2 x))) / 2

/-- The inverse masses of a row are those of its two different bodies; a body outside `S` is immovable. -/
structure Pair.Fits (p : Pair T) (S : Finset Nat) (m : Nat → T) (I : Nat → M3 T) : Prop where
  ne : p.a ≠ p.b
  movA : p.a ∈ S → m p.a * p.invMA = 1 ∧ I p.a * p.invIA = 1
  movB : p.b ∈ S → m p.b * p.invMB = 1 ∧ I p.b * p.invIB = 1
  fixA : p.a ∉ S → p.invMA = 0 ∧ p.invIA = ⟨0, 0, 0⟩
  fixB : p.b ∉ S → p.invMB = 0 ∧ p.invIB = ⟨0, 0, 0⟩

/-- Inertia tensors are symmetric. -/
def Symmetric (I : M3 T) : Prop := I.transpose = I

theorem dot_mulVec_symm (I : M3 T) (h : Symmetric I) (v w : V3 T) :
    w.dot (I.mulVec v) = v.dot (I.mulVec w) := by
  have h1 : I.r1.x = I.r0.y := congrArg (fun m => m.r0.y) h
  have h2 : I.r2.x = I.r0.z := congrArg (fun m => m.r0.z) h
  have h3 : I.r2.y = I.r1.z := congrArg (fun m => m.r1.z) h
  simp only [M3.mulVec, V3.dot, h1, h2, h3]
  ring

theorem zero_mulVec (v : V3 T) : (⟨0, 0, 0⟩ : M3 T).mulVec v = 0 := by
  ext <;> simp [M3.mulVec, V3.dot]

theorem dot_add_right (a v w : V3 T) : a.dot (v + w) = a.dot v + a.dot w := by
  vsimp; ring

theorem dot_add_left (a v w : V3 T) : (v + w).dot a = v.dot a + w.dot a := by
  vsimp; ring

theorem dot_smul_right (a v : V3 T) (s : T) : a.dot (v.smul s) = s * a.dot v := by
  vsimp; ring

theorem dot_smul_left (a v : V3 T) (s : T) : (v.smul s).dot a = s * v.dot a := by
  vsimp; ring

theorem dot_comm' (a b : V3 T) : a.dot b = b.dot a := by
  vsimp; ring

theorem dot_zero' (a : V3 T) : a.dot 0 = 0 := by simp [V3.dot]

theorem zero_dot' (a : V3 T) : (0 : V3 T).dot a = 0 := by simp [V3.dot]

/-- Energy of one body after its velocities changed by `e` and `f`. -/
theorem body_energy (m : T) (I : M3 T) (hs : Symmetric I) (v w e f : V3 T) :
    (m * (v + e).dot (v + e) + (w + f).dot (I.mulVec (w + f))) / 2 =
      (m * v.dot v + w.dot (I.mulVec w)) / 2 +
        (m * v.dot e + w.dot (I.mulVec f) + (m * e.dot e + f.dot (I.mulVec f)) / 2) := by
  simp only [mulVec_add, dot_add_left, dot_add_right, dot_mulVec_symm I hs f w]
  rw [dot_comm' e v]
  ring

/-- Energy change of the system by an impulse along a row. -/
theorem energy_effect {S : Finset Nat} {m : Nat → T} {I : Nat → M3 T} (hsym : ∀ x ∈ S, Symmetric (I x))
    {p : Pair T} (hp : p.Fits S m I) (J : Jac T) (d : T) (u : Vel T)
    (hu : ∀ x ∉ S, u.1 x = 0 ∧ u.2 x = 0) :
    kineticEnergy S m I (u + effect p J d) =
      kineticEnergy S m I u + (d * relSpeed p J u + d * d / 2 * invEffMass p J) := by
  let gA := d * (J.linA.dot (u.1 p.a) + J.angA.dot (u.2 p.a)) +
    d * d / 2 * (J.linA.dot J.linA * p.invMA + (p.invIA.mulVec J.angA).dot J.angA)
  let gB := d * (J.linB.dot (u.1 p.b) + J.angB.dot (u.2 p.b)) +
    d * d / 2 * (J.linB.dot J.linB * p.invMB + (p.invIB.mulVec J.angB).dot J.angB)
  have body : ∀ (m i : T) (I iI : M3 T) (l a v w : V3 T), m * i = 1 → I * iI = 1 →
      m * v.dot (l.smul (i * d)) + w.dot (I.mulVec ((iI.mulVec a).smul d)) +
        (m * (l.smul (i * d)).dot (l.smul (i * d)) +
          ((iI.mulVec a).smul d).dot (I.mulVec ((iI.mulVec a).smul d))) / 2 =
      d * (l.dot v + a.dot w) + d * d / 2 * (l.dot l * i + (iI.mulVec a).dot a) := by
    intro m i I iI l a v w hm hI
    rw [mulVec_smul, ← M3.mul_mulVec, hI, M3.one_mulVec]
    simp only [dot_smul_left, dot_smul_right, dot_comm' v l, dot_comm' w a]
    linear_combination (d * (l.dot v) + d * d * i * l.dot l / 2) * hm
  have h : ∀ x ∈ S, (m x * ((u + effect p J d).1 x).dot ((u + effect p J d).1 x) +
        ((u + effect p J d).2 x).dot ((I x).mulVec ((u + effect p J d).2 x))) / 2 =
      (m x * (u.1 x).dot (u.1 x) + (u.2 x).dot ((I x).mulVec (u.2 x))) / 2 +
        ((if x = p.a then gA else 0) + (if x = p.b then gB else 0)) := by
    intro x hx
    have e1 : (u + effect p J d).1 x = u.1 x + (effect p J d).1 x := rfl
    have e2 : (u + effect p J d).2 x = u.2 x + (effect p J d).2 x := rfl
    rw [e1, e2, body_energy _ _ (hsym x hx)]
    congr 1
    by_cases ea : x = p.a
    · have eb : x ≠ p.b := fun e => hp.ne (ea.symm.trans e)
      have f1 : (effect p J d).1 x = J.linA.smul (p.invMA * d) := by simp [effect, ea, hp.ne]
      have f2 : (effect p J d).2 x = (p.invIA.mulVec J.angA).smul d := by simp [effect, ea, hp.ne]
      obtain ⟨h1, h2⟩ := hp.movA (ea ▸ hx)
      rw [f1, f2, if_pos ea, if_neg eb, add_zero, ea]
      exact body _ _ _ _ _ _ _ _ h1 h2
    · by_cases eb : x = p.b
      · have f1 : (effect p J d).1 x = J.linB.smul (p.invMB * d) := by simp [effect, eb, hp.ne.symm]
        have f2 : (effect p J d).2 x = (p.invIB.mulVec J.angB).smul d := by simp [effect, eb, hp.ne.symm]
        obtain ⟨h1, h2⟩ := hp.movB (eb ▸ hx)
        rw [f1, f2, if_neg ea, if_pos eb, zero_add, eb]
        exact body _ _ _ _ _ _ _ _ h1 h2
      · have f1 : (effect p J d).1 x = 0 := by simp [effect, ea, eb]
        have f2 : (effect p J d).2 x = 0 := by simp [effect, ea, eb]
        rw [f1, f2, if_neg ea, if_neg eb, mulVec_zero]
        simp [dot_zero']
  have hA : (if p.a ∈ S then gA else 0) = gA := by
    by_cases e : p.a ∈ S
    · rw [if_pos e]
    · obtain ⟨h1, h2⟩ := hp.fixA e
      obtain ⟨h3, h4⟩ := hu _ e
      rw [if_neg e]
      simp only [gA, h1, h2, h3, h4, zero_mulVec, zero_dot', dot_zero']
      ring
  have hB : (if p.b ∈ S then gB else 0) = gB := by
    by_cases e : p.b ∈ S
    · rw [if_pos e]
    · obtain ⟨h1, h2⟩ := hp.fixB e
      obtain ⟨h3, h4⟩ := hu _ e
      rw [if_neg e]
      simp only [gB, h1, h2, h3, h4, zero_mulVec, zero_dot', dot_zero']
      ring
  rw [kineticEnergy, Finset.sum_congr rfl h, Finset.sum_add_distrib, Finset.sum_add_distrib,
    Finset.sum_ite_eq', Finset.sum_ite_eq', hA, hB, kineticEnergy]
  simp only [gA, gB, relSpeed, invEffMass]
  ring

theorem effect_outside {S : Finset Nat} {m : Nat → T} {I : Nat → M3 T} {p : Pair T} (hp : p.Fits S m I)
    (J : Jac T) (d : T) (x : Nat) (hx : x ∉ S) : (effect p J d).1 x = 0 ∧ (effect p J d).2 x = 0 := by
  have z : ∀ v : V3 T, v.smul 0 = 0 := fun v => by ext <;> simp
  refine ⟨?_, ?_⟩
  all_goals
    simp only [effect]
    by_cases ea : x = p.a
    · have eb : x ≠ p.b := fun e => hp.ne (ea.symm.trans e)
      obtain ⟨h1, h2⟩ := hp.fixA (ea ▸ hx)
      rw [if_pos ea, if_neg eb, add_zero]
      first
        | rw [h1, zero_mul, z]
        | rw [h2, zero_mulVec, smul_zero']
    · by_cases eb : x = p.b
      · obtain ⟨h1, h2⟩ := hp.fixB (eb ▸ hx)
        rw [if_neg ea, if_pos eb, zero_add]
        first
          | rw [h1, zero_mul, z]
          | rw [h2, zero_mulVec, smul_zero']
      · rw [if_neg ea, if_neg eb, add_zero]

theorem relSpeed_add (p : Pair T) (J : Jac T) (u w : Vel T) :
    relSpeed p J (u + w) = relSpeed p J u + relSpeed p J w := by
  simp only [relSpeed, Prod.fst_add, Prod.snd_add, Pi.add_apply, dot_add_right]
  ring

/-- A row prepared without restitution and without positional error for bodies moving with `v`. -/
structure Row.Inelastic (r : Row T) (v : Vel T) : Prop where
  pos : 0 < invEffMass r.pair r.J
  effMass : r.effMass = 1 / invEffMass r.pair r.J
  rhs : r.rhs = -relSpeed r.pair r.J v

/-- `prepare_row` without error and restitution makes such a row. -/
theorem prepareRow_inelastic (r : Row T) (erp : T) (v : Vel T) (h : 0 < invEffMass r.pair r.J) :
    (prepareRow r 0 erp 0 v).Inelastic v :=
  ⟨h, rfl, by simp [prepareRow]⟩

/-- One visit of a row inside its limits takes energy away. -/
theorem visit_energy {S : Finset Nat} {m : Nat → T} {I : Nat → M3 T} (hsym : ∀ x ∈ S, Symmetric (I x))
    (r : Row T) (v u : Vel T) (hp : r.pair.Fits S m I) (hr : r.Inelastic v)
    (hl : r.lower ≤ r.impulse) (hu : r.impulse ≤ r.upper)
    (hv : ∀ x ∉ S, (v + u).1 x = 0 ∧ (v + u).2 x = 0) :
    kineticEnergy S m I (v + applyImpulse (solveRow r u).1.pair (solveRow r u).1.J (solveRow r u).2 u) ≤
      kineticEnergy S m I (v + u) := by
  have hs := solveRow_same r u
  have e1 : (solveRow r u).1.pair = r.pair := by rw [hs]
  have e2 : (solveRow r u).1.J = r.J := by rw [hs]
  rw [e1, e2, applyImpulse_eq, ← add_assoc, energy_effect hsym hp _ _ _ hv]
  set K := invEffMass r.pair r.J with hK
  have hKpos : 0 < K := hr.pos
  set w := relSpeed r.pair r.J (v + u) with hw
  have hd : (r.rhs - relSpeed r.pair r.J u) * r.effMass = -w / K := by
    rw [hr.rhs, hr.effMass, hw, relSpeed_add]
    ring
  have key : ∀ d : T, (0 ≤ d ∧ d ≤ -w / K) ∨ (-w / K ≤ d ∧ d ≤ 0) → d * w + d * d / 2 * K ≤ 0 := by
    intro d h
    set q := -w / K with hq
    have hwq : w = -(q * K) := by rw [hq]; field_simp
    rw [hwq]
    have : d * d ≤ 2 * (d * q) := by
      rcases h with ⟨h1, h2⟩ | ⟨h1, h2⟩
      · nlinarith [mul_nonneg h1 (sub_nonneg.2 h2)]
      · nlinarith [mul_nonneg (neg_nonneg.2 h2) (sub_nonneg.2 h1)]
    nlinarith [mul_nonneg (sub_nonneg.2 this) hKpos.le]
  have := key (solveRow r u).2 ?_
  · linarith
  simp only [solveRow, hd]
  split
  · rename_i h
    right
    exact ⟨by dsimp only; linarith, by dsimp only; linarith⟩
  · split
    · rename_i h
      left
      exact ⟨by dsimp only; linarith, by dsimp only; linarith⟩
    · rcases le_total 0 (-w / K) with h | h
      · exact .inl ⟨h, le_refl _⟩
      · exact .inr ⟨le_refl _, h⟩

/-- The kinetic energy never grows while the rows of constraints without restitution and without
positional error are visited, any number of times and in any order.  `v` are the velocities of the
bodies before the iterations and `u` the deltas, both zero for immovable bodies. -/
theorem kinetic_energy_never_increases (root : T → T) (eps : T) (S : Finset Nat) (m : Nat → T)
    (I : Nat → M3 T) (hsym : ∀ x ∈ S, Symmetric (I x)) (v u u' : Vel T) (c c' : Cache T) (is : List Nat)
    (h : run root eps (is.map .row) (c, u) = some (c', u'))
    (hrow : ∀ r ∈ c.rows, r.pair.Fits S m I ∧ r.Inelastic v ∧ r.lower ≤ r.impulse ∧ r.impulse ≤ r.upper)
    (hv : ∀ x ∉ S, (v + u).1 x = 0 ∧ (v + u).2 x = 0) :
    kineticEnergy S m I (v + u') ≤ kineticEnergy S m I (v + u) := by
  induction is generalizing c u with
  | nil => cases h; exact le_refl _
  | cons i is ih =>
    obtain ⟨s1, h1, h2⟩ := run_cons h
    rcases step_cases h1 with ⟨j, r, ho, hr, hc, hu⟩ | ⟨_, _, _, ho, _⟩ | ⟨_, _, _, ho, _⟩ |
      ⟨_, _, _, ho, _⟩
    · obtain ⟨c1, u1⟩ := s1
      simp only at hc hu
      subst hc hu
      obtain ⟨hp, hr1, hl, hu⟩ := hrow r (List.mem_of_getElem? hr)
      have hs := solveRow_same r u
      have e1 : (solveRow r u).1.pair = r.pair := by rw [hs]
      have e2 : (solveRow r u).1.J = r.J := by rw [hs]
      have e3 : (solveRow r u).1.effMass = r.effMass := by rw [hs]
      have e4 : (solveRow r u).1.rhs = r.rhs := by rw [hs]
      have e5 : (solveRow r u).1.lower = r.lower := by rw [hs]
      have e6 : (solveRow r u).1.upper = r.upper := by rw [hs]
      refine le_trans (ih _ _ h2 ?_ ?_) (visit_energy hsym r v u hp hr1 hl hu hv)
      · intro r' hr'
        rcases List.mem_or_eq_of_mem_set hr' with hm | rfl
        · exact hrow r' hm
        · have := solveRow_limits r u (le_trans hl hu)
          refine ⟨by rw [e1]; exact hp, ⟨?_, ?_, ?_⟩, by rw [e5]; exact this.1, by rw [e6]; exact this.2⟩
          · rw [e1, e2]; exact hr1.pos
          · rw [e1, e2, e3]; exact hr1.effMass
          · rw [e1, e2, e4]; exact hr1.rhs
      · intro x hx
        rw [e1, e2, applyImpulse_eq, ← add_assoc]
        obtain ⟨h3, h4⟩ := effect_outside hp r.J (solveRow r u).2 x hx
        obtain ⟨h5, h6⟩ := hv x hx
        exact ⟨by rw [Prod.fst_add, Pi.add_apply, h3, h5, add_zero],
          by rw [Prod.snd_add, Pi.add_apply, h4, h6, add_zero]⟩
    all_goals cases ho

/-! ### Position errors -/

/-- A row prepared with a position error, visited at any time (`u` holds the changes of velocity so far):
unless the impulse is at one of its limits, the bodies end up moving so that the error changes at the rate
that removes the fraction `erp` of it in one step; the limits only leave the row pushing less than that.
For a contact that is a distance `d` apart, `error = d / dt` and the gap `d + dt * v` left after the step
is at least `(1 - erp) * d`: bodies that are apart do not penetrate (if the upper limit is not reached). -/
theorem gap_not_crossed (r₀ : Row T) (erp d dt : T) (v u : Vel T) (hne : r₀.pair.a ≠ r₀.pair.b)
    (hK : 0 < invEffMass r₀.pair r₀.J) (hd : 0 < d) (hdt : 0 < dt) (h1 : erp < 1) :
    let r := prepareRow r₀ (d / dt) erp 0 v
    let res := solveRow r u
    let v' := relSpeed r₀.pair r₀.J (v + applyImpulse res.1.pair res.1.J res.2 u)
    res.1.impulse = r₀.upper ∨
      (0 < d + dt * v' ∧ (1 - erp) * d ≤ d + dt * v' ∧
        (res.1.impulse = r₀.lower ∨ d + dt * v' = (1 - erp) * d)) := by
  intro r res v'
  have hv := visit_satisfies_row r u hne hK rfl
  simp only at hv
  have hv' : v' = relSpeed r₀.pair r₀.J v +
      relSpeed r.pair r.J (applyImpulse (solveRow r u).1.pair (solveRow r u).1.J (solveRow r u).2 u) :=
    relSpeed_add _ _ _ _
  have hrhs : r.rhs = -(d / dt * erp) - relSpeed r₀.pair r₀.J v := by
    simp only [r, prepareRow]; ring
  set w := relSpeed r.pair r.J (applyImpulse (solveRow r u).1.pair (solveRow r u).1.J (solveRow r u).2 u)
  have hcancel : dt * (d / dt * erp) = d * erp := by field_simp
  have hpos : 0 < (1 - erp) * d := mul_pos (by linarith) hd
  rcases hv with ⟨hw, -, -⟩ | ⟨hi, hw⟩ | ⟨hi, -⟩
  · right
    have hval : d + dt * v' = (1 - erp) * d := by
      rw [hv', hw, hrhs]
      linear_combination -hcancel
    rw [hval]
    exact ⟨hpos, le_refl _, Or.inr rfl⟩
  · right
    have hge : (1 - erp) * d ≤ d + dt * v' := by
      rw [hv']
      have : dt * (-(d / dt * erp)) < dt * (relSpeed r₀.pair r₀.J v + w) :=
        mul_lt_mul_of_pos_left (by linarith) hdt
      linarith
    exact ⟨lt_of_lt_of_le hpos hge, hge, Or.inl hi⟩
  · left; exact hi

/-! ### Restitution -/

/-- A contact with restitution `e`, visited once: bodies that approach each other leave with `e` times
the speed of approach (if the upper limit is not reached), bodies that separate are left alone, and for
`0 ≤ e ≤ 1` the kinetic energy does not grow. -/
theorem bounce {S : Finset Nat} {m : Nat → T} {I : Nat → M3 T} (hsym : ∀ x ∈ S, Symmetric (I x))
    (r₀ : Row T) (erp e : T) (v : Vel T) (hp : r₀.pair.Fits S m I) (hK : 0 < invEffMass r₀.pair r₀.J)
    (hlow : r₀.lower = 0) (himp : r₀.impulse = 0) (he : 0 ≤ e) (he1 : e ≤ 1)
    (hup : -((1 + e) * relSpeed r₀.pair r₀.J v) ≤ r₀.upper * invEffMass r₀.pair r₀.J)
    (hv : ∀ x ∉ S, v.1 x = 0 ∧ v.2 x = 0) :
    let r := prepareRow r₀ 0 erp e v
    let u := applyImpulse (solveRow r 0).1.pair (solveRow r 0).1.J (solveRow r 0).2 0
    (relSpeed r₀.pair r₀.J v < 0 →
      relSpeed r₀.pair r₀.J (v + u) = -(e * relSpeed r₀.pair r₀.J v)) ∧
    (0 ≤ relSpeed r₀.pair r₀.J v → v + u = v) ∧
    kineticEnergy S m I (v + u) ≤ kineticEnergy S m I v := by
  intro r u
  set K := invEffMass r₀.pair r₀.J with hKd
  set w := relSpeed r₀.pair r₀.J v with hw
  have hs := solveRow_same r 0
  have e1 : (solveRow r 0).1.pair = r₀.pair := by rw [hs]; rfl
  have e2 : (solveRow r 0).1.J = r₀.J := by rw [hs]; rfl
  have hu : u = effect r₀.pair r₀.J (solveRow r 0).2 := by
    simp only [u, e1, e2, applyImpulse_eq, zero_add]
  have hrel0 : relSpeed r₀.pair r₀.J (0 : Vel T) = 0 := by
    have h1 : ∀ x, (0 : Vel T).1 x = 0 := fun _ => rfl
    have h2 : ∀ x, (0 : Vel T).2 x = 0 := fun _ => rfl
    simp [relSpeed, h1, h2, dot_zero']
  have hz : ∀ d, d = 0 → effect r₀.pair r₀.J d = 0 := by
    rintro d rfl
    have := effect_add r₀.pair r₀.J 0 0
    rw [add_zero] at this
    simpa using this
  have hd : (solveRow r 0).2 = if w < 0 then -((1 + e) * w) / K else 0 := by
    have hdelta : (r.rhs - relSpeed r.pair r.J 0) * r.effMass = -((1 + e) * w) / K := by
      have : relSpeed r.pair r.J (0 : Vel T) = 0 := hrel0
      rw [this]
      simp only [r, prepareRow, ← hw, ← hKd]
      ring
    have hl : r.lower = 0 := hlow
    have hi : r.impulse = 0 := himp
    have hup' : r.upper = r₀.upper := rfl
    simp only [solveRow, hdelta, hl, hi, zero_add, sub_zero]
    by_cases hneg : w < 0
    · have hpos : 0 ≤ -((1 + e) * w) / K := by
        apply div_nonneg _ hK.le
        nlinarith
      have hle : -((1 + e) * w) / K ≤ r.upper := by
        rw [div_le_iff₀ hK]; exact hup
      rw [if_neg (not_lt.2 hpos), if_neg (not_lt.2 hle), if_pos hneg]
    · rw [if_neg hneg]
      have h0 : 0 ≤ w := not_lt.1 hneg
      have hneg' : -((1 + e) * w) / K ≤ 0 := by
        apply div_nonpos_of_nonpos_of_nonneg _ hK.le
        nlinarith [mul_nonneg (add_nonneg zero_le_one he) h0]
      rcases lt_or_eq_of_le hneg' with h | h
      · rw [if_pos h]
      · rw [if_neg (by rw [h]; exact lt_irrefl _)]
        by_cases hu0 : r.upper < -((1 + e) * w) / K
        · exfalso
          have := hup
          rw [← hup'] at this
          have h2 : -((1 + e) * w) / K * K ≤ r.upper * K := by
            rw [div_mul_cancel₀ _ hK.ne']; exact this
          exact absurd (le_of_mul_le_mul_right h2 hK) (not_le.2 hu0)
        · rw [if_neg hu0]; exact h
  have hrel : relSpeed r₀.pair r₀.J (v + u) = w + (solveRow r 0).2 * K := by
    rw [hu, relSpeed_effect _ _ _ _ hp.ne]
  have hE := energy_effect hsym hp r₀.J (solveRow r 0).2 v hv
  refine ⟨?_, ?_, ?_⟩
  · intro hneg
    rw [hrel, hd, if_pos hneg, div_mul_cancel₀ _ hK.ne']
    ring
  · intro hpos
    rw [hu, hz _ (by rw [hd, if_neg (not_lt.2 hpos)]), add_zero]
  · rw [hu, hE, hd]
    by_cases hneg : w < 0
    · rw [if_pos hneg, ← hw, ← hKd]
      have : -((1 + e) * w) / K * w + -((1 + e) * w) / K * (-((1 + e) * w) / K) / 2 * K =
          -((1 + e) * (1 - e) * (w * w) / (2 * K)) := by
        field_simp
        ring
      rw [this]
      have : 0 ≤ (1 + e) * (1 - e) * (w * w) / (2 * K) := by
        apply div_nonneg _ (by linarith)
        exact mul_nonneg (mul_nonneg (by linarith) (by linarith)) (mul_self_nonneg _)
      linarith
    · rw [if_neg hneg]
      simp

end Edyn.Solver
