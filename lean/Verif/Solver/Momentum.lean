import Verif.Solver.Props
import Verif.Math.Rotation
import Mathlib.Algebra.BigOperators.Group.Finset.Basic
import Mathlib.Algebra.BigOperators.Group.Finset.Piecewise
import Mathlib.Algebra.BigOperators.Pi

/-!
# Momentum and immovable bodies (C37)

Bodies `x` of a finite set have masses `m x`, inertias `I x` about their centres of mass and positions
`pos x`.
-/

namespace Edyn.Solver

open Edyn.Math V3

variable {T : Type} [Field T] [LinearOrder T] [IsStrictOrderedRing T]

/-- Total linear momentum of the bodies in `S` moving with velocities `u`. -/
def linearMomentum (S : Finset Nat) (m : Nat → T) (u : Vel T) : V3 T :=
  ∑ x ∈ S, (u.1 x).smul (m x)

/-- Total angular momentum, about the origin, of the bodies in `S` moving with velocities `u`. -/
def angularMomentum (S : Finset Nat) (m : Nat → T) (I : Nat → M3 T) (pos : Nat → V3 T) (u : Vel T) :
    V3 T :=
  ∑ x ∈ S, ((pos x).cross ((u.1 x).smul (m x)) + (I x).mulVec (u.2 x))

/-- The inverse masses and inertias of a row are those of its bodies, which belong to `S`. -/
structure Pair.Of (p : Pair T) (S : Finset Nat) (m : Nat → T) (I : Nat → M3 T) : Prop where
  memA : p.a ∈ S
  memB : p.b ∈ S
  massA : m p.a * p.invMA = 1
  massB : m p.b * p.invMB = 1
  inertiaA : I p.a * p.invIA = 1
  inertiaB : I p.b * p.invIB = 1

/-! ### Lemmas -/

theorem smul_add_right (a : T) (v w : V3 T) : (v + w).smul a = v.smul a + w.smul a := by
  ext <;> simp [mul_add]

theorem cross_add (a v w : V3 T) : a.cross (v + w) = a.cross v + a.cross w := by
  ext <;> simp <;> ring

theorem mulVec_add (M : M3 T) (v w : V3 T) : M.mulVec (v + w) = M.mulVec v + M.mulVec w := by
  ext <;> simp [M3.mulVec, V3.dot] <;> ring

theorem mulVec_smul (M : M3 T) (a : T) (v : V3 T) : M.mulVec (v.smul a) = (M.mulVec v).smul a := by
  ext <;> simp [M3.mulVec, V3.dot] <;> ring

theorem mulVec_zero (M : M3 T) : M.mulVec 0 = 0 := by
  ext <;> simp [M3.mulVec, V3.dot]

theorem cross_zero' (a : V3 T) : a.cross 0 = 0 := by
  ext <;> simp

theorem linearMomentum_add (S : Finset Nat) (m : Nat → T) (u w : Vel T) :
    linearMomentum S m (u + w) = linearMomentum S m u + linearMomentum S m w := by
  simp only [linearMomentum, Prod.fst_add, Pi.add_apply, smul_add_right, Finset.sum_add_distrib]

theorem angularMomentum_add (S : Finset Nat) (m : Nat → T) (I : Nat → M3 T) (pos : Nat → V3 T)
    (u w : Vel T) : angularMomentum S m I pos (u + w) =
      angularMomentum S m I pos u + angularMomentum S m I pos w := by
  simp only [angularMomentum, Prod.fst_add, Prod.snd_add, Pi.add_apply, smul_add_right, cross_add,
    mulVec_add, ← Finset.sum_add_distrib]
  refine Finset.sum_congr rfl fun x _ => ?_
  abel

theorem linearMomentum_zero (S : Finset Nat) (m : Nat → T) : linearMomentum S m 0 = 0 := by
  have : ∀ x : Nat, ((0 : Vel T).1 x).smul (m x) = 0 := fun x => smul_zero' _
  exact Finset.sum_eq_zero fun x _ => this x

theorem angularMomentum_zero (S : Finset Nat) (m : Nat → T) (I : Nat → M3 T) (pos : Nat → V3 T) :
    angularMomentum S m I pos 0 = 0 := by
  have : ∀ x : Nat, ((pos x).cross (((0 : Vel T).1 x).smul (m x)) + (I x).mulVec ((0 : Vel T).2 x)) = 0 := by
    intro x
    have h1 : (0 : Vel T).1 x = 0 := rfl
    have h2 : (0 : Vel T).2 x = 0 := rfl
    rw [h1, h2, smul_zero', cross_zero', mulVec_zero, add_zero]
  exact Finset.sum_eq_zero fun x _ => this x

theorem linearMomentum_sum {α : Type} (S : Finset Nat) (m : Nat → T) (l : List α) (g : α → Vel T) :
    linearMomentum S m (l.map g).sum = (l.map fun a => linearMomentum S m (g a)).sum := by
  induction l with
  | nil => simpa using linearMomentum_zero S m
  | cons a l ih => simp only [List.map_cons, List.sum_cons, linearMomentum_add, ih]

theorem angularMomentum_sum {α : Type} (S : Finset Nat) (m : Nat → T) (I : Nat → M3 T)
    (pos : Nat → V3 T) (l : List α) (g : α → Vel T) : angularMomentum S m I pos (l.map g).sum =
      (l.map fun a => angularMomentum S m I pos (g a)).sum := by
  induction l with
  | nil => simpa using angularMomentum_zero S m I pos
  | cons a l ih => simp only [List.map_cons, List.sum_cons, angularMomentum_add, ih]

/-- The linear momentum given to the system by an impulse along a row. -/
theorem linearMomentum_effect {S : Finset Nat} {m : Nat → T} {I : Nat → M3 T} {p : Pair T}
    (hp : p.Of S m I) (J : Jac T) (d : T) :
    linearMomentum S m (effect p J d) = (J.linA + J.linB).smul d := by
  have h : ∀ x ∈ S, ((effect p J d).1 x).smul (m x) =
      (if x = p.a then J.linA.smul d else 0) + (if x = p.b then J.linB.smul d else 0) := by
    intro x _
    simp only [effect, smul_add_right]
    congr 1
    · by_cases e : x = p.a
      · rw [if_pos e, if_pos e, smul_smul', e, mul_comm _ (m p.a), ← mul_assoc, hp.massA, one_mul]
      · rw [if_neg e, if_neg e, smul_zero']
    · by_cases e : x = p.b
      · rw [if_pos e, if_pos e, smul_smul', e, mul_comm _ (m p.b), ← mul_assoc, hp.massB, one_mul]
      · rw [if_neg e, if_neg e, smul_zero']
  rw [linearMomentum, Finset.sum_congr rfl h, Finset.sum_add_distrib, Finset.sum_ite_eq',
    Finset.sum_ite_eq', if_pos hp.memA, if_pos hp.memB, smul_add_right]

/-- The angular momentum given to the system by an impulse along a row. -/
theorem angularMomentum_effect {S : Finset Nat} {m : Nat → T} {I : Nat → M3 T} {p : Pair T}
    (pos : Nat → V3 T) (hp : p.Of S m I) (J : Jac T) (d : T) :
    angularMomentum S m I pos (effect p J d) =
      ((pos p.a).cross J.linA + J.angA + (pos p.b).cross J.linB + J.angB).smul d := by
  have cs : ∀ (a v : V3 T) (d : T), a.cross (v.smul d) = (a.cross v).smul d := by
    intro a v d
    ext <;> simp <;> ring
  have h : ∀ x ∈ S, (pos x).cross (((effect p J d).1 x).smul (m x)) + (I x).mulVec ((effect p J d).2 x) =
      (if x = p.a then ((pos p.a).cross J.linA + J.angA).smul d else 0) +
      (if x = p.b then ((pos p.b).cross J.linB + J.angB).smul d else 0) := by
    intro x _
    have hA : x = p.a → ((J.linA.smul (p.invMA * d)).smul (m x)) = J.linA.smul d := by
      intro e
      rw [smul_smul', e, mul_comm _ (m p.a), ← mul_assoc, hp.massA, one_mul]
    have hB : x = p.b → ((J.linB.smul (p.invMB * d)).smul (m x)) = J.linB.smul d := by
      intro e
      rw [smul_smul', e, mul_comm _ (m p.b), ← mul_assoc, hp.massB, one_mul]
    have hIA : x = p.a → (I x).mulVec ((p.invIA.mulVec J.angA).smul d) = J.angA.smul d := by
      intro e
      rw [mulVec_smul, ← M3.mul_mulVec, e, hp.inertiaA, M3.one_mulVec]
    have hIB : x = p.b → (I x).mulVec ((p.invIB.mulVec J.angB).smul d) = J.angB.smul d := by
      intro e
      rw [mulVec_smul, ← M3.mul_mulVec, e, hp.inertiaB, M3.one_mulVec]
    simp only [effect, smul_add_right, cross_add, mulVec_add]
    by_cases e : x = p.a
    · by_cases e' : x = p.b
      · rw [if_pos e, if_pos e, if_pos e', if_pos e', if_pos e, if_pos e', hA e, hB e', hIA e, hIB e', cs, cs,
          ← e, ← e']
        abel
      · rw [if_pos e, if_pos e, if_neg e', if_neg e', if_pos e, if_neg e', hA e, hIA e, cs, smul_zero',
          cross_zero', mulVec_zero, ← e]
        abel
    · by_cases e' : x = p.b
      · rw [if_neg e, if_neg e, if_pos e', if_pos e', if_neg e, if_pos e', hB e', hIB e', smul_zero',
          cross_zero', mulVec_zero, cs, ← e']
        abel
      · rw [if_neg e, if_neg e, if_neg e', if_neg e', if_neg e, if_neg e', smul_zero', cross_zero',
          mulVec_zero]
        abel
  rw [angularMomentum, Finset.sum_congr rfl h, Finset.sum_add_distrib, Finset.sum_ite_eq',
    Finset.sum_ite_eq', if_pos hp.memA, if_pos hp.memB, ← smul_add_right]
  congr 1
  abel

/-! ### Theorems -/

/-- **C37**, linear momentum.  Warm start a cache and let the solver visit its rows any number of times in
any order.  If the linear Jacobians of each row are opposite, the total linear momentum is what it was
before. -/
theorem linear_momentum_conserved (root : T → T) (eps : T) (c c' : Cache T) (u₀ u u' : Vel T)
    (ops : List Op) (S : Finset Nat) (m : Nat → T) (I : Nat → M3 T) (hw : warmStart c u₀ = some u)
    (h : run root eps ops (c, u) = some (c', u'))
    (hb : ∀ e ∈ impulses c', e.1.Of S m I) (hJ : ∀ e ∈ impulses c', e.2.1.linB = -e.2.1.linA) :
    linearMomentum S m u' = linearMomentum S m u₀ := by
  obtain ⟨-, hu, -⟩ := impulses_within_limits_and_accounted root eps c c' u₀ u u' ops hw h
  rw [hu, linearMomentum_add, linearMomentum_sum]
  convert add_zero _
  refine List.sum_eq_zero ?_
  intro v hv
  obtain ⟨e, he, rfl⟩ := List.mem_map.1 hv
  rw [linearMomentum_effect (hb e he), hJ e he, add_neg_cancel, smul_zero']

/-- **C37**, angular momentum.  The same for the total angular momentum about the origin, if the pair of
forces of each row has no moment: `pos a × linA + angA + pos b × linB + angB = 0`. -/
theorem angular_momentum_conserved (root : T → T) (eps : T) (c c' : Cache T) (u₀ u u' : Vel T)
    (ops : List Op) (S : Finset Nat) (m : Nat → T) (I : Nat → M3 T) (pos : Nat → V3 T)
    (hw : warmStart c u₀ = some u) (h : run root eps ops (c, u) = some (c', u'))
    (hb : ∀ e ∈ impulses c', e.1.Of S m I)
    (hJ : ∀ e ∈ impulses c', (pos e.1.a).cross e.2.1.linA + e.2.1.angA + (pos e.1.b).cross e.2.1.linB +
      e.2.1.angB = 0) :
    angularMomentum S m I pos u' = angularMomentum S m I pos u₀ := by
  obtain ⟨-, hu, -⟩ := impulses_within_limits_and_accounted root eps c c' u₀ u u' ops hw h
  rw [hu, angularMomentum_add, angularMomentum_sum]
  convert add_zero _
  refine List.sum_eq_zero ?_
  intro v hv
  obtain ⟨e, he, rfl⟩ := List.mem_map.1 hv
  rw [angularMomentum_effect pos (hb e he), hJ e he, smul_zero']

/-- The Jacobian of a constraint along the direction `d` between a point at `rA` from the centre of mass
of A and a point at `rB` from the centre of mass of B. -/
def pointJac (rA rB d : V3 T) : Jac T := ⟨d, rA.cross d, -d, -(rB.cross d)⟩

/-- A row between two points has no moment exactly if the points coincide or their difference is along
the direction of the row. -/
theorem pointJac_moment (posA posB rA rB d : V3 T) :
    posA.cross (pointJac rA rB d).linA + (pointJac rA rB d).angA + posB.cross (pointJac rA rB d).linB +
      (pointJac rA rB d).angB = ((posA + rA) - (posB + rB)).cross d := by
  ext <;> simp [pointJac] <;> ring

/-- **C37**, immovable bodies.  A body whose inverse mass and inverse inertia are zero in every row is
never moved, whatever the rows and the order of visits. -/
theorem immovable_body_not_moved (root : T → T) (eps : T) (c c' : Cache T) (u₀ u u' : Vel T)
    (ops : List Op) (x : Nat) (hw : warmStart c u₀ = some u)
    (h : run root eps ops (c, u) = some (c', u'))
    (hA : ∀ r ∈ c.rows, r.pair.a = x → r.pair.invMA = 0 ∧ r.pair.invIA = ⟨0, 0, 0⟩)
    (hB : ∀ r ∈ c.rows, r.pair.b = x → r.pair.invMB = 0 ∧ r.pair.invIB = ⟨0, 0, 0⟩) :
    u'.1 x = u₀.1 x ∧ u'.2 x = u₀.2 x := by
  obtain ⟨-, hu, hsame⟩ := impulses_within_limits_and_accounted root eps c c' u₀ u u' ops hw h
  have hpair : ∀ r' ∈ c'.rows, ∃ r ∈ c.rows, r'.pair = r.pair := by
    intro r' hr'
    obtain ⟨i, hi⟩ := List.mem_iff_getElem?.1 hr'
    obtain ⟨r, hr, hs⟩ := getElem?_same hsame.rows hi
    exact ⟨r, List.mem_of_getElem? hr, by rw [hs]⟩
  have hmem : ∀ e ∈ impulses c', ∃ r ∈ c'.rows, e.1 = r.pair := by
    intro e he
    simp only [impulses, List.mem_append, List.mem_map, List.mem_flatMap] at he
    rcases he with (⟨r, hr, rfl⟩ | ⟨f, -, n, hn, he⟩) | ⟨s, -, n, hn, rfl⟩
    · exact ⟨r, hr, rfl⟩
    · have hn' : n ∈ c'.rows := List.mem_of_getElem? (Option.mem_toList.1 hn)
      simp only [List.mem_cons, List.not_mem_nil, or_false] at he
      rcases he with rfl | rfl <;> exact ⟨n, hn', rfl⟩
    · exact ⟨n, List.mem_of_getElem? (Option.mem_toList.1 hn), rfl⟩
  have z0 : ∀ v : V3 T, v.smul 0 = 0 := fun v => by ext <;> simp
  have zm : ∀ v : V3 T, (⟨0, 0, 0⟩ : M3 T).mulVec v = 0 := fun v => by ext <;> simp [M3.mulVec, V3.dot]
  have hz : ∀ e ∈ impulses c', (effect e.1 e.2.1 e.2.2).1 x = 0 ∧ (effect e.1 e.2.1 e.2.2).2 x = 0 := by
    intro e he
    obtain ⟨r', hr', e1⟩ := hmem e he
    obtain ⟨r, hr, e2⟩ := hpair r' hr'
    have hA' : x = e.1.a → e.1.invMA = 0 ∧ e.1.invIA = ⟨0, 0, 0⟩ := by
      intro hx; rw [e1, e2] at hx ⊢; exact hA r hr hx.symm
    have hB' : x = e.1.b → e.1.invMB = 0 ∧ e.1.invIB = ⟨0, 0, 0⟩ := by
      intro hx; rw [e1, e2] at hx ⊢; exact hB r hr hx.symm
    simp only [effect]
    refine ⟨?_, ?_⟩ <;> by_cases ea : x = e.1.a <;> by_cases eb : x = e.1.b <;>
      simp only [ea, eb, if_true, if_false] <;> simp_all [smul_zero']
  have hsum : ∀ l : List (Pair T × Jac T × T),
      (∀ e ∈ l, (effect e.1 e.2.1 e.2.2).1 x = 0 ∧ (effect e.1 e.2.1 e.2.2).2 x = 0) →
      (l.map fun e => effect e.1 e.2.1 e.2.2).sum.1 x = 0 ∧
      (l.map fun e => effect e.1 e.2.1 e.2.2).sum.2 x = 0 := by
    intro l hl
    induction l with
    | nil => exact ⟨rfl, rfl⟩
    | cons a l ih =>
      obtain ⟨h1, h2⟩ := ih fun e he => hl e (List.mem_cons_of_mem _ he)
      obtain ⟨h3, h4⟩ := hl a List.mem_cons_self
      simp only [List.map_cons, List.sum_cons, Prod.fst_add, Prod.snd_add, Pi.add_apply, h1, h2, h3, h4,
        add_zero, and_self]
  obtain ⟨h1, h2⟩ := hsum _ hz
  rw [hu]
  simp only [Prod.fst_add, Prod.snd_add, Pi.add_apply, h1, h2, add_zero, and_self]

end Edyn.Solver
