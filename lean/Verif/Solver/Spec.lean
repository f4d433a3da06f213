import Verif.Solver.Rows

/-!
# What the velocity iterations have to do (C35, C36, C37)

A constraint row acts on two bodies through a Jacobian.  An impulse `λ` along it changes the linear
velocity of a body by its inverse mass times `λ` times the linear part of the Jacobian, and the angular
velocity by its inverse inertia times `λ` times the angular part.
-/

namespace Edyn.Solver

open Edyn.Math

variable {T : Type} [Field T]

/-- The change of velocity of all bodies caused by an impulse along a Jacobian. -/
def effect (p : Pair T) (J : Jac T) (impulse : T) : Vel T :=
  (fun x => (if x = p.a then J.linA.smul (p.invMA * impulse) else 0) +
      (if x = p.b then J.linB.smul (p.invMB * impulse) else 0),
   fun x => (if x = p.a then (p.invIA.mulVec J.angA).smul impulse else 0) +
      (if x = p.b then (p.invIB.mulVec J.angB).smul impulse else 0))

/-- The Jacobian of a row that has no linear part. -/
def angularOnly (jA jB : V3 T) : Jac T := ⟨0, jA, 0, jB⟩

/-- All the impulses of a cache: the bodies, the Jacobian and the accumulated impulse of each row, of the
two rows of each friction and rolling friction constraint and of each spinning friction constraint. -/
def impulses (c : Cache T) : List (Pair T × Jac T × T) :=
  c.rows.map (fun r => (r.pair, r.J, r.impulse)) ++
  (c.friction ++ c.rolling).flatMap (fun f => (c.rows[f.normal]?).toList.flatMap fun n =>
    [(n.pair, f.row0.J, f.row0.impulse), (n.pair, f.row1.J, f.row1.impulse)]) ++
  c.spinning.flatMap (fun s => (c.rows[s.normal]?).toList.map fun n =>
    (n.pair, angularOnly s.angA s.angB, s.impulse))

/-- The change of velocity of all bodies caused by all the impulses of a cache. -/
def totalEffect (c : Cache T) : Vel T :=
  ((impulses c).map fun e => effect e.1 e.2.1 e.2.2).sum

/-- `root` computes square roots. -/
def IsSqrt [LinearOrder T] (root : T → T) : Prop := ∀ x, 0 ≤ x → 0 ≤ root x ∧ root x * root x = x

/-- Everything about a row but its accumulated impulse. -/
def Row.Same (r r' : Row T) : Prop := r' = { r with impulse := r'.impulse }

/-- Everything about a friction constraint but its accumulated impulses. -/
def Friction.Same (f f' : Friction T) : Prop :=
  f' = { f with row0 := { f.row0 with impulse := f'.row0.impulse },
                row1 := { f.row1 with impulse := f'.row1.impulse } }

/-- Everything about a spinning friction constraint but its accumulated impulse. -/
def Spin.Same (s s' : Spin T) : Prop := s' = { s with impulse := s'.impulse }

/-- Two caches differ only in the accumulated impulses. -/
structure Cache.Same (c c' : Cache T) : Prop where
  rows : List.Forall₂ Row.Same c.rows c'.rows
  friction : List.Forall₂ Friction.Same c.friction c'.friction
  rolling : List.Forall₂ Friction.Same c.rolling c'.rolling
  spinning : List.Forall₂ Spin.Same c.spinning c'.spinning

end Edyn.Solver
