import Verif.Math.Vec
import Mathlib.Algebra.Order.Field.Basic
import Mathlib.Algebra.Group.Pi.Basic
import Mathlib.Algebra.Group.Prod
import Mathlib.Algebra.BigOperators.Group.List.Basic

/-!
# Constraint rows and the velocity iterations

`src/edyn/constraints/constraint_row.cpp`, `constraint_row_friction.cpp`,
`constraint_row_spin_friction.cpp` and the functions `warm_start` and `solve` of
`src/edyn/dynamics/island_solver.cpp`.  Scalars are elements of an ordered field; `std::sqrt` is a
parameter `root`.  The pointers `dvA`, `dwA`, `dvB`, `dwB` of a row are the numbers of the two bodies.
An access beyond the end of a vector is `none`.
-/

namespace Edyn.Solver

open Edyn.Math

instance {T : Type} [Field T] : AddCommGroup (V3 T) where
  add_assoc a b c := by ext <;> simp [add_assoc]
  zero_add a := by ext <;> simp
  add_zero a := by ext <;> simp
  add_comm a b := by ext <;> simp [add_comm]
  neg_add_cancel a := by ext <;> simp
  sub_eq_add_neg a b := by ext <;> simp [sub_eq_add_neg]
  nsmul := nsmulRec
  zsmul := zsmulRec

variable {T : Type} [Field T] [LinearOrder T] [IsStrictOrderedRing T]

/-- `constraint_row::J`, `constraint_row.hpp` 22: Jacobian diagonals (linear A, angular A, linear B,
angular B). -/
structure Jac (T : Type) where
  linA : V3 T
  angA : V3 T
  linB : V3 T
  angB : V3 T

/-- The bodies of a row and their inverse masses and inertias, `constraint_row.hpp` 38-45. -/
structure Pair (T : Type) where
  a : Nat
  b : Nat
  invMA : T
  invMB : T
  invIA : M3 T
  invIB : M3 T

/-- `constraint_row`, `constraint_row.hpp` 20-46. -/
structure Row (T : Type) where
  J : Jac T
  effMass : T
  rhs : T
  lower : T
  upper : T
  impulse : T
  pair : Pair T

/-- `constraint_row_friction::individual_row`, `constraint_row_friction.hpp` 13-18. -/
structure FRow (T : Type) where
  J : Jac T
  effMass : T
  rhs : T
  impulse : T

/-- `constraint_row_friction`, `constraint_row_friction.hpp` 12-23. -/
structure Friction (T : Type) where
  row0 : FRow T
  row1 : FRow T
  coeff : T
  normal : Nat

/-- `constraint_row_spin_friction`, `constraint_row_spin_friction.hpp` 10-19. -/
structure Spin (T : Type) where
  angA : V3 T
  angB : V3 T
  effMass : T
  rhs : T
  impulse : T
  coeff : T
  normal : Nat

/-- `row_cache`, `row_cache.hpp` 22-50, without the counts used to hand the impulses back. -/
structure Cache (T : Type) where
  rows : List (Row T)
  friction : List (Friction T)
  rolling : List (Friction T)
  spinning : List (Spin T)

/-- The components `delta_linvel` and `delta_angvel` of every body. -/
abbrev Vel (T : Type) := (Nat → V3 T) × (Nat → V3 T)

/-- `*p += x` where `p` points at the entry of body `i`. -/
def addAt (f : Nat → V3 T) (i : Nat) (x : V3 T) : Nat → V3 T :=
  Function.update f i (f i + x)

/-- `apply_row_impulse`, `constraint_row.cpp` 24-32; the same four additions are in
`constraint_row_friction.cpp` 49-52 and 61-64. -/
def applyImpulse (p : Pair T) (J : Jac T) (d : T) (u : Vel T) : Vel T :=
  (addAt (addAt u.1 p.a ((J.linA.smul p.invMA).smul d)) p.b ((J.linB.smul p.invMB).smul d),
   addAt (addAt u.2 p.a ((p.invIA.mulVec J.angA).smul d)) p.b ((p.invIB.mulVec J.angB).smul d))

/-- The additions of `solve_spin_friction`, `constraint_row_spin_friction.cpp` 26-27 and 33-34. -/
def applySpin (p : Pair T) (jA jB : V3 T) (d : T) (u : Vel T) : Vel T :=
  (u.1, addAt (addAt u.2 p.a ((p.invIA.mulVec jA).smul d)) p.b ((p.invIB.mulVec jB).smul d))

/-- `get_relative_speed`, `constraint_util.cpp` 148-158, of the deltas of the two bodies. -/
def relSpeed (p : Pair T) (J : Jac T) (u : Vel T) : T :=
  J.linA.dot (u.1 p.a) + J.angA.dot (u.2 p.a) + J.linB.dot (u.1 p.b) + J.angB.dot (u.2 p.b)

/-- `prepare_row`, `constraint_row.cpp` 6-22: the effective mass and the right hand side. -/
def invEffMass (p : Pair T) (J : Jac T) : T :=
  J.linA.dot J.linA * p.invMA + (p.invIA.mulVec J.angA).dot J.angA +
    J.linB.dot J.linB * p.invMB + (p.invIB.mulVec J.angB).dot J.angB

/-- `prepare_row`, `constraint_row.cpp` 6-22: `u` holds the velocities (not the deltas) of the bodies. -/
def prepareRow (r : Row T) (error erp restitution : T) (u : Vel T) : Row T :=
  { r with
    effMass := 1 / invEffMass r.pair r.J
    rhs := -(error * erp + relSpeed r.pair r.J u * (1 + restitution)) }

/-- `solve(constraint_row &)`, `constraint_row.cpp` 38-58: the new row and the returned delta. -/
def solveRow (r : Row T) (u : Vel T) : Row T × T :=
  let delta := (r.rhs - relSpeed r.pair r.J u) * r.effMass
  let impulse := r.impulse + delta
  if impulse < r.lower then ({ r with impulse := r.lower }, r.lower - r.impulse)
  else if r.upper < impulse then ({ r with impulse := r.upper }, r.upper - r.impulse)
  else ({ r with impulse := impulse }, delta)

/-- `solve_friction`, `constraint_row_friction.cpp` 11-54: `n` is the normal row, `eps` is
`EDYN_EPSILON`. -/
def solveFriction (root : T → T) (eps : T) (f : Friction T) (n : Row T) (u : Vel T) :
    Friction T × Vel T :=
  let d0 := (f.row0.rhs - relSpeed n.pair f.row0.J u) * f.row0.effMass
  let d1 := (f.row1.rhs - relSpeed n.pair f.row1.J u) * f.row1.effMass
  let i0 := f.row0.impulse + d0
  let i1 := f.row1.impulse + d1
  let lenSqr := i0 * i0 + i1 * i1
  let maxLen := f.coeff * n.impulse
  if maxLen * maxLen < lenSqr then
    let len := root lenSqr
    let j0 := if eps < len then i0 / len * maxLen else 0
    let j1 := if eps < len then i1 / len * maxLen else 0
    let e0 := j0 - f.row0.impulse
    let e1 := j1 - f.row1.impulse
    ({ f with row0 := { f.row0 with impulse := j0 }, row1 := { f.row1 with impulse := j1 } },
      applyImpulse n.pair f.row1.J e1 (applyImpulse n.pair f.row0.J e0 u))
  else
    ({ f with row0 := { f.row0 with impulse := i0 }, row1 := { f.row1 with impulse := i1 } },
      applyImpulse n.pair f.row1.J d1 (applyImpulse n.pair f.row0.J d0 u))

/-- `solve_spin_friction`, `constraint_row_spin_friction.cpp` 5-28. -/
def solveSpin (s : Spin T) (n : Row T) (u : Vel T) : Spin T × Vel T :=
  let maxLen := s.coeff * n.impulse
  let delta := (s.rhs - (s.angA.dot (u.2 n.pair.a) + s.angB.dot (u.2 n.pair.b))) * s.effMass
  let impulse := s.impulse + delta
  if impulse < -maxLen then
    ({ s with impulse := -maxLen }, applySpin n.pair s.angA s.angB (-maxLen - s.impulse) u)
  else if maxLen < impulse then
    ({ s with impulse := maxLen }, applySpin n.pair s.angA s.angB (maxLen - s.impulse) u)
  else ({ s with impulse := impulse }, applySpin n.pair s.angA s.angB delta u)

/-- One unit of work of the velocity iterations. -/
inductive Op
  | row (i : Nat)
  | friction (i : Nat)
  | rolling (i : Nat)
  | spinning (i : Nat)
deriving DecidableEq

/-- The bodies of the loops of `solve(row_cache &)`, `island_solver.cpp` 94-111. -/
def step (root : T → T) (eps : T) (c : Cache T) (u : Vel T) : Op → Option (Cache T × Vel T)
  | .row i => do
    let r ← c.rows[i]?
    let (r', d) := solveRow r u
    some ({ c with rows := c.rows.set i r' }, applyImpulse r'.pair r'.J d u)
  | .friction i => do
    let f ← c.friction[i]?
    let n ← c.rows[f.normal]?
    let (f', u') := solveFriction root eps f n u
    some ({ c with friction := c.friction.set i f' }, u')
  | .rolling i => do
    let f ← c.rolling[i]?
    let n ← c.rows[f.normal]?
    let (f', u') := solveFriction root eps f n u
    some ({ c with rolling := c.rolling.set i f' }, u')
  | .spinning i => do
    let s ← c.spinning[i]?
    let n ← c.rows[s.normal]?
    let (s', u') := solveSpin s n u
    some ({ c with spinning := c.spinning.set i s' }, u')

/-- A sequence of units of work. -/
def run (root : T → T) (eps : T) : List Op → Cache T × Vel T → Option (Cache T × Vel T)
  | [], s => some s
  | o :: os, s => (step root eps s.1 s.2 o).bind (run root eps os)

/-- The order in which `solve(row_cache &)`, `island_solver.cpp` 94-111, visits the rows. -/
def islandOrder (c : Cache T) : List Op :=
  (List.range c.rows.length).map .row ++ (List.range c.friction.length).map .friction ++
    (List.range c.rolling.length).map .rolling ++ (List.range c.spinning.length).map .spinning

/-- `solve(row_cache &)`, `island_solver.cpp` 94-111. -/
def solve (root : T → T) (eps : T) (s : Cache T × Vel T) : Option (Cache T × Vel T) :=
  run root eps (islandOrder s.1) s

/-- `num_iterations` calls of `solve`, `island_solver.cpp` 529-531. -/
def iterate (root : T → T) (eps : T) : Nat → Cache T × Vel T → Option (Cache T × Vel T)
  | 0, s => some s
  | k + 1, s => (solve root eps s).bind (iterate root eps k)

/-- The body of the second loop of `warm_start(row_cache &)`; `constraint_row_friction.cpp` 56-66. -/
def warmFriction (rows : List (Row T)) (f : Friction T) (u : Vel T) : Option (Vel T) := do
  let n ← rows[f.normal]?
  some (applyImpulse n.pair f.row1.J f.row1.impulse (applyImpulse n.pair f.row0.J f.row0.impulse u))

/-- `warm_start(constraint_row_spin_friction &)`, `constraint_row_spin_friction.cpp` 30-35. -/
def warmSpin (rows : List (Row T)) (s : Spin T) (u : Vel T) : Option (Vel T) := do
  let n ← rows[s.normal]?
  some (applySpin n.pair s.angA s.angB s.impulse u)

/-- `warm_start(row_cache &)`, `island_solver.cpp` 76-92, and `warm_start(constraint_row &)`,
`constraint_row.cpp` 34-36. -/
def warmStart (c : Cache T) (u : Vel T) : Option (Vel T) := do
  let u1 := c.rows.foldl (fun u r => applyImpulse r.pair r.J r.impulse u) u
  let u2 ← c.friction.foldlM (fun u f => warmFriction c.rows f u) u1
  let u3 ← c.rolling.foldlM (fun u f => warmFriction c.rows f u) u2
  c.spinning.foldlM (fun u s => warmSpin c.rows s u) u3

end Edyn.Solver
