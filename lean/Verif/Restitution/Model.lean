import Verif.Solver.Spec

/-!
# The restitution solver (C86)

`src/edyn/dynamics/restitution_solver.cpp`.  Scalars are elements of an ordered field; `std::sqrt` and
`plane_space` are parameters, as are the constants `EDYN_SCALAR_MAX`, `large_scalar` and `EDYN_EPSILON`.
Entities are numbers.  The functions `solve`, `apply_row_impulse`, `solve_friction` and
`get_effective_mass` are those of `Verif.Solver.Rows`.  Reading a component that is not there and a failed
assertion are `none`.
-/

namespace Edyn.Restitution

open Edyn.Math Edyn.Solver

variable {T : Type} [Field T] [LinearOrder T]

/-- `rigidbody_kind`, `rigidbody.hpp` 15-25.  `procedural_tag` is present exactly on dynamic bodies,
`rigidbody.cpp` 142-153 and 550-566, and exactly these are connecting nodes, `rigidbody.cpp` 164-165. -/
inductive Kind
  | dynamic | kinematic | static
  deriving DecidableEq

/-- The components of a rigid body read or written here. -/
structure Body (T : Type) where
  kind : Kind
  pos : V3 T
  orn : Quat T
  origin : Option (V3 T)
  lin : V3 T
  ang : V3 T
  invM : T
  invI : M3 T

/-- `contact_point_material`, `contact_point.hpp` 37-44: the two members read here. -/
structure Mat (T : Type) where
  restitution : T
  friction : T

/-- A contact point: `contact_point` and the restitution impulses of
`contact_point_impulse`, `contact_point.hpp` 17-22 and 46-50.  A contact
with a body that has no material has no `contact_point_material`, `collision_util.cpp` 358-361. -/
structure Contact (T : Type) where
  normal : V3 T
  pivotA : V3 T
  pivotB : V3 T
  mat : Option (Mat T)
  imp : T
  fimp0 : T
  fimp1 : T

/-- `contact_manifold` with the list of its contact points, `contact_manifold.hpp` 14-29; `bouncy` is the
presence of `contact_manifold_with_restitution`. -/
structure Manifold (T : Type) where
  a : Nat
  b : Nat
  bouncy : Bool
  contacts : List (Contact T)

/-- The registry.  `delta` holds `dummy_dv` and `dummy_dw` (`restitution_solver.cpp` 83-84) at 0 and
`delta_linvel`, `delta_angvel` of entity `e` at `e + 1`. -/
structure World (T : Type) where
  body : Nat → Body T
  man : Nat → Option (Manifold T)
  delta : Vel T

/-- What the functions below depend on: constants, square root, `plane_space`, the numbers of iterations
(`settings.hpp` 29-30) and the entity graph: `visited s` lists the nodes in the order in which `traverse`
(`entity_graph.hpp` 357-424) visits them from `s`, `edges n` the edges of `n` in the order of
`visit_edges`.  Both are arbitrary. -/
structure Env (T : Type) where
  root : T → T
  eps : T
  plane : V3 T → V3 T × V3 T
  big : T
  large : T
  threshold : T
  visited : Nat → List Nat
  edges : Nat → List Nat
  individual : Nat
  iterations : Nat

/-- `linvel` as used by the solver: zero for static bodies, `restitution_solver.cpp` 44-50, 182-188. -/
def Body.v (b : Body T) : V3 T := if b.kind = .static then 0 else b.lin

/-- `angvel` as used by the solver, `restitution_solver.cpp` 44-50, 182-188. -/
def Body.w (b : Body T) : V3 T := if b.kind = .static then 0 else b.ang

/-- `inv_m`, `restitution_solver.cpp` 174-180. -/
def Body.im (b : Body T) : T := if b.kind = .dynamic then b.invM else 0

/-- `inv_I`, `restitution_solver.cpp` 174-180. -/
def Body.iI (b : Body T) : M3 T := if b.kind = .dynamic then b.invI else ⟨0, 0, 0⟩

/-- `rA`: `to_world_space(pivot, origin, orn) - pos`, `restitution_solver.cpp` 60, 69, 71, 159, 227, 229. -/
def Body.arm (b : Body T) (pivot : V3 T) : V3 T :=
  toWorldSpace pivot (b.origin.getD b.pos) b.orn - b.pos

/-- Normal relative velocity at a contact, `restitution_solver.cpp` 67-76. -/
def speed (A B : Body T) (c : Contact T) : T :=
  ((A.v + A.w.cross (A.arm c.pivotA)) - (B.v + B.w.cross (B.arm c.pivotB))).dot c.normal

/-- `std::min(a, b)`: `b < a ? b : a`. -/
def stdMin (a b : T) : T := if b < a then b else a

/-- `get_manifold_min_relvel`, `restitution_solver.cpp` 33-81. -/
def minRelvel (E : Env T) (w : World T) (m : Manifold T) : T :=
  m.contacts.foldl (fun acc c => stdMin (speed (w.body m.a) (w.body m.b) c) acc) E.big

/-- The entry of `delta` used for a body, `restitution_solver.cpp` 190-196. -/
def slot (w : World T) (e : Nat) : Nat := if (w.body e).kind = .dynamic then e + 1 else 0

/-- `restitution_solver.cpp` 174-220: the two bodies of the rows of a manifold. -/
def pairOf (w : World T) (m : Manifold T) : Pair T :=
  ⟨slot w m.a, slot w m.b, (w.body m.a).im, (w.body m.b).im, (w.body m.a).iI, (w.body m.b).iI⟩

/-- `{d, cross(rA, d), -d, -cross(rB, d)}`, `restitution_solver.cpp` 234 and 257. -/
def jacOf (w : World T) (m : Manifold T) (c : Contact T) (d : V3 T) : Jac T :=
  ⟨d, ((w.body m.a).arm c.pivotA).cross d, -d, -(((w.body m.b).arm c.pivotB).cross d)⟩

/-- `get_relative_speed`, `constraint_util.cpp` 148-158, of the velocities of the bodies. -/
def speedAlong (w : World T) (m : Manifold T) (J : Jac T) : T :=
  J.linA.dot (w.body m.a).v + J.angA.dot (w.body m.a).w + J.linB.dot (w.body m.b).v +
    J.angB.dot (w.body m.b).w

/-- A normal row and the friction rows of the same contact.  In the code they are two vectors; row `i` of
the one belongs to row `i` of the other (`restitution_solver.cpp` 232, 250, 267-273). -/
structure CRow (T : Type) where
  n : Row T
  f : Friction T

/-- One of the two friction rows, `restitution_solver.cpp` 256-260. -/
def fricRow (w : World T) (m : Manifold T) (c : Contact T) (d : V3 T) : FRow T :=
  ⟨jacOf w m c d, 1 / invEffMass (pairOf w m) (jacOf w m c d), -speedAlong w m (jacOf w m c d), 0⟩

/-- The rows of a contact point, `restitution_solver.cpp` 224-262, with `prepare_row`,
`constraint_row.cpp` 6-22 (the options have error 0). -/
def contactRows (E : Env T) (w : World T) (m : Manifold T) (c : Contact T) : Option (CRow T) :=
  c.mat.map fun mat =>
    ⟨⟨jacOf w m c c.normal, 1 / invEffMass (pairOf w m) (jacOf w m c c.normal),
        -(speedAlong w m (jacOf w m c c.normal) * (1 + mat.restitution)), 0, E.large, 0, pairOf w m⟩,
      ⟨fricRow w m c (E.plane c.normal).1, fricRow w m c (E.plane c.normal).2, mat.friction, 0⟩⟩

/-- The rows of all contacts of a manifold, `restitution_solver.cpp` 153-263. -/
def manifoldRows (E : Env T) (w : World T) (i : Nat) : Option (List (CRow T)) :=
  (w.man i).bind fun m => m.contacts.mapM (contactRows E w m)

/-- The rows of all manifolds of a group, `restitution_solver.cpp` 153-263. -/
def groupRows (E : Env T) (w : World T) (g : List Nat) : Option (List (CRow T)) :=
  (g.mapM (manifoldRows E w)).map List.flatten

/-- One pass of the inner loop, `restitution_solver.cpp` 268-273. -/
def visit (E : Env T) (x : CRow T) (u : Vel T) : CRow T × Vel T :=
  let r := solveRow x.n u
  let u' := applyImpulse r.1.pair r.1.J r.2 u
  let f := solveFriction E.root E.eps x.f r.1 u'
  (⟨r.1, f.1⟩, f.2)

/-- The inner loop, `restitution_solver.cpp` 267-274. -/
def sweep (E : Env T) : List (CRow T) → Vel T → List (CRow T) × Vel T
  | [], u => ([], u)
  | x :: xs, u =>
    let r := visit E x u
    let s := sweep E xs r.2
    (r.1 :: s.1, s.2)

/-- The outer loop, `restitution_solver.cpp` 266-275. -/
def sweeps (E : Env T) : Nat → List (CRow T) × Vel T → List (CRow T) × Vel T
  | 0, s => s
  | k + 1, s => sweeps E k (sweep E s.1 s.2)

/-- The assignments to one contact point, `restitution_solver.cpp` 287-295. -/
def store (c : Contact T) (x : CRow T) : Contact T :=
  { c with imp := x.n.impulse, fimp0 := x.f.row0.impulse, fimp1 := x.f.row1.impulse }

/-- The loop that persists impulses, `restitution_solver.cpp` 281-299: each manifold takes the next rows. -/
def persist : List Nat → List (CRow T) → (Nat → Option (Manifold T)) → Option (Nat → Option (Manifold T))
  | [], _, man => some man
  | i :: g, xs, man =>
    (man i).bind fun m =>
      let n := m.contacts.length
      if xs.length < n then none
      else persist g (xs.drop n)
        (Function.update man i (some { m with contacts := List.zipWith store m.contacts (xs.take n) }))

/-- `v += dv; w += dw` of one body that is not static and `dv = 0; dw = 0`,
`restitution_solver.cpp` 306-314. -/
def applyDelta (w : World T) (e : Nat) : World T :=
  if (w.body e).kind = .static then w
  else
    { w with
      body := Function.update w.body e
        { w.body e with lin := (w.body e).lin + w.delta.1 (e + 1), ang := (w.body e).ang + w.delta.2 (e + 1) }
      delta := (Function.update w.delta.1 (e + 1) 0, Function.update w.delta.2 (e + 1) 0) }

/-- The last loop, `restitution_solver.cpp` 302-316. -/
def applyDeltas : List Nat → World T → Option (World T)
  | [], w => some w
  | i :: g, w => (w.man i).bind fun m => applyDeltas g (applyDelta (applyDelta w m.a) m.b)

/-- `solve_manifolds`, `restitution_solver.cpp` 149-317. -/
def solveGroup (E : Env T) (w : World T) (g : List Nat) : Option (World T) :=
  (groupRows E w g).bind fun xs =>
    let s := sweeps E E.individual (xs, w.delta)
    (persist g s.1 w.man).bind fun man =>
      applyDeltas g { w with man := man, delta := s.2 }

/-- The loop that finds the fastest manifold, `restitution_solver.cpp` 108-124: the edges of an island that
have `contact_manifold_with_restitution`.  An entry that has the tag and is not a manifold is `none`. -/
def fastest (E : Env T) (w : World T) (edges : List Nat) : T × Option Nat :=
  edges.foldl (fun acc i =>
    match w.man i with
    | none => acc
    | some m =>
      if !m.bouncy then acc
      else if minRelvel E w m < acc.1 then (minRelvel E w m, some i) else acc) (E.big, none)

/-- The node where the traversal starts, `restitution_solver.cpp` 319-355. -/
def startNode (w : World T) (m : Manifold T) : Option Nat :=
  let sA := (w.body m.a).v.lengthSqr
  let sB := (w.body m.b).v.lengthSqr
  let first := if sB < sA then m.a else m.b
  let second := if sB < sA then m.b else m.a
  if (w.body first).kind = .dynamic then some first
  else if (w.body second).kind = .dynamic then some second
  else none

/-- Is the edge a manifold that penetrates fast enough, `restitution_solver.cpp` 366-375? -/
def inGroup (E : Env T) (w : World T) (i : Nat) : Bool :=
  match w.man i with
  | none => false
  | some m => decide (minRelvel E w m < E.threshold)

/-- The function called for each node, `restitution_solver.cpp` 359-383. -/
def visitNode (E : Env T) (w : World T) (n : Nat) : Option (World T) :=
  if (w.body n).kind ≠ .dynamic then some w
  else
    let g := (E.edges n).filter (inGroup E w)
    if g.isEmpty then some w else solveGroup E w g

/-- `solve_restitution_iteration`, `restitution_solver.cpp` 86-386, on an island with these edges: the
world afterwards and the result. -/
def iteration (E : Env T) (edges : List Nat) (w : World T) : Option (World T × Bool) :=
  match fastest E w edges with
  | (_, none) => some (w, true)
  | (v, some i) =>
    (w.man i).bind fun m =>
      if E.threshold < v then some (w, true)
      else
        (startNode w m).bind fun s =>
          ((E.visited s).foldlM (visitNode E) w).map fun w' => (w', false)

/-- The loop over the islands, `restitution_solver.cpp` 397-402. -/
def pass (E : Env T) : List (List Nat) → World T → Option (World T × Bool)
  | [], w => some (w, true)
  | isl :: islands, w =>
    (iteration E isl w).bind fun r =>
      (pass E islands r.1).map fun r' => (r'.1, r.2 && r'.2)

/-- The loop over the iterations, `restitution_solver.cpp` 396-407. -/
def passes (E : Env T) (islands : List (List Nat)) : Nat → World T → Option (World T)
  | 0, w => some w
  | k + 1, w => (pass E islands w).bind fun r => if r.2 then some r.1 else passes E islands k r.1

/-- `solve_restitution`, `restitution_solver.cpp` 388-408; `islands` are the edges of the islands that are
awake. -/
def solveRestitution (E : Env T) (islands : List (List Nat)) (w : World T) : Option (World T) :=
  passes E islands E.iterations
    { w with delta := (Function.update w.delta.1 0 0, Function.update w.delta.2 0 0) }

end Edyn.Restitution
