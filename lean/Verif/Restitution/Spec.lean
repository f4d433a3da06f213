import Verif.Restitution.Model
import Verif.Solver.Energy

/-!
# What the restitution solver has to do (C86)

The impulse exchanged at a contact is a vector `P`: it changes the velocity of the first body by `P` over
its mass and that of the second body by minus `P` over its mass, and the angular velocities by the moments
of `P` and `-P` through the inverse inertia.  Bodies that are not dynamic take no impulse.
-/

namespace Edyn.Restitution

open Edyn.Math Edyn.Solver

variable {T : Type} [Field T] [LinearOrder T]

/-- The impulse a contact point reports: the normal impulse along its normal and the friction impulses
along the two tangents. -/
def reported (plane : V3 T → V3 T × V3 T) (c : Contact T) : V3 T :=
  V3.smul c.imp c.normal + V3.smul c.fimp0 (plane c.normal).1 + V3.smul c.fimp1 (plane c.normal).2

/-- Change of the linear velocity of `b` by an impulse `P`. -/
def kick (b : Body T) (P : V3 T) : V3 T := if b.kind = .dynamic then V3.smul b.invM P else 0

/-- Change of the angular velocity of `b` by an impulse `P` at an offset `r` from its centre of mass. -/
def twist (b : Body T) (r P : V3 T) : V3 T := if b.kind = .dynamic then b.invI.mulVec (r.cross P) else 0

/-- Change of the velocities of body `e` by an impulse at a contact of a manifold. -/
def push (w : World T) (m : Manifold T) (c : Contact T) (P : V3 T) (e : Nat) : V3 T × V3 T :=
  ((if e = m.a then kick (w.body m.a) P else 0) - (if e = m.b then kick (w.body m.b) P else 0),
   (if e = m.a then twist (w.body m.a) ((w.body m.a).arm c.pivotA) P else 0) -
     (if e = m.b then twist (w.body m.b) ((w.body m.b).arm c.pivotB) P else 0))

/-- Change of the velocities of body `e` by all the impulses reported by the contacts of a manifold. -/
def pushAll (plane : V3 T → V3 T × V3 T) (w : World T) (m : Manifold T) (e : Nat) : V3 T × V3 T :=
  (m.contacts.map fun c => push w m c (reported plane c) e).sum

/-- The sum of the changes of velocity of body `e` by the impulses reported by the manifolds in `g`. -/
def change (plane : V3 T → V3 T × V3 T) (w : World T) (man : Nat → Option (Manifold T)) (g : List Nat)
    (e : Nat) : V3 T × V3 T :=
  (g.map fun i => (man i).elim 0 fun m => pushAll plane w m e).sum

/-- The same contact point up to the impulses it reports. -/
def Contact.Same (c c' : Contact T) : Prop :=
  c' = { c with imp := c'.imp, fimp0 := c'.fimp0, fimp1 := c'.fimp1 }

/-- The same manifold up to the impulses reported by its contact points. -/
def Manifold.Same (m m' : Manifold T) : Prop :=
  m'.a = m.a ∧ m'.b = m.b ∧ m'.bouncy = m.bouncy ∧ List.Forall₂ Contact.Same m.contacts m'.contacts

/-- The same body up to its velocities, which are those of before if it is not dynamic. -/
def Body.Same (b b' : Body T) : Prop :=
  b' = { b with lin := b'.lin, ang := b'.ang } ∧ (b.kind ≠ .dynamic → b' = b)

/-- The same world up to the velocities of dynamic bodies and the impulses reported by contact points. -/
structure World.Same (w w' : World T) : Prop where
  body : ∀ e, Body.Same (w.body e) (w'.body e)
  man : ∀ i, Option.Rel Manifold.Same (w.man i) (w'.man i)

/-- The impulses reported by a contact are admissible: the bodies are pushed apart, and the friction is at
most the coefficient of friction times the normal impulse. -/
def Contact.Admissible (c : Contact T) : Prop :=
  0 ≤ c.imp ∧ ∀ mat, c.mat = some mat → c.fimp0 ^ 2 + c.fimp1 ^ 2 ≤ (mat.friction * c.imp) ^ 2

/-- All contacts of all manifolds report admissible impulses. -/
def World.Admissible (w : World T) : Prop :=
  ∀ i m, w.man i = some m → ∀ c ∈ m.contacts, c.Admissible

/-- Linear momentum of the bodies in `S`. -/
def momentum (S : Finset Nat) (mass : Nat → T) (w : World T) : V3 T :=
  ∑ e ∈ S, V3.smul (mass e) (w.body e).lin

/-- All contacts of a manifold separate, or approach slower than the threshold. -/
def Slow (E : Env T) (w : World T) (m : Manifold T) : Prop :=
  ∀ c ∈ m.contacts, E.threshold < speed (w.body m.a) (w.body m.b) c

end Edyn.Restitution
