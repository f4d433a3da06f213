import Verif.Common.AMap

/-!
# Model of `contact_manifold_map` and of the manifold creation of the broadphase

* `src/edyn/collision/contact_manifold_map.cpp` lines 17-51
* `src/edyn/collision/broadphase.cpp` lines 143-154 (sequential creation), 221-232 (`finish_collide`)
* `src/edyn/util/constraint_util.cpp` `make_contact_manifold`, `swap_manifold`

`contact_manifold_map::clear` is not called anywhere in the library and is not modelled.
-/

namespace Edyn.ManifoldMap

abbrev Entity := Nat

/-- The `contact_manifold` components in the registry (their `body` arrays) and the pair map. -/
structure State where
  manifolds : AMap Entity (Entity × Entity)
  pairMap : AMap (Entity × Entity) Entity

def init : State := ⟨AMap.empty, AMap.empty⟩

/-- `contact_manifold_map.cpp:17-19` `contains`. -/
def contains (s : State) (a b : Entity) : Bool := s.pairMap.contains (a, b)

/-- `contact_manifold_map.cpp:25-28` `get`. `none`: the assertion fails. -/
def get (s : State) (a b : Entity) : Option Entity := s.pairMap.get? (a, b)

/-- Emplacing a `contact_manifold` on an entity, which triggers
`contact_manifold_map.cpp:34-42` `on_construct_contact_manifold`.
`none`: the entity already has the component, or the assertion at line 39 fails. -/
def construct (s : State) (e b0 b1 : Entity) : Option State :=
  if s.manifolds.contains e then none
  else if s.pairMap.contains (b0, b1) || s.pairMap.contains (b1, b0) then none
  else some ⟨s.manifolds.set e (b0, b1), (s.pairMap.set (b0, b1) e).set (b1, b0) e⟩

/-- Destroying the manifold component/entity, which triggers
`contact_manifold_map.cpp:44-51` `on_destroy_contact_manifold`. `none`: no such manifold. -/
def destroy (s : State) (e : Entity) : Option State :=
  match s.manifolds.get? e with
  | none => none
  | some (b0, b1) =>
    some ⟨s.manifolds.erase e, (s.pairMap.erase (b0, b1)).erase (b1, b0)⟩

/-- `swap_manifold` (`constraint_util.cpp`): exchanges the two bodies of a manifold in place
(no construct/destroy signal). `none`: no such manifold. -/
def swap (s : State) (e : Entity) : Option State :=
  match s.manifolds.get? e with
  | none => none
  | some (b0, b1) => some { s with manifolds := s.manifolds.set e (b1, b0) }

/-- `broadphase.cpp:226-228` (and 147-151): make a manifold for a pair unless it has one. `fresh` is
the entity returned by `registry.create()`. -/
def makeIfAbsent (s : State) (fresh a b : Entity) : Option State :=
  if contains s a b then some s else construct s fresh a b

inductive Op where
  | construct (e b0 b1 : Entity)
  | destroy (e : Entity)
  | swap (e : Entity)
  | makeIfAbsent (fresh a b : Entity)
  deriving Repr, DecidableEq

def step (s : State) : Op → Option State
  | .construct e a b => construct s e a b
  | .destroy e => destroy s e
  | .swap e => swap s e
  | .makeIfAbsent f a b => makeIfAbsent s f a b

def run (s : State) : List Op → Option State
  | [] => some s
  | o :: os => (step s o).bind fun s' => run s' os

end Edyn.ManifoldMap
