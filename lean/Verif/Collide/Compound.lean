import Verif.Collide.Planes
import Verif.Collide.Sphere
import Verif.Geom.AabbMore
import Verif.Geom.RaycastWorld
import Verif.StaticTree.Props

/-!
# Contact points of compounds (C90): model

`collide` of a compound and a simple shape, `include/edyn/collision/collide.hpp` 281-321, of two compounds,
`src/edyn/collision/collide/collide_compound_compound.cpp`, of a compound and a mesh, `collide_compound_mesh.cpp`, and
of a compound and a plane, `collide_compound_plane.cpp`.  Scalars are exact reals.  `Sh` stands for the shapes a
compound can hold and `coll` for the overloads of `collide` for them: nothing is assumed about them here.
-/

namespace Edyn.Collide

open Edyn.Math hiding lengthSqr_nonneg
open V3 Edyn.Geom Edyn.Contact

/-- `collision_feature`, `include/edyn/collision/collision_feature.hpp` 8-19, with its part, `none` where the part is
left uninitialised.  The base is `none` for the feature `collision_feature{}` of a shape without features. -/
structure PFeat where
  base : Option Feat
  part : Option ℕ
deriving DecidableEq

abbrev PPoint := CPoint ℝ PFeat

/-- What a call of `collide` with an empty result leaves in it, with parts.  `none`: an assertion fails. -/
abbrev PRes := Option (List PPoint)

/-- `collision_context`, `collide.hpp` 11-20. -/
structure BCtx extends Ctx where
  boxA : AABB
  boxB : AABB

/-- `collision_context::swapped`, `collide.hpp` 22-26. -/
def BCtx.swapped (c : BCtx) : BCtx := ⟨c.toCtx.swapped, c.boxB, c.boxA⟩

/-- `swap_collide`, `collide.hpp` 369-374. -/
noncomputable def pswap (f : BCtx → PRes) (c : BCtx) : PRes := (f c.swapped).map (·.map CPoint.swap)

/-- `compound_shape::shape_node`, `include/edyn/shapes/compound_shape.hpp` 30-35. -/
structure Child (Sh : Type) where
  sh : Sh
  pos : V3 ℝ
  orn : Quat ℝ
  box : AABB

/-- A finished compound: the nodes and the tree over their boxes, `compound_shape.hpp` 67-68. -/
structure Comp (Sh : Type) where
  nodes : List (Child Sh)
  tree : List (StaticTree.TNode ℝ)

/-- A box as the trees see it. -/
def toBox (b : AABB) : Box ℝ := ⟨⟨b.min.x, b.min.y, b.min.z⟩, ⟨b.max.x, b.max.y, b.max.z⟩⟩

variable {Sh : Type}

/-- `compound_shape::finish`, `src/edyn/shapes/compound_shape.cpp` 8-26, after the boxes of the nodes have been
computed.  `none`: there is no node. -/
noncomputable def finish (env : StaticTree.Env ℝ) (nodes : List (Child Sh)) : Option (Comp Sh) :=
  (StaticTree.build env (nodes.map fun n => toBox n.box) 1).map fun st => ⟨nodes, st.nodes⟩

/-- The context of a child of the first shape, `collide.hpp` 293-295, `collide_compound_mesh.cpp` 18-20 and
`collide_compound_plane.cpp` 19-21. -/
noncomputable def BCtx.atA (c : BCtx) (n : Child Sh) : BCtx :=
  { c with posA := toWorldSpace n.pos c.posA c.ornA, ornA := c.ornA * n.orn }

/-- The context of a child of the second shape, `collide_compound_compound.cpp` 19-21. -/
noncomputable def BCtx.atB (c : BCtx) (n : Child Sh) : BCtx :=
  { c with posB := toWorldSpace n.pos c.posB c.ornB, ornB := c.ornB * n.orn }

/-- A point of a child as a point of the compound, the first shape: `collide.hpp` 303-310. -/
noncomputable def asPartA (n : Child Sh) (i : ℕ) (p : PPoint) : PPoint :=
  { p with pA := toWorldSpace p.pA n.pos n.orn, fA := some ⟨p.fA.bind (·.base), some i⟩ }

/-- A point of a child as a point of the compound, the second shape: `collide_compound_compound.cpp` 32-41. -/
noncomputable def asPartB (n : Child Sh) (i : ℕ) (p : PPoint) : PPoint :=
  { p with pB := toWorldSpace p.pB n.pos n.orn, fB := some ⟨p.fB.bind (·.base), some i⟩ }

/-- The loop over some children: the points each of them gives are added to the result one after the other,
`collide.hpp` 302-312. -/
noncomputable def gather (K : Consts ℝ) (ids : List ℕ) (f : ℕ → PRes) : PRes :=
  ids.foldlM (fun l i => (f i).map fun ps => ps.foldl (maybeAdd K) l) []

/-- `collide` of a compound and a simple shape, `collide.hpp` 282-314, with `compound_shape::visit`,
`compound_shape.hpp` 81-92; `coll sh` collides the child shape `sh` with the simple shape. -/
noncomputable def compoundShape (K : Consts ℝ) (a : Comp Sh) (coll : Sh → BCtx → PRes) (c : BCtx) : PRes :=
  (StaticTree.queryIds a.tree fun b => b.intersect (toBox (aabbToObject c.boxB c.posA c.ornA))).bind fun ids =>
    gather K ids fun i => a.nodes[i]?.bind fun n => (coll n.sh (c.atA n)).map (·.map (asPartA n i))

/-- The loop of `collide` of two compounds, `collide_compound_compound.cpp` 14-45. -/
noncomputable def compoundLoop (K : Consts ℝ) (a b : Comp Sh) (coll : Sh → Sh → BCtx → PRes) (c : BCtx) : PRes :=
  gather K (List.range b.nodes.length) fun j => b.nodes[j]?.bind fun m =>
    (compoundShape K a (fun s => coll s m.sh) (c.atB m)).map (·.map (asPartB m j))

/-- `collide` of two compounds, `collide_compound_compound.cpp` 6-46. -/
noncomputable def compoundCompound (K : Consts ℝ) (a b : Comp Sh) (coll : Sh → Sh → BCtx → PRes) (c : BCtx) : PRes :=
  if a.nodes.length < b.nodes.length then pswap (compoundLoop K b a coll) c else compoundLoop K a b coll c

/-- `collide` of a compound and a mesh, `collide_compound_mesh.cpp` 8-45; `coll sh` collides the child shape with the
mesh. -/
noncomputable def compoundMesh (K : Consts ℝ) (a : Comp Sh) (coll : Sh → BCtx → PRes) (c : BCtx) : PRes :=
  gather K (List.range a.nodes.length) fun i => a.nodes[i]?.bind fun n =>
    (coll n.sh { c.atA n with boxA := aabbToWorld n.box c.posA c.ornA }).map (·.map (asPartA n i))

/-- `AABB::inset` with minus the breaking threshold, `include/edyn/comp/aabb.hpp` 16-18. -/
def AABB.grow (brk : ℝ) (b : AABB) : AABB :=
  ⟨⟨b.min.x - brk, b.min.y - brk, b.min.z - brk⟩, ⟨b.max.x + brk, b.max.y + brk, b.max.z + brk⟩⟩

/-- `collide` of a compound and a plane, `collide_compound_plane.cpp` 7-41; `coll sh` collides the child shape with
the plane and `brk` is `contact_breaking_threshold`. -/
noncomputable def compoundPlane (K : Consts ℝ) (brk : ℝ) (a : Comp Sh) (coll : Sh → BCtx → PRes) (c : BCtx) : PRes :=
  gather K (List.range a.nodes.length) fun i => a.nodes[i]?.bind fun n =>
    if (toBox (AABB.grow brk (aabbToWorld n.box c.posA c.ornA))).intersect (toBox c.boxB) then
      (coll n.sh (c.atA n)).map (·.map (asPartA n i))
    else some []

/-! ## Specification -/

/-- The point without the parts. -/
def _root_.Edyn.Contact.CPoint.unparted (p : PPoint) : Point :=
  ⟨p.pA, p.pB, p.n, p.dist, p.att, p.fA.bind (·.base), p.fB.bind (·.base)⟩

/-- A child as a set of points of the world, for a compound placed at `pos` and `orn`. -/
def childSet (S : Sh → Shape) (n : Child Sh) (pos : V3 ℝ) (orn : Quat ℝ) : V3 ℝ → Prop :=
  Placed (Placed (S n.sh) n.pos n.orn) pos orn

/-- The points of a compound: those of its children. -/
def compSet (S : Sh → Shape) (a : Comp Sh) (pos : V3 ℝ) (orn : Quat ℝ) : V3 ℝ → Prop :=
  fun w => ∃ n ∈ a.nodes, childSet S n pos orn w

/-- In the world `p`, a point of two shapes with the context `c`, is the point `q` of two shapes with the context
`d`. -/
structure Same (c : Ctx) (p : PPoint) (d : Ctx) (q : PPoint) : Prop where
  wA : toWorldSpace p.pA c.posA c.ornA = toWorldSpace q.pA d.posA d.ornA
  wB : toWorldSpace p.pB c.posB c.ornB = toWorldSpace q.pB d.posB d.ornB
  n : p.n = q.n
  dist : p.dist = q.dist
  att : p.att = q.att

/-- The compound is legal: its children have unit orientations and lie in their boxes, and it has been finished. -/
structure Comp.Ok (S : Sh → Shape) (a : Comp Sh) : Prop where
  unit : ∀ n ∈ a.nodes, n.orn.lengthSqr = 1
  boxed : ∀ n ∈ a.nodes, n.box.Encloses (Placed (S n.sh) n.pos n.orn)
  done : ∃ env : StaticTree.Env ℝ, env.Ok ∧ StaticTree.IdIsItem env ∧ finish env a.nodes = some a

/-- The result is right for two shapes up to the distance `t`: points are reported exactly when the shapes are that
close, and every point is good. -/
def RightAt (t : ℝ) (SA SB : V3 ℝ → Prop) (c : Ctx) (r : PRes) : Prop :=
  ∃ l, r = some l ∧ (l ≠ [] ↔ Near SA SB t) ∧ ∀ p ∈ l, Good SA SB c p.unparted

/-! ## Lemmas -/

theorem gather_eq (K : Consts ℝ) (f : ℕ → PRes) (g : ℕ → List PPoint) (ids : List ℕ) (h : ∀ i ∈ ids, f i = some (g i)) :
    gather K ids f = some (maybeAddAll K (ids.flatMap g)) := by
  have main : ∀ (ids : List ℕ) (l : List PPoint), (∀ i ∈ ids, f i = some (g i)) →
      ids.foldlM (fun l i => (f i).map fun ps => ps.foldl (maybeAdd K) l) l =
        some ((ids.flatMap g).foldl (maybeAdd K) l) := by
    intro ids
    induction ids with
    | nil => intro l _; rfl
    | cons i ids ih =>
      intro l hl
      rw [List.foldlM_cons, hl i (by simp)]
      simp only [Option.map_some, Option.bind_eq_bind, Option.bind_some, List.flatMap_cons, List.foldl_append]
      exact ih _ fun j hj => hl j (by simp [hj])
  exact main ids [] h

/-- The points which a loop over some children leaves: at most four, each from a child, and one if a child has one. -/
theorem gather_spec (K : Consts ℝ) (f : ℕ → PRes) (ids : List ℕ) (h : ∀ i ∈ ids, ∃ ps, f i = some ps) :
    ∃ l, gather K ids f = some l ∧ l.length ≤ 4 ∧ (∀ p ∈ l, ∃ i ∈ ids, ∃ ps, f i = some ps ∧ p ∈ ps) ∧
      (l ≠ [] ↔ ∃ i ∈ ids, ∃ ps, f i = some ps ∧ ps ≠ []) := by
  have hg : ∀ i ∈ ids, f i = some ((f i).getD []) := by
    intro i hi
    obtain ⟨ps, e⟩ := h i hi
    rw [e]; rfl
  obtain ⟨m1, m2, m3⟩ := maybe_add_all K (ids.flatMap fun i => (f i).getD [])
  refine ⟨_, gather_eq K f _ ids hg, m1, ?_, m3.trans ?_⟩
  · intro p hp
    obtain ⟨i, hi, hq⟩ := List.mem_flatMap.1 (m2 p hp)
    exact ⟨i, hi, _, hg i hi, hq⟩
  · constructor
    · intro hne
      obtain ⟨p, hp⟩ := List.exists_mem_of_ne_nil _ hne
      obtain ⟨i, hi, hq⟩ := List.mem_flatMap.1 hp
      exact ⟨i, hi, _, hg i hi, List.ne_nil_of_mem hq⟩
    · rintro ⟨i, hi, ps, e, hne⟩
      obtain ⟨p, hp⟩ := List.exists_mem_of_ne_nil _ hne
      apply List.ne_nil_of_mem (a := p)
      refine List.mem_flatMap.2 ⟨i, hi, ?_⟩
      rw [e]; exact hp

/-- Placing a point in the child and then in the compound is placing it in the child where it is in the world. -/
theorem place_place (n : Child Sh) (pos v : V3 ℝ) {orn : Quat ℝ} (ho : orn.lengthSqr = 1) (hn : n.orn.lengthSqr = 1) :
    toWorldSpace (toWorldSpace v n.pos n.orn) pos orn = toWorldSpace v (toWorldSpace n.pos pos orn) (orn * n.orn) := by
  unfold toWorldSpace
  rw [rotate_mul orn n.orn ho hn, rotate_add]
  ext <;> simp <;> ring

theorem same_asPartA {c : BCtx} (ho : c.ornA.lengthSqr = 1) {n : Child Sh} (hn : n.orn.lengthSqr = 1) (i : ℕ)
    (q : PPoint) : Same c.toCtx (asPartA n i q) (c.atA n).toCtx q :=
  ⟨place_place n c.posA q.pA ho hn, rfl, rfl, rfl, rfl⟩

theorem same_asPartB {c : BCtx} (ho : c.ornB.lengthSqr = 1) {n : Child Sh} (hn : n.orn.lengthSqr = 1) (i : ℕ)
    (q : PPoint) : Same c.toCtx (asPartB n i q) (c.atB n).toCtx q :=
  ⟨rfl, place_place n c.posB q.pB ho hn, rfl, rfl, rfl⟩

/-- What is good about a point in the world stays good. -/
theorem Same.good {c d : Ctx} {p q : PPoint} (h : Same c p d q) {SA SB : V3 ℝ → Prop}
    (hg : Good SA SB d q.unparted) : Good SA SB c p.unparted := by
  obtain ⟨g1, g2, g3, g4⟩ := hg
  obtain ⟨e1, e2, e3, e4, -⟩ := h
  simp only [Ctx.wA, Ctx.wB, CPoint.unparted] at g1 g2 g3 g4
  refine ⟨?_, ?_, ?_, ?_⟩ <;> simp only [Ctx.wA, Ctx.wB, CPoint.unparted, e1, e2, e3, e4]
  exacts [g1, g2, g3, g4]

theorem overlap_of_common {a b : AABB} {w : V3 ℝ} (ha : a.Has w) (hb : b.Has w) :
    (toBox a).intersect (toBox b) = true := by
  obtain ⟨⟨a1, a2⟩, ⟨a3, a4⟩, a5, a6⟩ := ha
  obtain ⟨⟨b1, b2⟩, ⟨b3, b4⟩, b5, b6⟩ := hb
  simp only [Box.intersect, toBox, decide_eq_true_eq, Bool.and_eq_true]
  and_intros <;> (first | exact decide_eq_true (by linarith) | linarith)

/-- The tree of a finished compound finds exactly the children whose boxes overlap the given one. -/
theorem visit_exact {S : Sh → Shape} {a : Comp Sh} (ha : a.Ok S) (q : Box ℝ) :
    ∃ out, StaticTree.queryIds a.tree (fun b => b.intersect q) = some out ∧
      ∀ i, i ∈ out ↔ ∃ n, a.nodes[i]? = some n ∧ (toBox n.box).intersect q = true := by
  obtain ⟨env, hok, hid, hf⟩ := ha.done
  unfold finish at hf
  obtain ⟨st, hst, he⟩ := Option.map_eq_some_iff.1 hf
  have ht : a.tree = st.nodes := by rw [← he]
  have hne : (a.nodes.map fun n => toBox n.box) ≠ [] := by
    intro h0
    rw [h0] at hst
    simp [StaticTree.build] at hst
  obtain ⟨st', out, h1, h2, -, h4⟩ := StaticTree.query_single_exact hok hid hne
    (test := fun b => b.intersect q) (StaticTree.overlap_monotone q)
  rw [hst] at h1
  obtain rfl := Option.some.inj h1
  refine ⟨out, by rw [ht]; exact h2, fun i => (h4 i).trans ?_⟩
  constructor
  · rintro ⟨b, hb, hq⟩
    simp only [List.getElem?_map, Option.map_eq_some_iff] at hb
    obtain ⟨n, hn, rfl⟩ := hb
    exact ⟨n, hn, hq⟩
  · rintro ⟨n, hn, hq⟩
    exact ⟨_, by simp [hn], hq⟩

end Edyn.Collide
