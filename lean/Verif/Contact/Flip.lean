import Verif.Math.Rotation
import Verif.Math.Real

/-!
# Exchanging the bodies of a contact (C47)

`collision_result::swap`, `include/edyn/collision/collision_result.hpp` 22-46, `swap_manifold`,
`src/edyn/util/constraint_util.cpp` 104-131, and the flips made when contacts are imported,
`src/edyn/networking/util/import_contact_manifolds.cpp` 17-26.  `F` stands for `collision_feature`.
-/

namespace Edyn.Contact

open Edyn.Math

variable {T : Type} [Field T] {F : Type}

/-- `contact_normal_attachment`, `include/edyn/collision/contact_normal_attachment.hpp` 16-20. -/
inductive Att where
  | none
  | onA
  | onB
deriving DecidableEq

/-- The change of attachment in `collision_point::swap`, `collision_result.hpp` 27-31. -/
def Att.swap : Att → Att
  | .onA => .onB
  | .onB => .onA
  | .none => .none

/-- `collision_result::collision_point`, `collision_result.hpp` 13-20. -/
@[ext] structure CPoint (T F : Type) where
  pA : V3 T
  pB : V3 T
  n : V3 T
  dist : T
  att : Att
  fA : Option F
  fB : Option F
deriving DecidableEq

/-- `collision_point::swap`, lines 22-34. -/
def CPoint.swap (p : CPoint T F) : CPoint T F :=
  { p with pA := p.pB, pB := p.pA, fA := p.fB, fB := p.fA, n := V3.smul (-1) p.n, att := p.att.swap }

/-- `collision_result`, lines 37-38: an array of which the first `num` points are used. -/
structure CResult (T F : Type) where
  num : Nat
  point : List (CPoint T F)

/-- `collision_result::swap`, lines 40-45. -/
def CResult.swap (r : CResult T F) : CResult T F :=
  { r with point := (r.point.take r.num).map CPoint.swap ++ r.point.drop r.num }

/-- A body: `origin` and `orientation`, and the position of the centre of mass. -/
structure Body (T : Type) where
  origin : V3 T
  orn : Quat T
  pos : V3 T

/-! ### Specification -/

/-- `q` is the contact `p` seen from the other body. -/
structure Mirrored (p q : CPoint T F) : Prop where
  pA : q.pA = p.pB
  pB : q.pB = p.pA
  n : q.n = -p.n
  dist : q.dist = p.dist
  fA : q.fA = p.fB
  fB : q.fB = p.fA
  onA : q.att = .onA ↔ p.att = .onB
  onB : q.att = .onB ↔ p.att = .onA

/-- The separation of the two points along the normal, in world space. -/
def separation (A B : Body T) (pA pB n : V3 T) : T :=
  V3.dot (toWorldSpace pA A.origin A.orn - toWorldSpace pB B.origin B.orn) n

/-- The Jacobian of a constraint that keeps the two points from moving along `d`:
`src/edyn/constraints/contact_constraint.cpp` 21-28 with the normal, 43-50 with the tangents. -/
def jac (A B : Body T) (pA pB d : V3 T) : (V3 T × V3 T) × (V3 T × V3 T) :=
  ((d, V3.cross (toWorldSpace pA A.origin A.orn - A.pos) d),
   (-d, -V3.cross (toWorldSpace pB B.origin B.orn - B.pos) d))

/-! ### Collision results -/

theorem neg_one_smul (v : V3 T) : V3.smul (-1) v = -v := by ext <;> simp

theorem V3.neg_neg (v : V3 T) : -(-v) = v := by ext <;> simp

theorem swap_mirrors (p : CPoint T F) : Mirrored p p.swap := by
  refine ⟨rfl, rfl, neg_one_smul _, rfl, rfl, rfl, ?_, ?_⟩ <;> cases h : p.att <;> simp [CPoint.swap, Att.swap, h]

theorem swap_swap (p : CPoint T F) : p.swap.swap = p := by
  ext1 <;> try rfl
  · simp only [CPoint.swap, neg_one_smul, V3.neg_neg]
  · cases h : p.att <;> simp [CPoint.swap, Att.swap, h]

theorem result_swap_swap (r : CResult T F) (h : r.num ≤ r.point.length) : r.swap.swap = r := by
  obtain ⟨k, ps⟩ := r
  simp only at h
  have hl : ((ps.take k).map CPoint.swap).length = k := by simp [h]
  simp only [CResult.swap]
  rw [List.take_append_of_le_length (by omega), List.take_of_length_le (by omega), List.map_map,
    List.drop_append_of_le_length (by omega), List.drop_of_length_le (by omega : ((ps.take k).map CPoint.swap).length ≤ k)]
  rw [show CPoint.swap ∘ CPoint.swap = (_root_.id : CPoint T F → CPoint T F) from funext swap_swap, List.map_id,
    List.nil_append, List.take_append_drop]

/-- The points of a swapped result are the mirrored points. -/
theorem result_swap (r : CResult T F) (h : r.num ≤ r.point.length) : r.swap.num = r.num ∧
    ∀ i < r.num, ∃ p q, r.point[i]? = some p ∧ r.swap.point[i]? = some q ∧ Mirrored p q := by
  refine ⟨rfl, fun i hi => ?_⟩
  have hl : i < r.point.length := by omega
  refine ⟨r.point[i], r.point[i].swap, List.getElem?_eq_getElem hl, ?_, swap_mirrors _⟩
  simp only [CResult.swap]
  rw [List.getElem?_append_left (by simp; omega), List.getElem?_map, List.getElem?_take_of_lt hi,
    List.getElem?_eq_getElem hl]
  rfl

/-- A mirrored contact of the exchanged bodies has the same separation, and its constraint acts on the
bodies in the same way. -/
theorem mirrored_same_contact {p q : CPoint T F} (h : Mirrored p q) (A B : Body T) :
    separation B A q.pA q.pB q.n = separation A B p.pA p.pB p.n ∧
    jac B A q.pA q.pB q.n = ((jac A B p.pA p.pB p.n).2, (jac A B p.pA p.pB p.n).1) := by
  obtain ⟨h1, h2, h3, -, -, -, -, -⟩ := h
  constructor
  · rw [h1, h2, h3]
    simp only [separation, V3.dot, V3.sub_x, V3.sub_y, V3.sub_z, V3.neg_x, V3.neg_y, V3.neg_z]
    ring
  · rw [h1, h2, h3]
    simp only [jac, Prod.mk.injEq, true_and, V3.neg_neg]
    constructor
    · ext <;> simp <;> ring
    · ext <;> simp <;> ring

/-! ### Contact points -/

/-- `contact_point`, `contact_point_geometry` and `contact_point_impulse`,
`include/edyn/collision/contact_point.hpp` 17-60, with the bodies of the contact constraint. -/
structure Cont (T F : Type) where
  pt : CPoint T F
  localN : V3 T
  life : Nat
  impN : T
  imp0 : T
  imp1 : T
  con : Option (Nat × Nat)
deriving DecidableEq

/-- The local normal assigned by `merge_point` and `create_contact_point`,
`src/edyn/util/collision_util.cpp` 219-225 and 339-345. -/
def localNormal (A B : Body T) (p : CPoint T F) : V3 T :=
  match p.att with
  | .none => 0
  | .onA => Quat.rotate A.orn.conjugate p.n
  | .onB => Quat.rotate B.orn.conjugate p.n

/-- `merge_point`, `collision_util.cpp` 205-225. -/
def mergePoint (A B : Body T) (p : CPoint T F) (c : Cont T F) : Cont T F :=
  { c with pt := p, localN := localNormal A B p }

/-- `contact_manifold` with its contact points. -/
structure Manifold (T F : Type) where
  body0 : Nat
  body1 : Nat
  points : List (Cont T F)

/-- `swap_manifold`, `src/edyn/util/constraint_util.cpp` 104-131. -/
def swapManifold (m : Manifold T F) : Manifold T F :=
  { body0 := m.body1, body1 := m.body0
    points := m.points.map fun c => { c with pt := c.pt.swap, con := c.con.map fun _ => (m.body1, m.body0) } }

/-- The normal that `contact_constraint::solve_position` uses, `contact_constraint.cpp` 67-76. -/
def positionNormal (A B : Body T) (c : Cont T F) : V3 T :=
  match c.pt.att with
  | .none => c.pt.n
  | .onA => Quat.rotate A.orn c.localN
  | .onB => Quat.rotate B.orn c.localN

/-- The distance that `contact_constraint::solve_position` computes, line 78. -/
def positionDistance (A B : Body T) (c : Cont T F) : T := separation A B c.pt.pA c.pt.pB (positionNormal A B c)

/-- Without rotation the normal of the position solver is the contact normal. -/
theorem merged_normal_agrees {A B : Body T} (hA : A.orn.lengthSqr = 1) (hB : B.orn.lengthSqr = 1) (p : CPoint T F)
    (c : Cont T F) : positionNormal A B (mergePoint A B p c) = p.n := by
  simp only [positionNormal, mergePoint, localNormal]
  cases h : p.att <;> simp only
  · exact (rotate_conjugate A.orn hA p.n).2
  · exact (rotate_conjugate B.orn hB p.n).2

/-- Swapping a manifold exchanges its bodies, mirrors its contact points and keeps their ages and normal
impulses; the contact constraints refer to the bodies in the new order. -/
theorem swap_manifold_mirrors (m : Manifold T F) :
    (swapManifold m).body0 = m.body1 ∧ (swapManifold m).body1 = m.body0 ∧
    (swapManifold m).points.length = m.points.length ∧
    ∀ (i : Nat) c, m.points[i]? = some c → ∃ d, (swapManifold m).points[i]? = some d ∧ Mirrored c.pt d.pt ∧
      d.life = c.life ∧ d.impN = c.impN ∧ (c.con ≠ none → d.con = some ((swapManifold m).body0, (swapManifold m).body1)) ∧
      (c.con = none → d.con = none) := by
  refine ⟨rfl, rfl, by simp [swapManifold], ?_⟩
  intro i c hc
  refine ⟨{ c with pt := c.pt.swap, con := c.con.map fun _ => (m.body1, m.body0) }, ?_, swap_mirrors c.pt, rfl, rfl,
    ?_, ?_⟩
  · simp [swapManifold, hc]
  · intro h
    cases e : c.con with
    | none => exact absurd e h
    | some x => rfl
  · intro h; simp [h]

/-- Swapping twice gives the manifold back. -/
theorem swap_manifold_twice (m : Manifold T F) (h : ∀ c ∈ m.points, ∀ b, c.con = some b → b = (m.body0, m.body1)) :
    swapManifold (swapManifold m) = m := by
  obtain ⟨a, b, ps⟩ := m
  simp only [swapManifold, Manifold.mk.injEq, true_and, List.map_map]
  rw [List.map_congr_left (g := fun c => c), List.map_id']
  intro c hc
  obtain ⟨pt, ln, li, i0, i1, i2, con⟩ := c
  simp only [Function.comp, swap_swap, Cont.mk.injEq, true_and]
  cases con with
  | none => rfl
  | some x => simp [h _ hc x rfl]

/-! ### What is not mirrored -/

/-- The full claim: the position solver treats a swapped contact as it treats the original. -/
def SwapKeepsNormalFull (T F : Type) [Field T] : Prop :=
  ∀ (A B : Body T) (p : CPoint T F) (c : Cont T F) (m : Manifold T F), A.orn.lengthSqr = 1 → B.orn.lengthSqr = 1 →
    m.points = [mergePoint A B p c] → ∀ d ∈ (swapManifold m).points, positionDistance B A d = positionDistance A B (mergePoint A B p c)

/-- The local normal is left as it was, thus the position solver uses the opposite of the normal of the
swapped contact, and finds the opposite of the distance: a penetration is taken for a gap. -/
theorem swapped_normal_reversed {A B : Body T} (hA : A.orn.lengthSqr = 1) (hB : B.orn.lengthSqr = 1) (p : CPoint T F)
    (c : Cont T F) (hatt : p.att ≠ .none) {m : Manifold T F} (hm : m.points = [mergePoint A B p c]) :
    ∀ d ∈ (swapManifold m).points, positionNormal B A d = -d.pt.n ∧
      positionDistance B A d = -positionDistance A B (mergePoint A B p c) := by
  intro d hd
  simp only [swapManifold, hm, List.map_cons, List.map_nil, List.mem_singleton] at hd
  subst hd
  have hn : positionNormal B A
      { mergePoint A B p c with
        pt := (mergePoint A B p c).pt.swap, con := (mergePoint A B p c).con.map fun _ => (m.body1, m.body0) } = p.n := by
    simp only [positionNormal, mergePoint, localNormal, CPoint.swap, Att.swap]
    cases h : p.att
    · exact absurd h hatt
    · exact (rotate_conjugate A.orn hA p.n).2
    · exact (rotate_conjugate B.orn hB p.n).2
  refine ⟨?_, ?_⟩
  · rw [hn]
    show p.n = -(V3.smul (-1) p.n)
    rw [neg_one_smul, V3.neg_neg]
  · simp only [positionDistance]
    rw [hn, merged_normal_agrees hA hB]
    show V3.dot (toWorldSpace p.pB B.origin B.orn - toWorldSpace p.pA A.origin A.orn) p.n =
      -V3.dot (toWorldSpace p.pA A.origin A.orn - toWorldSpace p.pB B.origin B.orn) p.n
    simp only [V3.dot, V3.sub_x, V3.sub_y, V3.sub_z]
    ring

/-- Proved for contacts whose normal is attached to neither body. -/
theorem swap_keeps_normal_partial {A B : Body T} (p : CPoint T F) (c : Cont T F) (hatt : p.att = .none)
    {m : Manifold T F} (hm : m.points = [mergePoint A B p c]) :
    ∀ d ∈ (swapManifold m).points, positionNormal B A d = d.pt.n ∧
      positionDistance B A d = positionDistance A B (mergePoint A B p c) := by
  intro d hd
  simp only [swapManifold, hm, List.map_cons, List.map_nil, List.mem_singleton] at hd
  subst hd
  have hs : p.swap.att = .none := by simp [CPoint.swap, Att.swap, hatt]
  refine ⟨by simp only [positionNormal, mergePoint, hs], ?_⟩
  simp only [positionDistance, positionNormal, mergePoint, hs, hatt]
  exact (mirrored_same_contact (swap_mirrors p) A B).1

/-- A box resting on the ground, one unit deep. -/
def deepA : Body ℚ := ⟨⟨0, 0, 0⟩, ⟨0, 0, 0, 1⟩, ⟨0, 0, 0⟩⟩
def deepB : Body ℚ := ⟨⟨0, 0, 0⟩, ⟨0, 0, 0, 1⟩, ⟨0, 0, 0⟩⟩
def deep : CPoint ℚ Unit := ⟨⟨0, 0, 0⟩, ⟨0, 1, 0⟩, ⟨0, 1, 0⟩, -1, .onB, none, none⟩
def deepC : Cont ℚ Unit := mergePoint deepA deepB deep ⟨deep, 0, 0, 0, 0, 0, some (0, 1)⟩
def deepM : Manifold ℚ Unit := ⟨0, 1, [deepC]⟩

theorem swap_keeps_normal_refuted : ¬ SwapKeepsNormalFull ℚ Unit := by
  intro h
  have h0 := h deepA deepB deep ⟨deep, 0, 0, 0, 0, 0, some (0, 1)⟩ deepM (by decide +kernel) (by decide +kernel) rfl
    _ (List.mem_singleton.2 rfl)
  revert h0
  decide +kernel

example : positionDistance deepA deepB deepC = -1 ∧
    ((swapManifold deepM).points.map fun d => (positionDistance deepB deepA d, d.pt.n)) = [(1, ⟨0, -1, 0⟩)] := by
  decide +kernel

/-! ### Import -/

/-- `flip_contact_point` and `flip_contact_point_geom`, `import_contact_manifolds.cpp` 17-26. -/
def flipImported (c : Cont T F) : Cont T F :=
  { c with pt := { c.pt with pA := c.pt.pB, pB := c.pt.pA, n := V3.smul (-1) c.pt.n, fA := c.pt.fB, fB := c.pt.fA,
                             att := if c.pt.att = .onA then .onB else .onA } }

/-- The full claim: a contact imported into a manifold with the bodies in the other order is the contact
seen from the other body. -/
def ImportMirrorsFull (T F : Type) [Field T] : Prop := ∀ c : Cont T F, Mirrored c.pt (flipImported c).pt

/-- Proved for contacts with an attached normal. -/
theorem import_mirrors_partial (c : Cont T F) (h : c.pt.att ≠ .none) : Mirrored c.pt (flipImported c).pt := by
  refine ⟨rfl, rfl, neg_one_smul _, rfl, rfl, rfl, ?_, ?_⟩ <;> cases e : c.pt.att <;>
    first | exact absurd e h | simp [flipImported, e]

/-- A normal that is attached to no body is attached to the first one by the import, where the local normal
is zero: the position solver then sees no penetration whatever the distance. -/
theorem import_loses_normal {A B : Body T} (p : CPoint T F) (c : Cont T F) (hatt : p.att = .none) :
    (flipImported (mergePoint A B p c)).pt.att = .onA ∧
    positionDistance B A (flipImported (mergePoint A B p c)) = 0 := by
  have h1 : (flipImported (mergePoint A B p c)).pt.att = .onA := by simp [flipImported, mergePoint, hatt]
  refine ⟨h1, ?_⟩
  have h2 : positionNormal B A (flipImported (mergePoint A B p c)) = 0 := by
    simp only [positionNormal, h1]
    show Quat.rotate B.orn (localNormal A B p) = 0
    simp only [localNormal, hatt]
    ext <;> simp [Quat.rotate]
  simp only [positionDistance, separation, h2, V3.dot, V3.zero_x, V3.zero_y, V3.zero_z]
  ring

theorem import_mirrors_refuted : ¬ ImportMirrorsFull ℚ Unit := by
  intro h
  have := (h ⟨⟨0, 0, ⟨0, 1, 0⟩, 0, .none, none, none⟩, 0, 0, 0, 0, 0, none⟩).onA
  revert this
  decide +kernel

/-! ### Friction -/

/-- The impulse that warm starting applies to the first body at a contact: lines 22-28 and 43-53 of
`contact_constraint.cpp`, `plane_space` of the normal giving the directions of friction. -/
noncomputable def startImpulse (c : Cont ℝ F) : V3 ℝ :=
  V3.smul c.impN c.pt.n + V3.smul c.imp0 (planeSpace c.pt.n).1 + V3.smul c.imp1 (planeSpace c.pt.n).2

/-- The directions of friction for the opposite normal. -/
theorem planeSpace_neg (n : V3 ℝ) : planeSpace (-n) = (-(planeSpace n).1, (planeSpace n).2) := by
  unfold planeSpace
  dsimp only
  have habs : |(-n).z| = |n.z| := by simp
  rw [habs]
  by_cases h : |n.z| > Real.sqrt 2 / 2
  · rw [if_pos h, if_pos h]
    have e : (-n).y * (-n).y + (-n).z * (-n).z = n.y * n.y + n.z * n.z := by simp
    rw [e]
    ext <;> simp <;> ring
  · rw [if_neg h, if_neg h]
    have e : (-n).x * (-n).x + (-n).y * (-n).y = n.x * n.x + n.y * n.y := by simp
    rw [e]
    ext <;> simp <;> ring

/-- The full claim: warm starting pushes the bodies of a swapped contact as before the swap, that is, the
impulse on the new first body is opposite to that on the old first body. -/
def SwapKeepsFrictionFull : Prop :=
  ∀ c : Cont ℝ Unit, V3.lengthSqr c.pt.n = 1 → startImpulse { c with pt := c.pt.swap } = -startImpulse c

/-- It is so exactly if there is no friction in the second direction, or none at all. -/
theorem swap_keeps_friction_partial (c : Cont ℝ F) (hn : V3.lengthSqr c.pt.n = 1) :
    startImpulse { c with pt := c.pt.swap } = -startImpulse c ↔ c.imp1 = 0 := by
  obtain ⟨-, hq, -⟩ := planeSpace_orthonormal c.pt.n hn
  have e : startImpulse { c with pt := c.pt.swap } =
      -startImpulse c + V3.smul (2 * c.imp1) (planeSpace c.pt.n).2 := by
    simp only [startImpulse, CPoint.swap, neg_one_smul, planeSpace_neg]
    ext <;> simp <;> ring
  rw [e]
  constructor
  · intro h
    have hx := congrArg V3.x h
    have hy := congrArg V3.y h
    have hz := congrArg V3.z h
    simp only [V3.add_x, V3.add_y, V3.add_z, V3.neg_x, V3.neg_y, V3.neg_z, V3.smul_x, V3.smul_y, V3.smul_z,
      add_eq_left] at hx hy hz
    have : 2 * c.imp1 * V3.lengthSqr (planeSpace c.pt.n).2 = 0 := by
      simp only [V3.lengthSqr, V3.dot]
      linear_combination (planeSpace c.pt.n).2.x * hx + (planeSpace c.pt.n).2.y * hy + (planeSpace c.pt.n).2.z * hz
    rw [hq] at this
    linarith
  · intro h
    rw [h]
    ext <;> simp

theorem swap_keeps_friction_refuted : ¬ SwapKeepsFrictionFull := by
  intro h
  have hn : V3.lengthSqr (⟨0, 1, 0⟩ : V3 ℝ) = 1 := by simp [V3.lengthSqr, V3.dot]
  have := (swap_keeps_friction_partial (F := Unit) ⟨⟨0, 0, ⟨0, 1, 0⟩, 0, .none, none, none⟩, 0, 0, 0, 0, 1, none⟩ hn).1
    (h _ hn)
  exact one_ne_zero this

/-- The hypotheses are met. -/
example : (deep.swap).swap = deep ∧ deep.swap.n = ⟨0, -1, 0⟩ ∧ deep.swap.att = .onA ∧
    separation deepB deepA deep.swap.pA deep.swap.pB deep.swap.n = -1 := by decide +kernel

end Edyn.Contact
