import Verif.Collide.CompoundProps
import Verif.Geom.RaycastMesh
import Verif.Geom.AabbFinal

/-!
# Contact points of compounds (C90): compounds of spheres, findings
-/

namespace Edyn.Collide

open Edyn.Math hiding lengthSqr_nonneg
open V3 Edyn.Geom Edyn.Contact

/-- A point of two simple shapes, whose functions do not write the part. -/
def lift (p : Point) : PPoint :=
  ⟨p.pA, p.pB, p.n, p.dist, p.att, p.fA.map (⟨some ·, none⟩), p.fB.map (⟨some ·, none⟩)⟩

theorem lift_unparted (p : Point) : (lift p).unparted = p := by
  obtain ⟨pA, pB, n, d, att, fA, fB⟩ := p
  cases fA <;> cases fB <;> rfl

/-- The function for two simple shapes as the functions for compounds call it. -/
noncomputable def simple (f : Ctx → Res) (c : BCtx) : PRes := (f c.toCtx).map (·.map lift)

/-- A right result for two simple shapes is right with parts. -/
theorem simple_right {SA SB : V3 ℝ → Prop} {f : Ctx → Res} {c : BCtx} (h : Right SA SB c.toCtx (f c.toCtx)) :
    RightAt c.thr SA SB c.toCtx (simple f c) := by
  obtain ⟨l, e, h1, h2⟩ := h
  refine ⟨l.map lift, by simp [simple, e], by simpa using h1, ?_⟩
  intro p hp
  obtain ⟨q, hq, rfl⟩ := List.mem_map.1 hp
  rw [lift_unparted]
  exact h2 q hq

/-- A child which is a sphere of the given radius. -/
def ballChild (r : ℝ) (pos : V3 ℝ) (orn : Quat ℝ) : Child ℝ := ⟨r, pos, orn, sphereAabb r pos⟩

/-- Any number of spheres, at least one, can be finished to a legal compound. -/
theorem balls_ok (bs : List (ℝ × V3 ℝ × Quat ℝ)) (hne : bs ≠ []) (hr : ∀ b ∈ bs, 0 < b.1 ∧ b.2.2.lengthSqr = 1) :
    ∃ a : Comp ℝ, a.nodes = bs.map (fun b => ballChild b.1 b.2.1 b.2.2) ∧ a.Ok ballSet := by
  obtain ⟨st, h, -⟩ := StaticTree.build_exact realEnv_ok
    (boxes := (bs.map fun b => ballChild b.1 b.2.1 b.2.2).map fun n => toBox n.box) (by simpa using hne) (Nat.le_refl 1)
  refine ⟨⟨bs.map fun b => ballChild b.1 b.2.1 b.2.2, st.nodes⟩, rfl, ?_, ?_, realEnv, realEnv_ok, realEnv_item, ?_⟩
  · intro n hn
    obtain ⟨b, hb, rfl⟩ := List.mem_map.1 hn
    exact (hr b hb).2
  · intro n hn
    obtain ⟨b, hb, rfl⟩ := List.mem_map.1 hn
    exact (sphere_aabb_spec b.1 (hr b hb).1.le b.2.1 b.2.2 (hr b hb).2).1
  · unfold finish
    rw [h]; rfl

theorem child_placed {Sh : Type} (S : Sh → Shape) (n : Child Sh) (pos : V3 ℝ) {orn : Quat ℝ} (ho : orn.lengthSqr = 1)
    (hn : n.orn.lengthSqr = 1) :
    childSet S n pos orn = Placed (S n.sh) (toWorldSpace n.pos pos orn) (orn * n.orn) := by
  funext w
  apply propext
  constructor
  · rintro ⟨u, ⟨v, hv, rfl⟩, rfl⟩
    exact ⟨v, hv, place_place n pos v ho hn⟩
  · rintro ⟨v, hv, rfl⟩
    exact ⟨_, ⟨v, hv, rfl⟩, (place_place n pos v ho hn).symm⟩

theorem mul_unit {q r : Quat ℝ} (hq : q.lengthSqr = 1) (hr : r.lengthSqr = 1) : (q * r).lengthSqr = 1 := by
  have : (q * r).lengthSqr = q.lengthSqr * r.lengthSqr := by simp [Quat.lengthSqr]; ring
  rw [this, hq, hr, mul_one]

/-- **C90, a compound of spheres and a sphere, partial**: no assumption is left about the children, other than that
their centres are not closer to that of the other sphere than the tolerance unless they coincide. -/
theorem compound_of_spheres_partial (K : Consts ℝ) (eps rB : ℝ) (he : 0 ≤ eps) (rb : 0 < rB) {a : Comp ℝ}
    (ha : a.Ok ballSet) (hr : ∀ n ∈ a.nodes, 0 < n.sh) {c : BCtx} (hc : c.Ok) (hB : c.boxB = sphereAabb rB c.posB)
    (hcl : ∀ n ∈ a.nodes, toWorldSpace n.pos c.posA c.ornA = c.posB ∨
      eps * eps < lengthSqr (toWorldSpace n.pos c.posA c.ornA - c.posB)) :
    ∃ l, compoundShape K a (fun r => simple (sphereSphere eps r rB)) c = some l ∧ l.length ≤ 4 ∧
      (∀ p ∈ l, PartGoodA ballSet a (Placed (ballSet rB) c.posB c.ornB) c p) ∧
      (l ≠ [] → Near (compSet ballSet a c.posA c.ornA) (Placed (ballSet rB) c.posB c.ornB) c.thr) ∧
      ((∃ w, compSet ballSet a c.posA c.ornA w ∧ Placed (ballSet rB) c.posB c.ornB w) → l ≠ []) := by
  refine compound_shape_partial K ha _ hc.1 hc.2.2 (by rw [hB]; exact (sphere_aabb_spec rB rb.le c.posB c.ornB hc.2.1).1) ?_
  intro n hn
  rw [child_placed ballSet n c.posA hc.1 (ha.unit n hn)]
  exact simple_right (sphere_sphere_partial eps n.sh rB he (c.atA n).toCtx (hr n hn) rb
    ⟨mul_unit hc.1 (ha.unit n hn), hc.2⟩ (hcl n hn))

/-- A dumbbell: two unit spheres, two units to either side of the origin; the second one is turned half around. -/
noncomputable def dumbbell : List (ℝ × V3 ℝ × Quat ℝ) := [(1, ⟨-2, 0, 0⟩, 1), (1, ⟨2, 0, 0⟩, ⟨0, 0, 1, 0⟩)]

/-- Not vacuous: a dumbbell whose second sphere overlaps a unit sphere gets a point. -/
example : ∃ (a : Comp ℝ) (l : List PPoint), a.Ok ballSet ∧ a.nodes.length = 2 ∧
    compoundShape ⟨0, 0, 0, 0⟩ a (fun r => simple (sphereSphere 0 r 1))
      ⟨⟨0, 1, ⟨3, 0, 0⟩, 1, 1 / 100⟩, sphereAabb 5 0, sphereAabb 1 ⟨3, 0, 0⟩⟩ = some l ∧ l ≠ [] := by
  obtain ⟨a, e, ha⟩ := balls_ok dumbbell (by simp [dumbbell]) (by
    simp [dumbbell, one_unit]
    norm_num [Quat.lengthSqr])
  have hm : ∀ n ∈ a.nodes, n = ballChild 1 ⟨-2, 0, 0⟩ 1 ∨ n = ballChild 1 ⟨2, 0, 0⟩ ⟨0, 0, 1, 0⟩ := by
    rw [e]; simp [dumbbell]
  obtain ⟨l, h1, -, -, -, h5⟩ := compound_of_spheres_partial ⟨0, 0, 0, 0⟩ 0 1 le_rfl one_pos ha
    (by intro n hn; rcases hm n hn with rfl | rfl <;> simp [ballChild])
    (c := ⟨⟨0, 1, ⟨3, 0, 0⟩, 1, 1 / 100⟩, sphereAabb 5 0, sphereAabb 1 ⟨3, 0, 0⟩⟩)
    ⟨one_unit, one_unit, by norm_num⟩ rfl (by
      intro n hn
      right
      rcases hm n hn with rfl | rfl <;>
        norm_num [ballChild, toWorldSpace, rotate_one, lengthSqr, dot])
  refine ⟨a, l, ha, by rw [e]; rfl, h1, h5 ⟨⟨5 / 2, 0, 0⟩, ⟨ballChild 1 ⟨2, 0, 0⟩ ⟨0, 0, 1, 0⟩, ?_, ?_⟩, ?_⟩⟩
  · rw [e]; simp [dumbbell]
  · refine ⟨⟨5 / 2, 0, 0⟩, ⟨⟨-1 / 2, 0, 0⟩, by norm_num [ballChild, ballSet, lengthSqr, dot], ?_⟩, ?_⟩
    · ext <;> norm_num [ballChild, Quat.rotate, V3.cross, V3.dot]
    · rw [rotate_one]; ext <;> simp
  · refine ⟨⟨-1 / 2, 0, 0⟩, by norm_num [ballSet, lengthSqr, dot], ?_⟩
    rw [rotate_one]; ext <;> norm_num

/-- The context of a compound at the origin and a unit sphere a two hundredth beyond the touching position; the
threshold is a hundredth, that of `detect_collision`, `src/edyn/util/collision_util.cpp` 465. -/
noncomputable def justApart : BCtx :=
  ⟨⟨0, 1, ⟨401 / 200, 0, 0⟩, 1, 1 / 100⟩, sphereAabb 1 0, sphereAabb 1 ⟨401 / 200, 0, 0⟩⟩

theorem aabbToObject_one (b : AABB) : aabbToObject b 0 1 = b := by
  obtain ⟨⟨x0, y0, z0⟩, ⟨x1, y1, z1⟩⟩ := b
  have hc : (1 : Quat ℝ).conjugate = 1 := by ext <;> simp [Quat.conjugate]
  simp only [aabbToObject, toObjectSpace, rotate_one, hc]
  congr 1 <;> ext <;> simp [dot, supportBox, ex, ey, ez] <;> ring

/-- **Finding.** Two unit spheres half a centimetre apart, with a threshold of one centimetre, have a contact point;
if one of them is the only child of a compound, they have none.  The children of a compound are looked up with the
box of the other shape as it is, whereas planes and meshes are looked up with a box grown by the breaking threshold. -/
theorem near_compound_missed (K : Consts ℝ) : ∃ a : Comp ℝ, a.nodes = [ballChild 1 0 1] ∧ a.Ok ballSet ∧
    compoundShape K a (fun r => simple (sphereSphere 0 r 1)) justApart = some [] ∧
    (∃ p, sphereSphere 0 1 1 justApart.toCtx = some [p]) ∧
    Near (compSet ballSet a justApart.posA justApart.ornA) (Placed (ballSet 1) justApart.posB justApart.ornB)
      justApart.thr := by
  obtain ⟨a, e, ha⟩ := balls_ok [(1, 0, 1)] (by simp) (by simp [one_unit])
  have e' : a.nodes = [ballChild 1 0 1] := by rw [e]; rfl
  refine ⟨a, e', ha, ?_, ?_, ?_⟩
  · obtain ⟨l, h1, -, -, h4⟩ := compound_shape_points K ha (fun r => simple (sphereSphere 0 r 1)) (c := justApart)
      one_unit (by
        intro n hn
        rw [e', List.mem_singleton] at hn
        subst hn
        unfold simple sphereSphere
        simp only
        split
        · exact ⟨_, rfl⟩
        · exact ⟨_, rfl⟩)
    rw [h1]
    by_contra hne
    have hl : l ≠ [] := fun h0 => hne (by rw [h0])
    obtain ⟨n, hn, hb, -⟩ := h4.1 hl
    rw [e', List.mem_singleton] at hn
    subst hn
    simp only [justApart, aabbToObject_one] at hb
    norm_num [Box.intersect, toBox, ballChild, sphereAabb] at hb
  · unfold sphereSphere
    simp only
    rw [if_neg (by norm_num [justApart, lengthSqr, dot])]
    exact ⟨_, rfl⟩
  · refine ⟨⟨1, 0, 0⟩, ⟨201 / 200, 0, 0⟩, ⟨ballChild 1 0 1, by simp [e'], ⟨1, 0, 0⟩, ⟨⟨1, 0, 0⟩, ?_, ?_⟩, ?_⟩,
      ⟨⟨-1, 0, 0⟩, ?_, ?_⟩, ?_⟩
    · norm_num [ballChild, ballSet, lengthSqr, dot]
    · simp only [ballChild, rotate_one]; ext <;> simp
    · simp only [justApart, rotate_one]; ext <;> simp
    · norm_num [ballSet, lengthSqr, dot]
    · simp only [justApart, rotate_one]; ext <;> norm_num
    · norm_num [justApart, lengthSqr, dot]

/-- The full statement for a compound and a simple shape is false. -/
theorem compoundShapeFull_false : ¬ CompoundShapeFull := by
  intro hfull
  obtain ⟨a, e, ha, h1, -, h3⟩ := near_compound_missed ⟨0, 0, 0, 0⟩
  obtain ⟨l, k1, -, -, k2⟩ := hfull ℝ ⟨0, 0, 0, 0⟩ ballSet a ha (fun r => simple (sphereSphere 0 r 1)) justApart _ one_unit
    (by norm_num [justApart]) (sphere_aabb_spec 1 zero_le_one _ 1 one_unit).1 (by
      intro n hn
      rw [child_placed ballSet n justApart.posA (orn := justApart.ornA) one_unit (ha.unit n hn)]
      rw [e, List.mem_singleton] at hn
      subst hn
      refine simple_right (sphere_sphere_partial 0 1 1 le_rfl (justApart.atA (ballChild 1 0 1)).toCtx one_pos one_pos
        ⟨mul_unit one_unit one_unit, one_unit, by norm_num [justApart, BCtx.atA]⟩ (.inr ?_))
      norm_num [justApart, BCtx.atA, ballChild, toWorldSpace, rotate_one, lengthSqr, dot])
  rw [h1] at k1
  obtain rfl := Option.some.inj k1
  exact k2.2 h3 rfl

/-- **Finding.** The same for two compounds with one unit sphere each. -/
theorem compoundCompoundFull_false : ¬ CompoundCompoundFull := by
  intro hfull
  obtain ⟨a, e, ha, h1, -, h3⟩ := near_compound_missed ⟨0, 0, 0, 0⟩
  have hsB : ∀ pos, compSet ballSet a pos 1 = Placed (ballSet 1) pos 1 := by
    intro pos
    funext w
    apply propext
    simp only [compSet, e, List.mem_singleton, exists_eq_left]
    rw [child_placed ballSet _ _ one_unit one_unit]
    simp only [ballChild, toWorldSpace, rotate_one, Placed]
    have : (1 : Quat ℝ) * 1 = 1 := by ext <;> simp
    rw [this]
    have e0 : pos + 0 = pos := by ext <;> simp
    simp only [rotate_one, e0]
  have pr : ∀ c : BCtx, c.Ok → lengthSqr (c.posA - c.posB) ≠ 0 →
      PairsRight ballSet a a (fun r s => simple (sphereSphere 0 r s)) c := by
    intro c hc hne n hn m hm
    rw [child_placed ballSet n _ hc.1 (ha.unit n hn), child_placed ballSet m _ hc.2.1 (ha.unit m hm)]
    rw [e, List.mem_singleton] at hn hm
    subst hn hm
    refine simple_right (c := (c.atB (ballChild 1 0 1)).atA (ballChild 1 0 1)) (sphere_sphere_partial 0 1 1 le_rfl _
      one_pos one_pos ⟨mul_unit hc.1 one_unit, mul_unit hc.2.1 one_unit, hc.2.2⟩ (.inr ?_))
    have z : ∀ q : Quat ℝ, Quat.rotate q 0 = 0 := by intro q; ext <;> simp [Quat.rotate, V3.cross, V3.dot]
    have e1 : ∀ p : V3 ℝ, p + 0 = p := by intro p; ext <;> simp
    simp only [BCtx.atA, BCtx.atB, ballChild, toWorldSpace, z, e1]
    have := lengthSqr_nonneg (c.posA - c.posB)
    rw [mul_zero]
    exact lt_of_le_of_ne this (Ne.symm hne)
  obtain ⟨l, k1, -, -, k2⟩ := hfull ℝ ⟨0, 0, 0, 0⟩ ballSet a a ha ha (fun r s => simple (sphereSphere 0 r s)) justApart
    ⟨one_unit, one_unit, by norm_num [justApart]⟩
    (by simp only [justApart, hsB]; exact (sphere_aabb_spec 1 zero_le_one _ 1 one_unit).1)
    (by simp only [justApart, hsB]; exact (sphere_aabb_spec 1 zero_le_one _ 1 one_unit).1)
    (pr _ ⟨one_unit, one_unit, by norm_num [justApart]⟩ (by norm_num [justApart, lengthSqr, dot]))
    (pr _ ⟨one_unit, one_unit, by norm_num [justApart, BCtx.swapped, Ctx.swapped]⟩
      (by norm_num [justApart, BCtx.swapped, Ctx.swapped, lengthSqr, dot]))
  have hz : compoundCompound ⟨0, 0, 0, 0⟩ a a (fun r s => simple (sphereSphere 0 r s)) justApart = some [] := by
    unfold compoundCompound
    rw [if_neg (lt_irrefl _)]
    unfold compoundLoop
    simp only [e, List.length_singleton, List.range_one]
    have ej : justApart.atB (ballChild 1 0 1) = justApart := by
      have : (1 : Quat ℝ) * 1 = 1 := by ext <;> simp
      simp only [BCtx.atB, justApart, ballChild, toWorldSpace, rotate_one, this]
      congr 2
      ext <;> simp
    simp only [gather, List.foldlM_cons, List.getElem?_cons_zero, Option.bind_some, ej]
    rw [show (fun s => (fun r s => simple (sphereSphere 0 r s)) s (ballChild 1 0 1).sh) = fun r => simple (sphereSphere 0 r 1)
      from rfl, h1]
    rfl
  rw [hz] at k1
  obtain rfl := Option.some.inj k1
  refine k2.2 ?_ rfl
  rw [show justApart.ornB = 1 from rfl, hsB]
  exact h3

/-- Not vacuous: a dumbbell sunk into the plane `y = 0` by half its radius gets a point. -/
example : ∃ (a : Comp ℝ) (l : List PPoint), a.Ok ballSet ∧ a.nodes.length = 2 ∧
    compoundPlane ⟨0, 0, 0, 0⟩ (1 / 50) a (fun r => simple (spherePlane r ey 0))
      ⟨⟨⟨0, 1 / 2, 0⟩, 1, 0, 1, 1 / 100⟩, sphereAabb 5 0, planeAabb ey 0⟩ = some l ∧ l ≠ [] := by
  obtain ⟨a, e, ha⟩ := balls_ok dumbbell (by simp [dumbbell]) (by
    simp [dumbbell, one_unit]
    norm_num [Quat.lengthSqr])
  have hm : ∀ n ∈ a.nodes, n = ballChild 1 ⟨-2, 0, 0⟩ 1 ∨ n = ballChild 1 ⟨2, 0, 0⟩ ⟨0, 0, 1, 0⟩ := by
    rw [e]; simp [dumbbell]
  have hw : ∀ w, compSet ballSet a ⟨0, 1 / 2, 0⟩ 1 w → |w.x| ≤ 3 ∧ |w.y| ≤ 2 ∧ |w.z| ≤ 1 := by
    rintro w ⟨n, hn, hw⟩
    rw [child_placed ballSet n _ one_unit (ha.unit n hn)] at hw
    have hb := (sphere_aabb_spec n.sh (by rcases hm n hn with rfl | rfl <;> simp [ballChild]) _ _
      (mul_unit one_unit (ha.unit n hn))).1 w hw
    simp only [abs_le]
    rcases hm n hn with rfl | rfl <;>
    · simp only [AABB.Has, sphereAabb, ballChild, toWorldSpace, rotate_one, add_x, add_y, add_z] at hb
      obtain ⟨⟨a1, a2⟩, ⟨a3, a4⟩, a5, a6⟩ := hb
      and_intros <;> linarith
  obtain ⟨l, h1, -, -, h4⟩ := compound_plane_right ⟨0, 0, 0, 0⟩ ha (fun r => simple (spherePlane r ey 0))
    (c := ⟨⟨⟨0, 1 / 2, 0⟩, 1, 0, 1, 1 / 100⟩, sphereAabb 5 0, planeAabb ey 0⟩) (SB := halfSpace ey 0) (t := 0)
    (brk := 1 / 50) one_unit le_rfl (by norm_num) (by
      intro v w hv hs hd
      have : w = v := by
        have h0 := lengthSqr_nonneg (v - w)
        have : lengthSqr (v - w) = 0 := by nlinarith
        simp only [lengthSqr, dot, sub_x, sub_y, sub_z] at this
        ext <;> nlinarith [mul_self_nonneg (v.x - w.x), mul_self_nonneg (v.y - w.y), mul_self_nonneg (v.z - w.z)]
      subst this
      obtain ⟨b1, b2, b3⟩ := hw w hv
      apply plane_aabb_partial ey 0 w hs
      all_goals simp only [abs_le, planeExtent, smul_x, smul_y, smul_z] at *
      all_goals and_intros <;> norm_num [ey] <;> linarith) (by
      intro n hn
      rw [child_placed ballSet n _ one_unit (ha.unit n hn)]
      obtain ⟨l, k1, k2, k3⟩ := sphere_plane_partial n.sh ey
        ((⟨⟨⟨0, 1 / 2, 0⟩, 1, 0, 1, 1 / 100⟩, sphereAabb 5 0, planeAabb ey 0⟩ : BCtx).atA n).toCtx
        (by rcases hm n hn with rfl | rfl <;> simp [ballChild]) ey_unit
        ⟨⟨mul_unit one_unit (ha.unit n hn), one_unit, by norm_num [BCtx.atA]⟩, rfl, rfl⟩
      refine ⟨l.map lift, by unfold simple; rw [k1]; rfl, (by simp : l.map lift ≠ [] ↔ l ≠ []).trans k2, ?_⟩
      intro p hp
      obtain ⟨q, hq, rfl⟩ := List.mem_map.1 hp
      rw [lift_unparted]
      exact k3 q hq)
  refine ⟨a, l, ha, by rw [e]; rfl, h1, h4.2 ⟨⟨2, 0, 0⟩, ⟨2, 0, 0⟩, ⟨ballChild 1 ⟨2, 0, 0⟩ ⟨0, 0, 1, 0⟩, ?_, ?_⟩, ?_, ?_⟩⟩
  · rw [e]; simp [dumbbell]
  · refine ⟨⟨2, -1 / 2, 0⟩, ⟨⟨0, 1 / 2, 0⟩, by norm_num [ballChild, ballSet, lengthSqr, dot], ?_⟩, ?_⟩
    · ext <;> norm_num [ballChild, Quat.rotate, V3.cross, V3.dot]
    · rw [rotate_one]; ext <;> norm_num
  · norm_num [halfSpace, dot, ey]
  · norm_num [lengthSqr, dot]

end Edyn.Collide
