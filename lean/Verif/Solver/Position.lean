import Verif.Solver.Momentum
import Verif.Math.Real

/-!
# Integration of poses and position correction (C59)

Model of `position_solver::solve` (`include/edyn/dynamics/position_solver.hpp`), of the integration of
velocities (`island_solver.cpp` 357-376), of `update_origins` and `update_inertias` and of the position
part of contacts, over the reals.
-/

namespace Edyn.Solver.Position

open Edyn.Math V3

noncomputable section

/-- The components of a body that these functions use.  `origin` and `com` are there for bodies with a
centre of mass offset (`comp/origin.hpp`, `comp/center_of_mass.hpp`). -/
structure PBody where
  pos : V3 ℝ
  orn : Quat ℝ
  origin : Option (V3 ℝ)
  com : V3 ℝ
  invM : ℝ
  invI : M3 ℝ
  invILocal : M3 ℝ
  linvel : V3 ℝ
  angvel : V3 ℝ

/-- `quaternion_derivative`, `math/quaternion.hpp` 246-248. -/
def quatDerivative (q : Quat ℝ) (w : V3 ℝ) : Quat ℝ :=
  let p := (⟨w.x, w.y, w.z, 0⟩ : Quat ℝ) * q
  ⟨p.x * (1 / 2), p.y * (1 / 2), p.z * (1 / 2), p.w * (1 / 2)⟩

/-- `q += p` for quaternions. -/
def quatAdd (q p : Quat ℝ) : Quat ℝ := ⟨q.x + p.x, q.y + p.y, q.z + p.z, q.w + p.w⟩

/-- `basis * inv_I_local * transpose(basis)`. -/
def worldInertia (q : Quat ℝ) (I : M3 ℝ) : M3 ℝ := M3.ofQuat q * I * (M3.ofQuat q).transpose

/-- What `position_solver::solve`, `position_solver.hpp` 16-51, does to one of the two bodies. -/
def PBody.correct (b : PBody) (lin ang : V3 ℝ) (correction : ℝ) : PBody :=
  let pos := b.pos + (lin.smul b.invM).smul correction
  let orn := (quatAdd b.orn (quatDerivative b.orn ((b.invI.mulVec ang).smul correction))).normalize
  { b with
    pos := pos
    orn := orn
    origin := b.origin.map fun _ => toWorldSpace (-b.com) pos orn
    invI := worldInertia orn b.invILocal }

/-- The bodies. -/
abbrev World := Nat → PBody

/-- `position_solver::solve`, `position_solver.hpp` 16-51, for different bodies `a` and `b`; `none` when
it divides by zero (`get_effective_mass`, `constraint_util.cpp` 137-146). -/
def correct (w : World) (a b : Nat) (J : Jac ℝ) (error : ℝ) : Option World :=
  let A := w a
  let B := w b
  let inv := J.linA.dot J.linA * A.invM + (A.invI.mulVec J.angA).dot J.angA +
    J.linB.dot J.linB * B.invM + (B.invI.mulVec J.angB).dot J.angB
  if inv = 0 then none
  else
    let correction := error * (1 / 5) * (1 / inv)
    some (Function.update (Function.update w a (A.correct J.linA J.angA correction)) b
      (B.correct J.linB J.angB correction))

/-- One correction asked for by the `solve_position` of a constraint: its bodies, and the Jacobian and
error it computes from the present poses. -/
structure Op where
  a : Nat
  b : Nat
  f : World → Jac ℝ × ℝ

/-- Any sequence of corrections. -/
def run : List Op → World → Option World
  | [], w => some w
  | o :: os, w => (correct w o.a o.b (o.f w).1 (o.f w).2).bind (run os)

theorem correct_eq {w w' : World} {a b : Nat} {J : Jac ℝ} {e : ℝ} (h : correct w a b J e = some w') :
    ∃ c, w' = Function.update (Function.update w a ((w a).correct J.linA J.angA c)) b
      ((w b).correct J.linB J.angB c) := by
  unfold correct at h
  simp only at h
  split at h
  · simp at h
  · exact ⟨_, (Option.some.inj h).symm⟩

/-- An induction principle for sequences of corrections. -/
theorem run_induct {Q : World → Prop} {os : List Op}
    (hstep : ∀ o ∈ os, ∀ w w', Q w → correct w o.a o.b (o.f w).1 (o.f w).2 = some w' → Q w')
    {w w' : World} (h0 : Q w) (h : run os w = some w') : Q w' := by
  induction os generalizing w with
  | nil => simp [run] at h; exact h ▸ h0
  | cons o os ih =>
    rw [run] at h
    cases hc : correct w o.a o.b (o.f w).1 (o.f w).2 with
    | none => rw [hc] at h; simp at h
    | some w₁ =>
      rw [hc] at h
      exact ih (fun o' ho' => hstep o' (List.mem_cons_of_mem _ ho'))
        (hstep o List.mem_cons_self w w₁ h0 hc) h

/-! ### Orientations stay normalized -/

theorem derivative_length (q : Quat ℝ) (v : V3 ℝ) :
    (quatAdd q (quatDerivative q v)).lengthSqr = q.lengthSqr * (1 + V3.lengthSqr v / 4) := by
  simp only [quatAdd, quatDerivative, Quat.lengthSqr, V3.lengthSqr, V3.dot, Quat.mul_x, Quat.mul_y,
    Quat.mul_z, Quat.mul_w]
  ring

/-- **C59**.  Whatever the corrections, orientations stay normalized. -/
theorem correction_keeps_orientations_unit (os : List Op) (w w' : World) (h : run os w = some w')
    (hu : ∀ x, (w x).orn.lengthSqr = 1) : ∀ x, (w' x).orn.lengthSqr = 1 := by
  refine run_induct (Q := fun w => ∀ x, (w x).orn.lengthSqr = 1) ?_ hu h
  intro o _ w w' hu hc x
  obtain ⟨c, rfl⟩ := correct_eq hc
  have one : ∀ (b : PBody), b.orn.lengthSqr = 1 → ∀ l g, (b.correct l g c).orn.lengthSqr = 1 := by
    intro b hb l g
    apply normalize_length
    rw [derivative_length, hb]
    have := lengthSqr_nonneg ((b.invI.mulVec g).smul c)
    linarith
  by_cases hb : x = o.b
  · subst hb
    rw [Function.update_self]
    exact one _ (hu _) _ _
  · rw [Function.update_of_ne hb]
    by_cases ha : x = o.a
    · subst ha
      rw [Function.update_self]
      exact one _ (hu _) _ _
    · rw [Function.update_of_ne ha]
      exact hu x

/-! ### Immovable bodies -/

theorem zero_derivative (q : Quat ℝ) (v : V3 ℝ) (hv : v = 0) : quatAdd q (quatDerivative q v) = q := by
  subst hv
  simp [quatAdd, quatDerivative]

/-- **C59**.  A body that is not procedural, for which the solver uses a zero inverse mass and inertia,
keeps its position and (unit) orientation whatever the corrections. -/
theorem immovable_body_not_corrected (os : List Op) (w w' : World) (h : run os w = some w') (x : Nat)
    (hm : (w x).invM = 0) (hI : (w x).invI = ⟨0, 0, 0⟩) (hL : (w x).invILocal = ⟨0, 0, 0⟩)
    (hu : (w x).orn.lengthSqr = 1) : (w' x).pos = (w x).pos ∧ (w' x).orn = (w x).orn := by
  have := run_induct (Q := fun v => (v x).pos = (w x).pos ∧ (v x).orn = (w x).orn ∧ (v x).invM = 0 ∧
    (v x).invI = ⟨0, 0, 0⟩ ∧ (v x).invILocal = ⟨0, 0, 0⟩) (os := os) ?_ ⟨rfl, rfl, hm, hI, hL⟩ h
  · exact ⟨this.1, this.2.1⟩
  intro o _ v v' hv hc
  obtain ⟨c, rfl⟩ := correct_eq hc
  obtain ⟨h1, h2, h3, h4, h5⟩ := hv
  have one : ∀ l g, ((v x).correct l g c).pos = (w x).pos ∧ ((v x).correct l g c).orn = (w x).orn ∧
      ((v x).correct l g c).invM = 0 ∧ ((v x).correct l g c).invI = ⟨0, 0, 0⟩ ∧
      ((v x).correct l g c).invILocal = ⟨0, 0, 0⟩ := by
    intro l g
    have horn : ((v x).correct l g c).orn = (w x).orn := by
      simp only [PBody.correct]
      rw [zero_derivative, h2]
      · exact normalize_unit _ hu
      · rw [h4]
        ext <;> simp [M3.mulVec, V3.dot]
    refine ⟨?_, horn, h3, ?_, h5⟩
    · simp only [PBody.correct, h3, h1]
      ext <;> simp
    · have : ((v x).correct l g c).invI = worldInertia ((v x).correct l g c).orn (v x).invILocal := rfl
      rw [this, h5]
      simp only [worldInertia, M3.mul_def, M3.transpose]
      congr 1 <;> ext <;> simp [V3.dot, M3.column0, M3.column1, M3.column2]
  by_cases hb : x = o.b
  · subst hb
    rw [Function.update_self]
    exact one _ _
  · rw [Function.update_of_ne hb]
    by_cases ha : x = o.a
    · subst ha
      rw [Function.update_self]
      exact one _ _
    · rw [Function.update_of_ne ha]
      exact ⟨h1, h2, h3, h4, h5⟩

/-! ### Derived data -/

/-- The origin is where the pose and the centre of mass put it, and the world space inertia belongs to
the orientation. -/
def PBody.InSync (b : PBody) : Prop :=
  (∀ o, b.origin = some o → o = b.pos + b.orn.rotate (-b.com)) ∧
  b.invI = M3.ofQuat b.orn * b.invILocal * (M3.ofQuat b.orn).transpose

theorem correct_inSync (b : PBody) (l g : V3 ℝ) (c : ℝ) : (b.correct l g c).InSync := by
  refine ⟨?_, rfl⟩
  intro o ho
  simp only [PBody.correct, Option.map_eq_some_iff] at ho
  obtain ⟨_, -, rfl⟩ := ho
  rfl

/-- **C59**.  Every body that was in sync or has been corrected is in sync afterwards. -/
theorem corrected_bodies_in_sync (os : List Op) (w w' : World) (h : run os w = some w') (x : Nat)
    (hx : (w x).InSync ∨ ∃ o ∈ os, x = o.a ∨ x = o.b) : (w' x).InSync := by
  induction os generalizing w with
  | nil =>
    simp only [run, Option.some.injEq] at h
    subst h
    simpa using hx
  | cons o os ih =>
    rw [run] at h
    cases hc : correct w o.a o.b (o.f w).1 (o.f w).2 with
    | none => rw [hc] at h; simp at h
    | some w₁ =>
      rw [hc] at h
      refine ih w₁ h ?_
      obtain ⟨c, rfl⟩ := correct_eq hc
      by_cases hb : x = o.b
      · left; subst hb; rw [Function.update_self]; exact correct_inSync ..
      · by_cases ha : x = o.a
        · left; subst ha; rw [Function.update_of_ne hb, Function.update_self]; exact correct_inSync ..
        · rcases hx with hx | ⟨o', ho', hx⟩
          · left; rw [Function.update_of_ne hb, Function.update_of_ne ha]; exact hx
          · rcases List.mem_cons.mp ho' with rfl | ho'
            · rcases hx with hx | hx
              · exact absurd hx ha
              · exact absurd hx hb
            · exact Or.inr ⟨o', ho', hx⟩

/-! ### Centre of mass -/

/-- The sum of the positions weighted by masses. -/
def massCentre (S : Finset Nat) (m : Nat → ℝ) (w : World) : V3 ℝ :=
  ∑ x ∈ S, (w x).pos.smul (m x)

/-- **C59**.  Corrections between movable bodies that push oppositely (all those of the built-in
constraints, C57) leave the centre of mass of the island where it is. -/
theorem centre_of_mass_kept (os : List Op) (w w' : World) (h : run os w = some w') (S : Finset Nat)
    (m : Nat → ℝ) (hops : ∀ o ∈ os, o.a ∈ S ∧ o.b ∈ S ∧ o.a ≠ o.b ∧
      ∀ v, (o.f v).1.linB = -(o.f v).1.linA)
    (hm : ∀ x ∈ S, m x * (w x).invM = 1) : massCentre S m w' = massCentre S m w := by
  have := run_induct (Q := fun v => massCentre S m v = massCentre S m w ∧
    ∀ x, (v x).invM = (w x).invM) (os := os) ?_ ⟨rfl, fun _ => rfl⟩ h
  · exact this.1
  intro o ho v v' hv hc
  obtain ⟨c, rfl⟩ := correct_eq hc
  obtain ⟨haS, hbS, hne, hopp⟩ := hops o ho
  constructor
  · rw [← hv.1, ← sub_eq_zero]
    simp only [massCentre]
    rw [← Finset.sum_sub_distrib]
    have hterm : ∀ x ∈ S, ((Function.update (Function.update v o.a ((v o.a).correct (o.f v).1.linA
        (o.f v).1.angA c)) o.b ((v o.b).correct (o.f v).1.linB (o.f v).1.angB c)) x).pos.smul (m x) -
        (v x).pos.smul (m x) =
        (if x = o.a then ((o.f v).1.linA).smul c else 0) + (if x = o.b then ((o.f v).1.linB).smul c else 0) := by
      intro x hx
      have e := hm x hx
      rw [← hv.2 x] at e
      by_cases hb : x = o.b
      · subst hb
        rw [Function.update_self, if_neg (fun e => hne e.symm), if_pos rfl, zero_add]
        simp only [PBody.correct]
        have hl : ∀ t p : ℝ, m o.b * (p + c * ((v o.b).invM * t)) - m o.b * p = c * t := by
          intro t p
          linear_combination (c * t) * e
        ext <;> simp only [V3.sub_x, V3.sub_y, V3.sub_z, V3.smul_x, V3.smul_y, V3.smul_z, V3.add_x, V3.add_y,
          V3.add_z, hl]
      · rw [Function.update_of_ne hb, if_neg hb]
        by_cases ha : x = o.a
        · subst ha
          rw [Function.update_self, if_pos rfl, add_zero]
          simp only [PBody.correct]
          have hl : ∀ t p : ℝ, m o.a * (p + c * ((v o.a).invM * t)) - m o.a * p = c * t := by
            intro t p
            linear_combination (c * t) * e
          ext <;> simp only [V3.sub_x, V3.sub_y, V3.sub_z, V3.smul_x, V3.smul_y, V3.smul_z, V3.add_x, V3.add_y,
            V3.add_z, hl]
        · rw [Function.update_of_ne ha, if_neg ha, add_zero, sub_self]
    rw [Finset.sum_congr rfl hterm, Finset.sum_add_distrib, Finset.sum_ite_eq', Finset.sum_ite_eq',
      if_pos haS, if_pos hbS, hopp v]
    ext <;> simp
  · intro x
    rw [← hv.2 x]
    by_cases hb : x = o.b
    · subst hb; rw [Function.update_self]; rfl
    · rw [Function.update_of_ne hb]
      by_cases ha : x = o.a
      · subst ha; rw [Function.update_self]; rfl
      · rw [Function.update_of_ne ha]

/-! ### Convergence -/

/-- **C59**.  A correction along a line without rotation removes a fifth of the error: if the separation
along a unit direction is `d` and the error is `-d` (as in `contact_constraint::solve_position`), the
new separation is four fifths of it. -/
theorem correction_removes_a_fifth (w w' : World) (a b : Nat) (hne : a ≠ b) (n : V3 ℝ) (e : ℝ)
    (h : correct w a b ⟨n, 0, -n, 0⟩ e = some w') :
    (((w' a).pos - (w' b).pos).dot n) = ((w a).pos - (w b).pos).dot n + e / 5 := by
  unfold correct at h
  simp only at h
  split at h
  · simp at h
  · rename_i hinv
    have hw := (Option.some.inj h).symm
    set inv := n.dot n * (w a).invM + ((w a).invI.mulVec 0).dot 0 + (-n).dot (-n) * (w b).invM +
      ((w b).invI.mulVec 0).dot 0 with hi
    have hi' : inv = n.dot n * ((w a).invM + (w b).invM) := by
      rw [hi]
      simp [V3.dot]
      ring
    have ha : (w' a).pos = (w a).pos + (n.smul (w a).invM).smul (e * (1 / 5) * (1 / inv)) := by
      rw [hw, Function.update_of_ne hne, Function.update_self]
      rfl
    have hb : (w' b).pos = (w b).pos + ((-n).smul (w b).invM).smul (e * (1 / 5) * (1 / inv)) := by
      rw [hw, Function.update_self]
      rfl
    rw [ha, hb]
    have hk : (1 / inv) * (n.dot n * ((w a).invM + (w b).invM)) = 1 := by
      rw [← hi', one_div, inv_mul_cancel₀ hinv]
    simp only [V3.dot, V3.add_x, V3.add_y, V3.add_z, V3.sub_x, V3.sub_y, V3.sub_z, V3.smul_x, V3.smul_y,
      V3.smul_z, V3.neg_x, V3.neg_y, V3.neg_z] at hk ⊢
    linear_combination (e * (1 / 5)) * hk

/-! ### Contacts of bodies with an offset centre of mass -/

/-- `integrate_velocities`, `island_solver.cpp` 357-376, for one body and no deltas: position and
orientation change, the origin does not. -/
def PBody.integrate (b : PBody) (dt : ℝ) : PBody :=
  { b with pos := b.pos + b.linvel.smul dt, orn := b.orn.integrate b.angvel dt }

/-- `get_originA`, `get_originB`, `position_solver.hpp` 53-59. -/
def PBody.getOrigin (b : PBody) : V3 ℝ := b.origin.getD b.pos

/-- The distance that `contact_constraint::solve_position` computes, `contact_constraint.cpp` 62-78, for
a normal attached to no body. -/
def contactDistance (A B : PBody) (pivotA pivotB normal : V3 ℝ) : ℝ :=
  (toWorldSpace pivotA A.getOrigin A.orn - toWorldSpace pivotB B.getOrigin B.orn).dot normal

/-- `update_origin` and `update_inertia`, `update_origins.cpp` 13-15, `update_inertias.cpp` 13-17. -/
def PBody.sync (b : PBody) : PBody :=
  { b with
    origin := b.origin.map fun _ => toWorldSpace (-b.com) b.pos b.orn
    invI := worldInertia b.orn b.invILocal }

/-- **C59**.  At the end of the step (`solver.cpp` 453-465) every body is in sync. -/
theorem sync_inSync (b : PBody) : b.sync.InSync := by
  refine ⟨?_, rfl⟩
  intro o ho
  simp only [PBody.sync, Option.map_eq_some_iff] at ho
  obtain ⟨_, -, rfl⟩ := ho
  rfl

/-- The distance along the normal of the two points fixed to the bodies, in their present poses. -/
def trueDistance (A B : PBody) (pivotA pivotB normal : V3 ℝ) : ℝ :=
  let o (b : PBody) : V3 ℝ := if b.origin.isSome then b.pos + b.orn.rotate (-b.com) else b.pos
  ((o A + A.orn.rotate pivotA) - (o B + B.orn.rotate pivotB)).dot normal

/-- The full statement: in a step, the first time a contact is corrected its distance is computed from
the present poses. -/
def FullStatement : Prop :=
  ∀ (A B : PBody) (pivotA pivotB normal : V3 ℝ) (dt : ℝ), A.InSync → B.InSync →
    contactDistance (A.integrate dt) (B.integrate dt) pivotA pivotB normal =
      trueDistance (A.integrate dt) (B.integrate dt) pivotA pivotB normal

/-- **C59**, contacts.  The distance is right for bodies that are in sync, and for bodies without an
offset centre of mass.  Missing: bodies with an offset centre of mass before their first correction in a
step, whose origin is that of the previous step (`stale_origin_used`). -/
theorem contact_distance_right_partial (A B : PBody) (pivotA pivotB normal : V3 ℝ)
    (hA : A.InSync ∨ A.origin = none) (hB : B.InSync ∨ B.origin = none) :
    contactDistance A B pivotA pivotB normal = trueDistance A B pivotA pivotB normal := by
  have key : ∀ b : PBody, (b.InSync ∨ b.origin = none) →
      b.getOrigin = if b.origin.isSome then b.pos + b.orn.rotate (-b.com) else b.pos := by
    intro b hb
    cases ho : b.origin with
    | none => simp [PBody.getOrigin, ho]
    | some o =>
      rcases hb with hb | hb
      · simp [PBody.getOrigin, ho, hb.1 o ho]
      · rw [ho] at hb; simp at hb
  simp only [contactDistance, trueDistance, toWorldSpace, key A hA, key B hB]

/-- A body with an offset centre of mass that moves away from a static one at unit speed. -/
def flying : PBody :=
  ⟨⟨0, 0, 0⟩, 1, some ⟨0, -1, 0⟩, ⟨0, 1, 0⟩, 1, ⟨0, 0, 0⟩, ⟨0, 0, 0⟩, ⟨0, 1, 0⟩, 0⟩

def ground : PBody :=
  ⟨⟨0, 0, 0⟩, 1, none, 0, 0, ⟨0, 0, 0⟩, ⟨0, 0, 0⟩, 0, 0⟩

theorem flying_inSync : flying.InSync ∧ ground.InSync := by
  have z : ∀ q : Quat ℝ, (⟨0, 0, 0⟩ : M3 ℝ) = M3.ofQuat q * ⟨0, 0, 0⟩ * (M3.ofQuat q).transpose := by
    intro q
    simp only [M3.mul_def, M3.transpose]
    congr 1 <;> ext <;> simp [V3.dot, M3.column0, M3.column1, M3.column2]
  refine ⟨⟨?_, z _⟩, ⟨?_, z _⟩⟩
  · intro o ho
    simp only [flying, Option.some.injEq] at ho ⊢
    subst ho
    rw [rotate_one]
    ext <;> simp
  · intro o ho
    simp [ground] at ho

/-- FINDING.  The origin of a body with an offset centre of mass is not updated between the integration
of velocities and the position correction: the body has moved away to a distance of 1 and the contact is
still corrected for a distance of 0. -/
theorem stale_origin_used :
    contactDistance (flying.integrate 1) (ground.integrate 1) 0 ⟨0, -1, 0⟩ ⟨0, 1, 0⟩ = 0 ∧
    trueDistance (flying.integrate 1) (ground.integrate 1) 0 ⟨0, -1, 0⟩ ⟨0, 1, 0⟩ = 1 ∧
    ¬ FullStatement := by
  have hone : (1 : Quat ℝ).lengthSqr = 1 := by
    show (0 : ℝ) * 0 + 0 * 0 + 0 * 0 + 1 * 1 = 1
    norm_num
  have h1 : contactDistance (flying.integrate 1) (ground.integrate 1) 0 ⟨0, -1, 0⟩ ⟨0, 1, 0⟩ = 0 := by
    simp only [contactDistance, PBody.integrate, flying, ground, PBody.getOrigin, Option.getD_some,
      Option.getD_none, integrate_rest _ hone, toWorldSpace, rotate_one]
    simp [V3.dot]
  have h2 : trueDistance (flying.integrate 1) (ground.integrate 1) 0 ⟨0, -1, 0⟩ ⟨0, 1, 0⟩ = 1 := by
    simp only [trueDistance, PBody.integrate, flying, ground, Option.isSome_some, Option.isSome_none,
      if_true, integrate_rest _ hone, rotate_one]
    simp [V3.dot]
  refine ⟨h1, h2, ?_⟩
  intro h
  have := h flying ground 0 ⟨0, -1, 0⟩ ⟨0, 1, 0⟩ 1 flying_inSync.1 flying_inSync.2
  rw [h1, h2] at this
  norm_num at this

/-- Two corrections between two flying bodies: the hypotheses of the theorems above hold. -/
def opsEx : List Op :=
  [⟨0, 1, fun _ => (⟨⟨0, 1, 0⟩, 0, -⟨0, 1, 0⟩, 0⟩, 1)⟩,
   ⟨1, 0, fun w => (⟨(w 0).linvel, 0, -(w 0).linvel, 0⟩, (w 0).pos.y)⟩]

theorem correct_line (w : World) (a b : Nat) (l : V3 ℝ) (e : ℝ) (hA : (w a).invM = 1)
    (hB : (w b).invM = 1) (hl : l.dot l = 1) :
    correct w a b ⟨l, 0, -l, 0⟩ e = some (Function.update (Function.update w a
      ((w a).correct l 0 (e / 10))) b ((w b).correct (-l) 0 (e / 10))) := by
  have hl' : (-l).dot (-l) = 1 := by rw [← hl]; simp [V3.dot]
  have h0 : ∀ M : M3 ℝ, (M.mulVec 0).dot 0 = 0 := by intro M; simp [V3.dot]
  have hinv : (1 : ℝ) * 1 + 0 + 1 * 1 + 0 = 2 := by norm_num
  have hc : e * (1 / 5) * (1 / 2) = e / 10 := by ring
  simp only [correct, hA, hB, hl, hl', h0, hinv, hc]
  rw [if_neg (by norm_num)]

theorem opsEx_runs : ∃ w', run opsEx (fun _ => flying) = some w' ∧ (w' 0).pos = ⟨0, 9/100, 0⟩ ∧
    (w' 1).pos = ⟨0, -9/100, 0⟩ := by
  have hd : (⟨0, 1, 0⟩ : V3 ℝ).dot ⟨0, 1, 0⟩ = 1 := by simp [V3.dot]
  rw [opsEx, run, correct_line (fun _ => flying) 0 1 ⟨0, 1, 0⟩ 1 rfl rfl hd, Option.bind_some, run]
  have hl : ((Function.update (Function.update (fun _ => flying) 0 (flying.correct ⟨0, 1, 0⟩ 0 (1 / 10))) 1
      (flying.correct (-⟨0, 1, 0⟩) 0 (1 / 10)) : World) 0).linvel = ⟨0, 1, 0⟩ := rfl
  simp only [hl]
  rw [correct_line _ 1 0 ⟨0, 1, 0⟩ _ rfl rfl hd, Option.bind_some]
  refine ⟨_, rfl, ?_, ?_⟩
  · simp [PBody.correct, flying]
    ext <;> simp <;> norm_num
  · simp [PBody.correct, flying]
    ext <;> simp <;> norm_num

example : (∀ o ∈ opsEx, o.a ∈ ({0, 1} : Finset Nat) ∧ o.b ∈ ({0, 1} : Finset Nat) ∧ o.a ≠ o.b ∧
      ∀ v, (o.f v).1.linB = -(o.f v).1.linA) ∧
    (∀ x ∈ ({0, 1} : Finset Nat), (1 : ℝ) * ((fun _ => flying) x : PBody).invM = 1) ∧
    (∀ x, (((fun _ => flying) : World) x).orn.lengthSqr = 1) := by
  refine ⟨?_, ?_, ?_⟩
  · intro o ho
    simp only [opsEx, List.mem_cons, List.not_mem_nil, or_false] at ho
    rcases ho with rfl | rfl <;> simp
  · intro x _
    simp [flying]
  · intro x
    show (0 : ℝ) * 0 + 0 * 0 + 0 * 0 + 1 * 1 = 1
    norm_num

end

end Edyn.Solver.Position
