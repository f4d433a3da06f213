import Verif.Body.Props

/-!
# Impulses, the centre of mass, kinematic bodies and the removal of bodies
-/

namespace Edyn.Body

open Edyn.Math hiding lengthSqr_nonneg
open V3

noncomputable section

/-! ### Specification -/

/-- The velocity of the point of a body which is at `x`. -/
def pointVelocity (b : Rb) (x : V3 ℝ) : Option (V3 ℝ) :=
  b.position.bind fun pos => b.linvel.bind fun v => b.angvel.map fun w => v + cross w (x - pos)

/-- The angular momentum of a body about its centre of mass: the angular velocity is turned into the frame of the body,
multiplied by the inertia, and turned back. -/
def angularMomentum (b : Rb) : Option (V3 ℝ) :=
  b.orientation.bind fun q => b.inertia.bind fun i => b.angvel.map fun w => Quat.rotate q (M3.mulVec i (Quat.rotate q.conjugate w))

/-- The linear momentum of a body. -/
def momentum (b : Rb) : Option (V3 ℝ) := b.mass.bind fun m => b.linvel.map fun v => smul m v

/-! ### Impulses -/

theorem add_mulVec (m : M3 ℝ) (v w : V3 ℝ) : M3.mulVec m (v + w) = M3.mulVec m v + M3.mulVec m w := by
  ext <;> simp only [M3.mulVec, dot, V3.add_x, V3.add_y, V3.add_z] <;> ring

/-- Inertia in world space and inverse inertia in world space are inverses. -/
theorem world_inverse {q : Quat ℝ} (hq : q.lengthSqr ≠ 0) {i j : M3 ℝ} (h : i * j = 1) (v : V3 ℝ) :
    M3.mulVec (toWorld q i) (M3.mulVec (toWorld q j) v) = v := by
  obtain ⟨h1, h2⟩ := M3.ofQuat_orthogonal q hq
  have e1 : ∀ u, M3.mulVec (M3.ofQuat q).transpose (M3.mulVec (M3.ofQuat q) u) = u := by
    intro u; rw [← M3.mul_mulVec]; simp only [h1, h2, M3.one_mulVec]
  have e2 : ∀ u, M3.mulVec (M3.ofQuat q) (M3.mulVec (M3.ofQuat q).transpose u) = u := by
    intro u; rw [← M3.mul_mulVec]; simp only [h1, h2, M3.one_mulVec]
  have e3 : ∀ u, M3.mulVec i (M3.mulVec j u) = u := by intro u; rw [← M3.mul_mulVec, h, M3.one_mulVec]
  simp only [toWorld, M3.mul_mulVec, e1, e2, e3]

/-- The inertia in world space turns into the frame of the body, multiplies, and turns back. -/
theorem toWorld_spec {q : Quat ℝ} (hq : q.lengthSqr = 1) (i : M3 ℝ) (w : V3 ℝ) :
    Quat.rotate q (M3.mulVec i (Quat.rotate q.conjugate w)) = M3.mulVec (toWorld q i) w := by
  simp only [toWorld, M3.mul_mulVec]
  rw [M3.ofQuat_rotate q hq, ← M3.ofQuat_conjugate, M3.ofQuat_rotate _ (by rw [Edyn.Math.lengthSqr_conjugate]; exact hq)]

/-- **C80** An impulse changes the momentum of a body by the impulse, its angular momentum by the moment of the impulse about
the centre of mass, and nothing else. -/
theorem impulse_momentum {env : Env} {b b' : Rb} {j rel : V3 ℝ} (hc : Consistent b) (hcur : Current env b)
    (hd : b.dynamicTag) (hq : ∀ q, b.orientation = some q → q.lengthSqr = 1) (h : applyImpulse j rel b = some b') :
    ∃ p l, momentum b = some p ∧ angularMomentum b = some l ∧ momentum b' = some (p + j) ∧
      angularMomentum b' = some (l + cross rel j) ∧ b' = { b with linvel := b'.linvel, angvel := b'.angvel } := by
  simp only [applyImpulse, Option.bind_eq_some_iff, Option.some.injEq] at h
  obtain ⟨mi, hmi, wi, hwi, v, hv, w, hw, rfl⟩ := h
  obtain ⟨m, hm⟩ := Option.isSome_iff_exists.1 (hc.dynamic hd).1
  obtain ⟨i, hi⟩ := Option.isSome_iff_exists.1 (hc.dynamic hd).2.1
  obtain ⟨q, hq'⟩ := Option.isSome_iff_exists.1 hc.placed.2
  have h1 := hc.mass
  rw [hm, hmi] at h1
  have h2 := hc.inertia
  cases hii : b.inertiaInv with
  | none => simp only [hi, hii] at h2
  | some ii =>
    simp only [hi, hii] at h2
    have h3 := hcur.world q ii wi hd hq' hii hwi
    refine ⟨smul m v, M3.mulVec (toWorld q i) w, by simp [momentum, hm, hv],
      by simp [angularMomentum, hq', hi, hw, toWorld_spec (hq q hq')], ?_, ?_, rfl⟩
    · simp only [momentum, hm, Option.bind_some, Option.map_some, Option.some.injEq]
      ext <;> simp only [V3.add_x, V3.add_y, V3.add_z, smul]
      · linear_combination j.x * h1.2
      · linear_combination j.y * h1.2
      · linear_combination j.z * h1.2
    · simp only [angularMomentum, hq', hi, Option.bind_some, Option.map_some, Option.some.injEq]
      rw [toWorld_spec (hq q hq'), add_mulVec, h3, world_inverse (by rw [hq q hq']; exact one_ne_zero) h2.1]

/-- **C80** A torque impulse changes the angular momentum of a body by the torque impulse, and nothing else. -/
theorem torque_momentum {env : Env} {b b' : Rb} {t : V3 ℝ} (hc : Consistent b) (hcur : Current env b)
    (hd : b.dynamicTag) (hq : ∀ q, b.orientation = some q → q.lengthSqr = 1) (h : applyTorque t b = some b') :
    ∃ l, angularMomentum b = some l ∧ angularMomentum b' = some (l + t) ∧ b' = { b with angvel := b'.angvel } := by
  simp only [applyTorque, Option.bind_eq_some_iff, Option.some.injEq] at h
  obtain ⟨wi, hwi, w, hw, rfl⟩ := h
  obtain ⟨i, hi⟩ := Option.isSome_iff_exists.1 (hc.dynamic hd).2.1
  obtain ⟨q, hq'⟩ := Option.isSome_iff_exists.1 hc.placed.2
  have h2 := hc.inertia
  cases hii : b.inertiaInv with
  | none => simp only [hi, hii] at h2
  | some ii =>
    simp only [hi, hii] at h2
    have h3 := hcur.world q ii wi hd hq' hii hwi
    refine ⟨M3.mulVec (toWorld q i) w, by simp [angularMomentum, hq', hi, hw, toWorld_spec (hq q hq')], ?_, rfl⟩
    simp only [angularMomentum, hq', hi, Option.bind_some, Option.map_some, Option.some.injEq]
    rw [toWorld_spec (hq q hq'), add_mulVec, h3, world_inverse (by rw [hq q hq']; exact one_ne_zero) h2.1]

/-! ### The centre of mass -/

theorem toWorldSpace_neg_toWorldSpace (c o : V3 ℝ) (q : Quat ℝ) : toWorldSpace (-c) (toWorldSpace c o q) q = o := by
  rw [toWorldSpace, toWorldSpace, rotate_neg]
  ext <;> simp

theorem toWorldSpace_zero (o : V3 ℝ) (q : Quat ℝ) : toWorldSpace 0 o q = o := by
  ext <;> simp [toWorldSpace, Quat.rotate, cross, smul, dot]

theorem getOrigin_eq {b : Rb} {pos : V3 ℝ} {q : Quat ℝ} (hp : b.position = some pos) (hq : b.orientation = some q) :
    getOrigin b = some (toWorldSpace (-(b.com.getD 0)) pos q) := by
  cases hc : b.com with
  | none =>
    have : (-(0 : V3 ℝ)) = 0 := by ext <;> simp
    simp [getOrigin, hc, hp, this, toWorldSpace_zero]
  | some c => simp [getOrigin, hc, hp, hq]

/-- **C81** Setting the centre of mass of a body leaves its origin where it is and the velocity of each of its points as it is;
the centre of mass is where it was asked to be, relative to the origin, and the stored origin is right. -/
theorem com_keeps_motion {b b' : Rb} {c : V3 ℝ} (hs : b.origin.isSome ↔ b.com.isSome) (h : applyCom c b = some b') :
    (∃ o, getOrigin b = some o ∧ getOrigin b' = some o ∧ (∀ o', b'.origin = some o' → o' = o) ∧
      ∃ q, b.orientation = some q ∧ b'.position = some (toWorldSpace c o q)) ∧
    (∀ x, (pointVelocity b x).isSome ∧ pointVelocity b' x = pointVelocity b x) ∧ b'.com.getD 0 = c ∧
    b'.orientation = b.orientation ∧ b'.angvel = b.angvel := by
  obtain ⟨pos, q, v, w, hp, hq, hv, hw, e⟩ := applyCom_eq hs h
  subst e
  have hcom : (if c = 0 then none else some c : Option (V3 ℝ)).getD 0 = c := by
    by_cases h0 : c = 0 <;> simp [h0]
  refine ⟨⟨toWorldSpace (-(b.com.getD 0)) pos q, getOrigin_eq hp hq, ?_, ?_, q, hq, rfl⟩, ?_, hcom, rfl, rfl⟩
  · refine (getOrigin_eq (b := { b with position := _, linvel := _, com := _, origin := _ }) rfl hq).trans ?_
    simp only [hcom, toWorldSpace_neg_toWorldSpace]
  · intro o' ho
    by_cases h0 : c = 0
    · simp [h0] at ho
    · simp only [h0, if_false, Option.some.injEq] at ho
      exact ho.symm
  · intro x
    refine ⟨by simp [pointVelocity, hp, hv, hw], ?_⟩
    simp only [pointVelocity, hp, hv, hw, Option.bind_some, Option.map_some, Option.some.injEq]
    ext <;> simp only [cross, V3.add_x, V3.add_y, V3.add_z, V3.sub_x, V3.sub_y, V3.sub_z] <;> ring

/-- **C81** Setting the centre of mass of a body twice is the same as setting it once. -/
theorem com_twice {b b₁ b₂ b' : Rb} {c₁ c₂ : V3 ℝ} (hs : b.origin.isSome ↔ b.com.isSome) (h1 : applyCom c₁ b = some b₁)
    (h2 : applyCom c₂ b₁ = some b₂) (h : applyCom c₂ b = some b') : b₂ = b' := by
  obtain ⟨pos, q, v, w, hp, hq, hv, hw, e⟩ := applyCom_eq hs h1
  subst e
  obtain ⟨pos2, q2, v2, w2, hp2, hq2, hv2, hw2, e2⟩ := applyCom_eq (by by_cases h0 : c₁ = 0 <;> simp [h0]) h2
  obtain ⟨pos3, q3, v3, w3, hp3, hq3, hv3, hw3, e3⟩ := applyCom_eq hs h
  have hcom : (if c₁ = 0 then none else some c₁ : Option (V3 ℝ)).getD 0 = c₁ := by
    by_cases h0 : c₁ = 0 <;> simp [h0]
  rw [hp] at hp3; rw [hq] at hq3; rw [hv] at hv3; rw [hw] at hw3
  simp only [Option.some.injEq] at hp2 hv2 hp3 hq3 hv3 hw3
  rw [hq] at hq2; rw [hw] at hw2
  simp only [Option.some.injEq] at hq2 hw2
  subst hp2 hv2 hp3 hq3 hv3 hw3 hq2 hw2 e2 e3
  simp only [hcom, toWorldSpace_neg_toWorldSpace]
  ext1 <;> simp only []
  congr 1
  ext <;> simp only [cross, V3.add_x, V3.add_y, V3.add_z, V3.sub_x, V3.sub_y, V3.sub_z] <;> ring

/-- **C81** Setting the centre of mass always works for bodies which have velocities. -/
theorem com_can_be_set {b : Rb} {c : V3 ℝ} (hc : Consistent b) (hv : b.linvel.isSome ∧ b.angvel.isSome) :
    (applyCom c b).isSome := by
  obtain ⟨p, hp⟩ := Option.isSome_iff_exists.1 hc.placed.1
  obtain ⟨q, hq⟩ := Option.isSome_iff_exists.1 hc.placed.2
  obtain ⟨v, hv'⟩ := Option.isSome_iff_exists.1 hv.1
  obtain ⟨w, hw⟩ := Option.isSome_iff_exists.1 hv.2
  have := hc.origin
  simp only [applyCom, hp, hq, hv', hw, Option.bind_some]
  by_cases h0 : c = 0 <;> cases h1 : b.com <;> cases h2 : b.origin <;> simp_all

/-- **C81** A body whose origin is set has that origin, the same centre of mass, orientation and velocities. -/
theorem origin_round_trip {b b' : Rb} {o : V3 ℝ} (hq : b.orientation.isSome) (h : setOrigin o b = some b') :
    getOrigin b' = some o ∧ (∀ o', b.com.isSome → b'.origin = some o' → o' = o) ∧
      b' = { b with position := b'.position, origin := b'.origin } ∧ (b.com = none → b'.origin = b.origin) := by
  simp only [setOrigin] at h
  cases hc : b.com with
  | none =>
    simp only [hc, Option.map_eq_some_iff] at h
    obtain ⟨p, hp, rfl⟩ := h
    exact ⟨rfl, by simp, by ext1 <;> simp [hc], fun _ => rfl⟩
  | some c =>
    simp only [hc, Option.bind_eq_some_iff] at h
    obtain ⟨p, hp, q, hq, h⟩ := h
    split at h
    · injection h with h
      subst h
      refine ⟨?_, ?_, by ext1 <;> simp [hc], by simp⟩
      · simp [getOrigin, hq, toWorldSpace_neg_toWorldSpace]
      · intro o' _ ho
        injection ho with ho
        exact ho.symm
    · cases h

/-! ### Kinematic bodies -/

/-- **C82** A kinematic body which is moved has the velocity which takes it from its old position to the new one in the time
given. -/
theorem kinematic_position {b b' : Rb} {pos : V3 ℝ} {dt : ℝ} (hdt : dt ≠ 0) (h : setKinPos pos dt b = some b') :
    ∃ p v, b.position = some p ∧ b'.position = some pos ∧ b'.linvel = some v ∧ p + smul dt v = pos ∧
      b' = { b with position := b'.position, linvel := b'.linvel } := by
  simp only [setKinPos] at h
  split at h
  · cases h
  simp only [Option.bind_eq_some_iff, Option.some.injEq] at h
  obtain ⟨p, hp, v, hv, rfl⟩ := h
  refine ⟨p, _, hp, rfl, rfl, ?_, rfl⟩
  ext <;> simp only [smul, V3.add_x, V3.add_y, V3.add_z, V3.sub_x, V3.sub_y, V3.sub_z] <;> field_simp <;> ring

theorem mul_assoc_quat (a b c : Quat ℝ) : a * b * c = a * (b * c) := by
  ext <;> simp only [Quat.mul_x, Quat.mul_y, Quat.mul_z, Quat.mul_w] <;> ring

theorem mul_one_quat (a : Quat ℝ) : a * 1 = a := by
  ext <;> simp

/-- **C82** A kinematic body which is turned has the angular velocity whose integration over the time given takes it from its
old orientation to the new one, unless the angle is too small for the exact formula or the new orientation is the negative of
the old one. -/
theorem kinematic_orientation_partial {b b' : Rb} {q orn : Quat ℝ} {dt : ℝ} (hdt : 0 < dt) (hq : b.orientation = some q)
    (hq1 : q.lengthSqr = 1) (ho1 : orn.lengthSqr = 1)
    (hw : 1 / 1000 ≤ Real.arccos (orn * q.conjugate).w / (1 / 2 * dt)) (hn : (orn * q.conjugate).w ≠ -1)
    (hk : b.kinematicTag) (hv : b.angvel.isSome) :
    ∃ w, setKinOrn orn dt b = some { b with orientation := some orn, angvel := some w } ∧ q.integrate w dt = orn := by
  obtain ⟨w0, hw0⟩ := Option.isSome_iff_exists.1 hv
  suffices h : ∃ w, kinAngvel (orn * q.conjugate) dt = some w ∧ q.integrate w dt = orn by
    obtain ⟨w, h1, h2⟩ := h
    exact ⟨w, by simp [setKinOrn, hk, hq, hw0, h1], h2⟩
  have hr1 : (orn * q.conjugate).lengthSqr = 1 := by rw [lengthSqr_mul, lengthSqr_conjugate, hq1, ho1, mul_one]
  have hback : orn * q.conjugate * q = orn := by
    rw [mul_assoc_quat, (mul_conjugate q hq1).2, mul_one_quat]
  generalize orn * q.conjugate = r at *
  have hl : r.x * r.x + r.y * r.y + r.z * r.z + r.w * r.w = 1 := hr1
  have hw1 : r.w ≤ 1 := by nlinarith [mul_self_nonneg r.x, mul_self_nonneg r.y, mul_self_nonneg r.z]
  have hw2 : -1 ≤ r.w := by nlinarith [mul_self_nonneg r.x, mul_self_nonneg r.y, mul_self_nonneg r.z]
  have hcos : Real.cos (Real.arccos r.w) = r.w := Real.cos_arccos hw2 hw1
  have hθ0 : 0 < Real.arccos r.w := by
    by_contra hn0
    have : Real.arccos r.w = 0 := le_antisymm (not_lt.1 hn0) (Real.arccos_nonneg _)
    rw [this] at hw
    norm_num at hw
  have hθπ : Real.arccos r.w < Real.pi := by
    refine lt_of_le_of_ne (Real.arccos_le_pi _) fun e => ?_
    rw [e, Real.cos_pi] at hcos
    exact hn hcos.symm
  have hsin : 0 < Real.sin (Real.arccos r.w) := Real.sin_pos_of_pos_of_lt_pi hθ0 hθπ
  generalize Real.arccos r.w = θ at *
  have hws : 1 / 2 * (θ / (1 / 2 * dt)) * dt = θ := by field_simp
  have hwspos : 0 < θ / (1 / 2 * dt) := by positivity
  generalize hsdef : θ / (1 / 2 * dt) = s at *
  have hsq : r.x * r.x + r.y * r.y + r.z * r.z = Real.sin θ * Real.sin θ := by
    have := Real.sin_sq_add_cos_sq θ
    rw [hcos] at this
    nlinarith
  have hang : kinAngvel r dt = some (smul (s / Real.sin θ) ⟨r.x, r.y, r.z⟩) := by
    have harc : Real.arccos r.w = θ := by
      rw [← hcos]; exact Real.arccos_cos hθ0.le hθπ.le
    have hne : ¬(dt = 0 ∨ Real.sin θ / s = 0) := by
      push Not
      exact ⟨hdt.ne', (div_pos hsin hwspos).ne'⟩
    simp only [kinAngvel, harc, hsdef, if_neg (not_lt.2 hw), hws, if_neg hne, Option.some.injEq]
    congr 1
    field_simp
  have hnorm : Real.sqrt (V3.lengthSqr (smul (s / Real.sin θ) ⟨r.x, r.y, r.z⟩)) = s := by
    rw [show V3.lengthSqr (smul (s / Real.sin θ) ⟨r.x, r.y, r.z⟩) = s * s by
      simp only [V3.lengthSqr, dot, smul]
      field_simp
      linear_combination hsq]
    exact Real.sqrt_mul_self hwspos.le
  refine ⟨_, hang, ?_⟩
  simp only [Quat.integrate, hnorm, if_neg (not_lt.2 hw), hws, hcos]
  have e : (⟨(smul (s / Real.sin θ) ⟨r.x, r.y, r.z⟩).x * (Real.sin θ / s),
      (smul (s / Real.sin θ) ⟨r.x, r.y, r.z⟩).y * (Real.sin θ / s),
      (smul (s / Real.sin θ) ⟨r.x, r.y, r.z⟩).z * (Real.sin θ / s), r.w⟩ : Quat ℝ) = r := by
    ext <;> simp only [smul] <;> field_simp
  rw [e, hback]
  exact normalize_unit orn ho1

/-- The full property of kinematic rotations. -/
def KinematicOrientationFull : Prop :=
  ∀ (b : Rb) (q orn : Quat ℝ) (dt : ℝ), 0 < dt → b.orientation = some q → q.lengthSqr = 1 → orn.lengthSqr = 1 →
    b.kinematicTag → b.angvel.isSome → ∃ w,
      setKinOrn orn dt b = some { b with orientation := some orn, angvel := some w } ∧
        SameUpToSign (q.integrate w dt) orn

/-- **C82** A kinematic body which is set to the orientation it has does not turn. -/
theorem kinematic_orientation_same {b : Rb} {q : Quat ℝ} {dt : ℝ} (hdt : 0 < dt) (hq : b.orientation = some q)
    (hq1 : q.lengthSqr = 1) (hk : b.kinematicTag) (hv : b.angvel.isSome) :
    setKinOrn q dt b = some { b with angvel := some 0 } := by
  obtain ⟨w0, hw0⟩ := Option.isSome_iff_exists.1 hv
  have h1 : kinAngvel 1 dt = some 0 := by
    simp [kinAngvel, hdt.ne']
    ext <;> simp
  simp [setKinOrn, hk, hq, hw0, (mul_conjugate q hq1).1, h1]

/-! ### Removal -/

/-- **C82** `clear_rigidbody` works on every consistent body and removes everything but a stored origin and the mark of
transient components. -/
theorem clear_removes_partial {b : Rb} (hc : Consistent b) :
    clear b = some { origin := b.origin, transient := b.transient } := by
  have h1 : (dropShape b).isSome := by
    cases hi : b.shapeIndex with
    | none => simp [dropShape, hi]
    | some t =>
      have h1 := (hc.shape.1 t).2 hi
      have h2 := hc.shape.2.2 (by rw [hi]; rfl)
      obtain ⟨_, h1⟩ := Option.isSome_iff_exists.1 h1
      obtain ⟨_, h2⟩ := Option.isSome_iff_exists.1 h2
      simp [dropShape, hi, h1, h2]
  obtain ⟨b', hb⟩ := Option.isSome_iff_exists.1 h1
  have e := (hc.dropped hb).2
  have : ¬((!b.bodyTag || b.position.isNone || b.orientation.isNone || b.node.isNone) = true) := by
    have h1 := hc.placed.1
    have h2 := hc.placed.2
    have h3 := hc.graph.2.2.2
    have h4 := hc.tag
    cases hp : b.position <;> cases ho : b.orientation <;> simp_all
  simp only [clear, if_neg this, hb, Option.map_some, Option.some.injEq]
  subst e
  rfl

/-- The full property: after `clear_rigidbody` an entity is as it was before `make_rigidbody`. -/
def ClearFull : Prop :=
  ∀ (env : Env) (d : Def) (b₀ b : Rb) (ops : List Op), 0 ≤ env.eps → make env d {} = some b₀ → run env ops b₀ = some b →
    clear b = some {}

/-- Marks an entity. -/
abbrev mark (t : Bool) (b : Rb) : Rb := { b with transient := t || b.transient }

theorem make_mark (env : Env) (d : Def) (t : Bool) (b : Rb) : make env d (mark t b) = (make env d b).map (mark t) := by
  have h1 : ∀ b, makeMass env d (mark t b) = (makeMass env d b).map (mark t) := by
    intro b
    simp only [makeMass, mark]
    by_cases k1 : d.kind ≠ .dynamic
    · simp only [if_pos k1]; rfl
    simp only [if_neg k1]
    by_cases k2 : ¬(env.eps < d.mass ∧ d.mass < env.large)
    · simp only [if_pos k2]; rfl
    simp only [if_neg k2]
    by_cases k3 : (b.mass.isSome || b.massInv.isSome || b.inertia.isSome || b.inertiaInv.isSome || b.worldInv.isSome) = true
    · rw [if_pos k3, if_pos k3]; rfl
    rw [if_neg k3, if_neg k3]
    cases defInertia env d with
    | none => rfl
    | some i => cases hi : inverse? i <;> simp [hi, mark]
  have h2 : ∀ b, makeVel d (mark t b) = (makeVel d b).map (mark t) := by
    intro b
    simp only [makeVel, mark]
    by_cases k1 : d.kind = .static
    · simp only [if_pos k1]; rfl
    simp only [if_neg k1]
    by_cases k3 : (b.linvel.isSome || b.angvel.isSome) = true
    · rw [if_pos k3, if_pos k3]; rfl
    · rw [if_neg k3, if_neg k3]; rfl
  have h3 : ∀ c b, applyCom c (mark t b) = (applyCom c b).map (mark t) := by
    intro c b
    simp only [applyCom, mark]
    cases b.position <;> try rfl
    cases b.orientation <;> try rfl
    cases b.linvel <;> try rfl
    cases b.angvel <;> try rfl
    by_cases h0 : c = 0 <;> cases b.com <;> cases b.origin <;> simp [h0]
  have h4 : ∀ b, makeLook env d (mark t b) = (makeLook env d b).map (mark t) := by
    intro b
    simp only [makeLook, mark]
    by_cases k3 : (b.gravity.isSome || b.material.isSome || b.presentPos.isSome || b.presentOrn.isSome) = true
    · rw [if_pos k3, if_pos k3]; rfl
    · rw [if_neg k3, if_neg k3]; rfl
  have h5 : ∀ b, makeShape env d (mark t b) = (makeShape env d b).map (mark t) := by
    intro b
    simp only [makeShape, mark, makeRoll]
    cases d.shape with
    | none => rfl
    | some s =>
      simp only []
      by_cases k1 : d.kind ≠ .static ∧ env.staticOnly s.type
      · rw [if_pos k1, if_pos k1]; rfl
      rw [if_neg k1, if_neg k1]
      by_cases k3 : ((b.shapes s.type).isSome || b.shapeIndex.isSome || b.aabb.isSome || b.rollingTag || b.rollDir.isSome ||
        b.filter.isSome) = true
      · rw [if_pos k3, if_pos k3]; rfl
      rw [if_neg k3, if_neg k3]
      by_cases k4 : d.kind = .dynamic <;> by_cases k5 : env.rolling s.type = true <;> simp [k4, k5, mark]
  have h6 : ∀ b, makeTags env d (mark t b) = (makeTags env d b).map (mark t) := by
    intro b
    simp only [makeTags, mark]
    by_cases k3 : (b.dynamicTag || b.proceduralTag || b.kinematicTag || b.staticTag || b.sleepingDisabled || b.networked ||
      b.node.isSome || b.resident || b.multiResident || b.bodyTag) = true
    · rw [if_pos k3, if_pos k3]; rfl
    · rw [if_neg k3, if_neg k3]; simp [mark, Bool.or_assoc]
  simp only [make]
  split_ifs with h
  · rfl
  have e : { mark t b with position := some d.position, orientation := some d.orientation } =
      mark t { b with position := some d.position, orientation := some d.orientation } := rfl
  rw [e, h1]
  cases makeMass env d { b with position := some d.position, orientation := some d.orientation } with
  | none => rfl
  | some b1 =>
    simp only [Option.map_some, Option.bind_some, h2]
    cases makeVel d b1 with
    | none => rfl
    | some b2 =>
      simp only [Option.map_some, Option.bind_some]
      have h3' : makeCom d (mark t b2) = (makeCom d b2).map (mark t) := by
        simp only [makeCom]
        cases d.com with
        | none => rfl
        | some c => exact h3 c b2
      rw [h3']
      cases makeCom d b2 with
      | none => rfl
      | some b3 =>
        simp only [Option.map_some, Option.bind_some, h4]
        cases makeLook env d b3 with
        | none => rfl
        | some b4 =>
          simp only [Option.map_some, Option.bind_some, h5]
          cases makeShape env d b4 with
          | none => rfl
          | some b5 => simp only [Option.map_some, Option.bind_some, h6]

/-- **C82** The entity of a body without a separate centre of mass which was removed can be used for another body, which is
made as on a new entity. -/
theorem make_again_partial {env : Env} {d : Def} {b : Rb} (hc : Consistent b) (hcom : b.com = none) :
    ((clear b).bind (make env d)) = (make env d {}).map (mark b.transient) := by
  have ho : b.origin = none := by
    have := hc.origin
    rw [hcom] at this
    cases h : b.origin with
    | none => rfl
    | some o => rw [h] at this; simp at this
  rw [clear_removes_partial hc, ho, Option.bind_some, ← make_mark]
  simp [mark]

/-- The full property: the entity of any body which was removed can be used for another body, which is made as on a new
entity. -/
def MakeAgainFull : Prop :=
  ∀ (env : Env) (d d' : Def) (b₀ b : Rb) (ops : List Op), 0 ≤ env.eps → make env d {} = some b₀ → run env ops b₀ = some b →
    ((clear b).bind (make env d')) = (make env d' {}).map (mark b.transient)

end

end Edyn.Body
