import Verif.Body.Motion

/-!
# Rigid bodies: cases which meet the hypotheses, and counterexamples
-/

namespace Edyn.Body

open Edyn.Math hiding lengthSqr_nonneg
open V3

noncomputable section

/-- Shapes of type 0 are spheres, which roll, those of type 1 are boxes, those of type 2 are meshes, which do not move. -/
def env0 : Env where
  staticOnly t := t = 2
  rolling t := t = 0
  rollDir _ := 0
  inertia _ _ := 1
  aabb _ p _ := (p, p)
  eps := 0
  large := 1000
  gravity := 0
  async := true

/-- A ball. -/
def ball : Def := { shape := some ⟨0, 7⟩, inertia := some 1, gravity := some 0 }

/-- The components of the ball. -/
def ballBody : Rb where
  position := some 0
  orientation := some 1
  mass := some 1
  massInv := some 1
  inertia := some 1
  inertiaInv := some 1
  worldInv := some 1
  linvel := some 0
  angvel := some 0
  material := some 0
  presentPos := some 0
  presentOrn := some 1
  shapes t := if t = 0 then some 7 else none
  shapeIndex := some 0
  aabb := some (0, 0)
  rollingTag := true
  dynamicTag := true
  proceduralTag := true
  node := some false
  resident := true
  transient := true
  bodyTag := true

theorem inverse_one : inverse? 1 = some 1 := by
  have h : (1 : M3 ℝ).inverseSymmetric = 1 := by
    ext <;> simp [M3.inverseSymmetric, M3.one_def, M3.det, dot, cross]
  simp [inverse?, h]
  simp [M3.one_def, M3.det, dot, cross]

theorem toWorld_one : toWorld 1 1 = 1 := by
  simp only [toWorld, M3.mul_def, M3.one_def]
  ext <;> simp [M3.ofQuat, M3.transpose, M3.column0, M3.column1, M3.column2, dot, Quat.lengthSqr]

/-- The ball is made. -/
theorem ball_made : make env0 ball {} = some ballBody := by
  simp [make, makeMass, ball, defInertia, inverse_one, makeVel, makeCom, makeLook, makeShape, makeTags, makeRoll, env0,
    toWorld_one, ballBody]

theorem ball_consistent : Consistent ballBody := (make_consistent (le_refl _) ball_made).1

theorem one_ne_zero_m3 : (1 : M3 ℝ) ≠ ⟨0, 0, 0⟩ := by
  intro h
  have := congrArg (fun m : M3 ℝ => m.r0.x) h
  simp [M3.one_def] at this

theorem supports_ball (b : Rb) (h1 : b.mass = some 1) (h2 : b.inertia = some 1) (k : Kind) : supports env0 k b = true := by
  cases k <;> simp [supports, h1, h2, env0, one_ne_zero_m3]

/-- A ball which is made static, given a box as its shape and made dynamic again is still marked as rolling. -/
theorem rolling_goes_stale : ∃ b, run env0 [.kind .static, .shape (some ⟨1, 8⟩), .kind .dynamic] ballBody = some b ∧
    b.dynamicTag ∧ b.rollingTag ∧ b.shapeIndex = some 1 := by
  simp [run, apply, setKind, supports_ball, ballBody, replaceTags, setShape, assignShape, env0, assignRoll, supports,
    one_ne_zero_m3]

/-- A body which is made static, given a mesh as its shape and made dynamic again has a shape which does not move. -/
theorem mesh_moves : ∃ b, run env0 [.kind .static, .shape (some ⟨2, 8⟩), .kind .dynamic] ballBody = some b ∧
    b.dynamicTag ∧ b.shapeIndex = some 2 ∧ env0.staticOnly 2 := by
  simp [run, apply, setKind, supports_ball, ballBody, replaceTags, setShape, assignShape, env0, assignRoll, supports,
    one_ne_zero_m3]

/-- **C80** The full property does not hold. -/
theorem body_refuted : ¬BodyFull := by
  intro h
  obtain ⟨b, hb, h1, h2, h3⟩ := rolling_goes_stale
  obtain ⟨-, -, hs⟩ := h env0 ball ballBody b _ (le_refl _) ball_made hb
  obtain ⟨t, ht, hr⟩ := (hs.rolling h1).1 h2
  rw [h3] at ht
  injection ht with ht
  subst ht
  simp [env0] at hr

/-- Twice the identity. -/
def two : M3 ℝ := ⟨⟨2, 0, 0⟩, ⟨0, 2, 0⟩, ⟨0, 0, 2⟩⟩

/-- After the inertia of a body is set, impulses turn it as if it still had the old inertia, until the next step: here the
angular momentum changes by twice the moment of the impulse. -/
theorem world_inertia_behind : ∃ b, run env0 [.inertia two, .torque ⟨1, 0, 0⟩] ballBody = some b ∧
    angularMomentum b = some ⟨2, 0, 0⟩ ∧
    ∃ b', run env0 [.inertia two, .step 0 1 0 0, .torque ⟨1, 0, 0⟩] ballBody = some b' ∧
      angularMomentum b' = some ⟨1, 0, 0⟩ := by
  have hi : inverse? two = some ⟨⟨1 / 2, 0, 0⟩, ⟨0, 1 / 2, 0⟩, ⟨0, 0, 1 / 2⟩⟩ := by
    simp [inverse?, two, M3.det, dot, cross, M3.inverseSymmetric]
    norm_num
  simp [run, apply, setInertia, ballBody, hi, applyTorque, angularMomentum, step, updateOrigin, updateAabb, updateInertia, env0]
  have hc : (1 : Quat ℝ).conjugate = 1 := by ext <;> simp [Quat.conjugate]
  simp [toWorld, M3.mul_def, two, M3.ofQuat, M3.transpose, M3.column0, M3.column1, M3.column2, dot, Quat.lengthSqr, M3.mulVec,
    M3.one_def, hc, rotate_one]

/-- A body which was not made dynamic can never be made dynamic: it has no mass, which is read. -/
theorem never_dynamic {env : Env} {d : Def} {b : Rb} (hk : d.kind ≠ .dynamic) (h : make env d {} = some b) :
    setKind env .dynamic b = none := by
  have hm : b.mass = none := by
    obtain ⟨b1, b2, b3, b4, b5, h1, h2, h3, h4, h5, h6⟩ := make_some h
    have e1 : b1.mass = none := by
      simp only [makeMass, if_pos hk, Option.some.injEq] at h1
      subst h1
      rfl
    have e2 : b2.mass = none := by
      simp only [makeVel] at h2
      split at h2
      · injection h2 with h2; subst h2; exact e1
      · split at h2
        · cases h2
        · injection h2 with h2; subst h2; exact e1
    have e3 : b3.mass = none := by
      simp only [makeCom] at h3
      split at h3
      · simp only [applyCom, Option.bind_eq_some_iff] at h3
        obtain ⟨_, _, _, _, _, _, _, _, h3⟩ := h3
        split at h3 <;> split at h3 <;> (try split at h3) <;>
          first
          | cases h3; done
          | (injection h3 with h3; subst h3; exact e2)
      · injection h3 with h3; subst h3; exact e2
    have e4 : b4.mass = none := by
      simp only [makeLook] at h4
      split at h4
      · cases h4
      · injection h4 with h4; subst h4; exact e3
    have e5 : b5.mass = none := by
      simp only [makeShape] at h5
      split at h5
      · injection h5 with h5; subst h5; exact e4
      · split at h5
        · cases h5
        · split at h5
          · cases h5
          · injection h5 with h5
            subst h5
            simp only [makeRoll]
            first
            | exact e4
            | (split
               · split <;> exact e4
               · exact e4)
    simp only [makeTags] at h6
    split at h6
    · cases h6
    · injection h6 with h6; subst h6; exact e5
  simp [setKind, supports, replaceTags, hm]

/-- A static body cannot be given a centre of mass: velocities which do not exist are read. -/
theorem static_without_com {env : Env} {d : Def} {c : V3 ℝ} (hk : d.kind = .static) (hc : d.com = some c) :
    make env d {} = none := by
  simp [make, makeMass, hk, makeVel, makeCom, hc, applyCom]

/-- A static box. -/
def wall : Def := { kind := .static, shape := some ⟨1, 0⟩ }

/-- The components of the static box. -/
def wallBody : Rb where
  position := some 0
  orientation := some 1
  material := some 0
  shapes t := if t = 1 then some 0 else none
  shapeIndex := some 1
  aabb := some (0, 0)
  staticTag := true
  node := some true
  multiResident := true
  bodyTag := true

theorem wall_made : make env0 wall {} = some wallBody := by
  simp [make, makeMass, wall, makeVel, makeCom, makeLook, makeShape, makeTags, env0, wallBody]

/-- A static body which is made kinematic cannot be moved: it has no velocity, which is written. -/
theorem kinematic_without_velocity : ∃ b, run env0 [.kind .kinematic] wallBody = some b ∧ b.kinematicTag ∧
    (∀ pos dt, setKinPos pos dt b = none) ∧ ∀ orn dt, setKinOrn orn dt b = none := by
  simp [run, apply, setKind, wallBody, replaceTags, supports, setKinPos, setKinOrn]

/-- `validate_rigidbody` accepts dynamic bodies. -/
theorem dynamic_valid {env : Env} (he : 0 ≤ env.eps) {d : Def} {b : Rb} (hk : d.kind = .dynamic)
    (h : make env d {} = some b) : validate b := by
  obtain ⟨hc, -, -⟩ := make_consistent he h
  have hd : b.dynamicTag := by
    obtain ⟨b1, b2, b3, b4, b5, h1, h2, h3, h4, h5, h6⟩ := make_some h
    simp only [makeTags] at h6
    split at h6
    · cases h6
    · injection h6 with h6; subst h6; simp [hk]
  have h1 := hc.dynamic hd
  have h2 := hc.mass
  have h3 := hc.inertia
  obtain ⟨m, hm⟩ := Option.isSome_iff_exists.1 h1.1
  obtain ⟨i, hi⟩ := Option.isSome_iff_exists.1 h1.2.1
  simp only [hm] at h2
  simp only [hi] at h3
  have h4 : b.massInv.isSome := by cases h : b.massInv <;> simp_all
  have h5 : b.inertiaInv.isSome := by cases h : b.inertiaInv <;> simp_all
  have h6 := hc.graph.2.1
  simp [validate, hc.tag, hd, h6, hc.placed.1, hc.placed.2, h1.1, h1.2.1, h1.2.2.1, h1.2.2.2.1, h1.2.2.2.2, h4, h5]

/-- `validate_rigidbody` rejects a static body, which is as it should be. -/
theorem static_invalid : Consistent wallBody ∧ validate wallBody = false :=
  ⟨(make_consistent (le_refl _) wall_made).1, rfl⟩

/-- The origin which is presented of a new body with a centre of mass is not its origin. -/
theorem present_origin_wrong : ∃ b, make env0 { ball with com := some ⟨1, 0, 0⟩ } {} = some b ∧
    getOrigin b = some 0 ∧ presentOrigin b = some ⟨-1, 0, 0⟩ := by
  have h1 : (⟨1, 0, 0⟩ : V3 ℝ) ≠ 0 := by
    intro h
    have := congrArg V3.x h
    simp at this
  simp [make, makeMass, ball, defInertia, inverse_one, makeVel, makeCom, makeLook, makeShape, makeTags, makeRoll, env0,
    toWorld_one, applyCom, h1, getOrigin, presentOrigin]
  constructor <;> ext <;> simp [toWorldSpace, rotate_one]

/-- A body made with a centre of mass and one which is given it later differ in their inertia. -/
theorem com_inertia : ∃ b b' b'' : Rb, make env0 { ball with inertia := none, com := some ⟨1, 0, 0⟩ } {} = some b ∧
    make env0 { ball with inertia := none } {} = some b' ∧ applyCom ⟨1, 0, 0⟩ b' = some b'' ∧
    b.com = b''.com ∧ b.position = b''.position ∧ b.mass = b''.mass ∧ b.shapes = b''.shapes ∧ b.inertia ≠ b''.inertia := by
  have h1 : (⟨1, 0, 0⟩ : V3 ℝ) ≠ 0 := by
    intro h
    have := congrArg V3.x h
    simp at this
  have hsh : Mass.shiftInertia 1 1 ⟨1, 0, 0⟩ = ⟨⟨1, 0, 0⟩, ⟨0, 2, 0⟩, ⟨0, 0, 2⟩⟩ := by
    ext <;> simp [Mass.shiftInertia, Mass.plus, M3.skew, M3.transpose, M3.mul_def, M3.scale, M3.column0, M3.column1,
      M3.column2, dot, M3.one_def] <;> norm_num
  have hinv : inverse? ⟨⟨1, 0, 0⟩, ⟨0, 2, 0⟩, ⟨0, 0, 2⟩⟩ = some ⟨⟨1, 0, 0⟩, ⟨0, 1 / 2, 0⟩, ⟨0, 0, 1 / 2⟩⟩ := by
    simp [inverse?, M3.det, dot, cross, M3.inverseSymmetric]
    norm_num
  have hne : (⟨⟨1, 0, 0⟩, ⟨0, 2, 0⟩, ⟨0, 0, 2⟩⟩ : M3 ℝ) ≠ 1 := by
    intro h
    have := congrArg (fun m : M3 ℝ => m.r1.y) h
    simp [M3.one_def] at this
  simp [make, makeMass, ball, defInertia, inverse_one, makeVel, makeCom, makeLook, makeShape, makeTags, makeRoll, env0,
    toWorld_one, applyCom, h1, hsh, hinv, hne]

/-- The box of a shape given to a body without one is put at the centre of mass instead of the origin. -/
theorem box_at_com : ∃ b, run env0 [.com ⟨1, 0, 0⟩, .shape none, .shape (some ⟨1, 8⟩)] ballBody = some b ∧
    getOrigin b = some 0 ∧ b.aabb = some (⟨1, 0, 0⟩, ⟨1, 0, 0⟩) := by
  have h1 : (⟨1, 0, 0⟩ : V3 ℝ) ≠ 0 := by
    intro h
    have := congrArg V3.x h
    simp at this
  simp [run, apply, applyCom, ballBody, h1, setShape, dropShape, assignShape, assignRoll, env0, getOrigin, toWorldSpace,
    rotate_one]
  constructor <;> ext <;> simp

/-- The stored origin of a kinematic body which is moved stays behind until the next step. -/
theorem origin_behind : ∃ b, run env0 [.kind .kinematic, .com ⟨1, 0, 0⟩, .kinPos ⟨3, 0, 0⟩ 1] ballBody = some b ∧
    getOrigin b = some ⟨2, 0, 0⟩ ∧ b.origin = some 0 := by
  have h1 : (⟨1, 0, 0⟩ : V3 ℝ) ≠ 0 := by
    intro h
    have := congrArg V3.x h
    simp at this
  simp [run, apply, applyCom, ballBody, h1, setKind, replaceTags, supports, setKinPos, getOrigin, toWorldSpace, rotate_one]
  constructor <;> ext <;> simp
  norm_num

/-- A removed body with a centre of mass leaves its origin behind: a body made later on the same entity is treated as if its
origin were there, and one with a centre of mass cannot be made. -/
theorem origin_left : ∃ b b' : Rb, run env0 [.com ⟨1, 0, 0⟩] ballBody = some b ∧ clear b = some b' ∧ b'.origin = some 0 ∧
    (∃ b'', make env0 { ball with position := ⟨5, 0, 0⟩ } b' = some b'' ∧ b''.origin = some 0 ∧
      getOrigin b'' = some ⟨5, 0, 0⟩) ∧
    make env0 { ball with com := some ⟨1, 0, 0⟩ } b' = none := by
  have h1 : (⟨1, 0, 0⟩ : V3 ℝ) ≠ 0 := by
    intro h
    have := congrArg V3.x h
    simp at this
  simp [run, apply, applyCom, ballBody, h1, clear, dropShape, toWorldSpace, rotate_one, make, makeMass, ball, defInertia,
    inverse_one, makeVel, makeCom, makeLook, makeShape, makeTags, makeRoll, env0, getOrigin]
  ext <;> simp

/-- **C82** The full properties of removal do not hold. -/
theorem clear_refuted : ¬ClearFull ∧ ¬MakeAgainFull := by
  obtain ⟨b, b', h1, h2, h3, ⟨b'', h4, h5, h6⟩, h7⟩ := origin_left
  constructor
  · intro h
    have := h env0 ball ballBody b _ (le_refl _) ball_made h1
    rw [h2] at this
    injection this with this
    rw [this] at h3
    cases h3
  · intro h
    have := h env0 ball { ball with com := some ⟨1, 0, 0⟩ } ballBody b _ (le_refl _) ball_made h1
    obtain ⟨x, hx, -⟩ := present_origin_wrong
    rw [h2, Option.bind_some, h7, hx] at this
    cases this

/-- **C82** A kinematic body cannot be set to the negative of its orientation, which is the same rotation: a division by
zero. -/
theorem kinematic_orientation_refuted : ¬KinematicOrientationFull := by
  intro h
  obtain ⟨w, hw, -⟩ := h { kinematicTag := true, orientation := some 1, angvel := some 0 } 1 ⟨0, 0, 0, -1⟩ 1 one_pos rfl
    (by simp [Quat.lengthSqr]) (by simp [Quat.lengthSqr]) rfl rfl
  have e : (⟨0, 0, 0, -1⟩ : Quat ℝ) * Quat.conjugate 1 = ⟨0, 0, 0, -1⟩ := by ext <;> simp [Quat.conjugate]
  have hpi := Real.two_le_pi
  have hlt : ¬(Real.pi / (1 / 2) < 1 / 1000) := by
    push Not
    rw [le_div_iff₀ (by norm_num)]
    linarith
  have h1 : kinAngvel ⟨0, 0, 0, -1⟩ 1 = none := by
    have : (1 / 2 : ℝ) * (Real.pi / (1 / 2)) * 1 = Real.pi := by ring
    simp only [kinAngvel, Real.arccos_neg_one, mul_one]
    rw [if_neg hlt, if_pos]
    right
    rw [show (1 / 2 : ℝ) * (Real.pi / (1 / 2)) = Real.pi by ring, Real.sin_pi, zero_div]
  simp [setKinOrn, e, h1] at hw

/-! ### Cases which meet the hypotheses -/

/-- Operations, for `body_consistent_partial`. -/
example : (run env0 [.com ⟨1, 0, 0⟩, .mass 2, .inertia 1, .impulse ⟨1, 0, 0⟩ ⟨0, 1, 0⟩,
    .origin ⟨0, 0, 3⟩] ballBody).isSome := by
  have h1 : (⟨1, 0, 0⟩ : V3 ℝ) ≠ 0 := by
    intro h
    have := congrArg V3.x h
    simp at this
  norm_num [run, apply, applyCom, ballBody, h1, setMass, setInertia, inverse_one, applyImpulse, setOrigin, setShape, assignShape,
    assignRoll, step, updateOrigin, updateAabb, updateInertia, setKind, supports, replaceTags, setKinPos, env0]

/-- The ball, for `impulse_momentum`: its components are consistent and up to date. -/
example : Consistent ballBody ∧ Current env0 ballBody ∧ Suited env0 ballBody := by
  refine ⟨ball_consistent, ⟨?_, ?_, ?_⟩, (make_consistent (le_refl _) ball_made).2.2⟩
  · intro orn inv w _ h1 h2 h3
    injection h1 with h1; injection h2 with h2; injection h3 with h3
    rw [← h1, ← h2, ← h3, toWorld_one]
  · intro o h
    cases h
  · intro t value orn o _ _ _ _ h
    injection h with h
    subst h
    rfl

/-- An impulse beside the centre of mass. -/
example : ∃ b, applyImpulse ⟨1, 0, 0⟩ ⟨0, 1, 0⟩ ballBody = some b ∧ b.linvel = some ⟨1, 0, 0⟩ ∧ b.angvel = some ⟨0, 0, -1⟩ := by
  simp [applyImpulse, ballBody, M3.one_mulVec]
  constructor <;> ext <;> simp

/-- A quarter of a turn, for `kinematic_orientation_partial`. -/
example : (1 : ℝ) / 1000 ≤ Real.arccos ((⟨1, 0, 0, 0⟩ : Quat ℝ) * Quat.conjugate 1).w / (1 / 2 * 1) ∧
    ((⟨1, 0, 0, 0⟩ : Quat ℝ) * Quat.conjugate 1).w ≠ -1 ∧ Quat.lengthSqr (⟨1, 0, 0, 0⟩ : Quat ℝ) = 1 := by
  have hpi := Real.two_le_pi
  have e : ((⟨1, 0, 0, 0⟩ : Quat ℝ) * Quat.conjugate 1).w = 0 := by simp [Quat.conjugate]
  rw [e, Real.arccos_zero]
  refine ⟨?_, by norm_num, by simp [Quat.lengthSqr]⟩
  rw [le_div_iff₀ (by norm_num)]
  linarith

end

end Edyn.Body
