import Verif.Ragdoll.Model

/-!
# Rag dolls (C99)

`assembled_partial`: the anchors of the joints meet, except in the neck, the head, between the
shoulders and the arms and in the right wrist, where they are apart by `gaps_exact`.
`frames_meet`: the frames of all joints agree.  `total_mass`, `joined_excluded`, `connected`;
`shapes_valid_partial` and `short_neck`.
-/

namespace Edyn.Ragdoll

open Edyn.Math V3 Quat

/-! ## Specification -/

/-- The first anchor of a joint in world space. -/
noncomputable def anchorA (d : Def) (j : Joint) : V3 ℝ :=
  toWorldSpace (j.pivots d).1 (position d j.bodies.1) (orientation d j.bodies.1)

/-- The second anchor of a joint in world space. -/
noncomputable def anchorB (d : Def) (j : Joint) : V3 ℝ :=
  toWorldSpace (j.pivots d).2 (position d j.bodies.2) (orientation d j.bodies.2)

/-- A frame in world space. -/
noncomputable def worldFrame (q : Quat ℝ) (f : Frame) : Frame :=
  ⟨rotate q f.c0, rotate q f.c1, rotate q f.c2⟩

/-- All bodies. -/
def parts : List Part :=
  [.head, .neck, .torsoUpper, .torsoMiddle, .torsoLower, .hip,
   .legUpper .left, .legUpper .right, .legLower .left, .legLower .right, .foot .left, .foot .right,
   .shoulder .left, .shoulder .right, .armUpper .left, .armUpper .right,
   .armLower .left, .armLower .right, .armTwist .left, .armTwist .right, .hand .left, .hand .right]

theorem parts_complete : parts.Nodup ∧ ∀ p, p ∈ parts := by
  refine ⟨by decide, ?_⟩
  intro p
  cases p <;> first | decide | (rename_i s; cases s <;> decide)

/-- The extents of a shape are positive. A capsule may be a sphere. -/
def Shape.Valid : Shape → Prop
  | .box h => 0 < h.x ∧ 0 < h.y ∧ 0 < h.z
  | .capsule r l _ => 0 < r ∧ 0 ≤ l
  | .cylinder r l _ => 0 < r ∧ 0 < l

/-- **C99.** The full statement: for every definition with a unit orientation both anchors of every
joint are at the same place. -/
def AssembledFull : Prop :=
  ∀ d : Def, d.orientation.lengthSqr = 1 → ∀ j, anchorA d j = anchorB d j

/-- The joints whose anchors do not meet. -/
def loose : List Joint :=
  [.torsoNeck, .neckHead, .shoulderArm .left, .shoulderArm .right, .wrist .right]

/-! ## Positions -/

theorem rotZPi_eq : rotZPi = ⟨0, 0, 1, 0⟩ := by
  have h : Real.pi * (1 / 2) = Real.pi / 2 := by ring
  simp [rotZPi, axisAngle]
  constructor
  · rw [show Real.pi * 2⁻¹ = Real.pi / 2 by ring, Real.sin_pi_div_two]
  · rw [show Real.pi * 2⁻¹ = Real.pi / 2 by ring, Real.cos_pi_div_two]

/-- How a body is turned relative to the rag doll. -/
def turn : Part → V3 ℝ → V3 ℝ
  | .shoulder .right, v | .armUpper .right, v | .armLower .right, v | .armTwist .right, v
  | .hand .right, v => ⟨-v.x, -v.y, v.z⟩
  | _, v => v

theorem rotate_rotZPi (v : V3 ℝ) : rotate rotZPi v = ⟨-v.x, -v.y, v.z⟩ := by
  rw [rotZPi_eq]
  ext <;> simp [rotate] <;> ring

theorem rotate_right (q : Quat ℝ) (h : q.lengthSqr = 1) (v : V3 ℝ) :
    rotate (q * rotZPi) v = rotate q ⟨-v.x, -v.y, v.z⟩ := by
  rw [rotate_mul q rotZPi h (by rw [rotZPi_eq]; simp [Quat.lengthSqr]), rotate_rotZPi]

theorem rotate_orientation (d : Def) (h : d.orientation.lengthSqr = 1) (p : Part) (v : V3 ℝ) :
    rotate (orientation d p) v = rotate d.orientation (turn p v) := by
  cases p <;> first | rfl | (rename_i s; cases s <;> first | rfl | exact rotate_right _ h v)

theorem position_eq (d : Def) (p : Part) :
    position d p = toWorldSpace (place d p) d.position d.orientation := by
  cases p <;> first | rfl | skip
  ext <;> simp [position, toWorldSpace, place, rotate]

/-- The difference of the anchors, seen from the rag doll. -/
noncomputable def gap (d : Def) (j : Joint) : V3 ℝ :=
  (place d j.bodies.1 + turn j.bodies.1 (j.pivots d).1) -
    (place d j.bodies.2 + turn j.bodies.2 (j.pivots d).2)

theorem anchors_gap (d : Def) (h : d.orientation.lengthSqr = 1) (j : Joint) :
    anchorA d j - anchorB d j = rotate d.orientation (gap d j) := by
  unfold anchorA anchorB gap
  simp only [toWorldSpace, position_eq, rotate_orientation d h, rotate_sub, rotate_add]
  ext <;> simp <;> ring

theorem meet_of_gap (d : Def) (h : d.orientation.lengthSqr = 1) (j : Joint)
    (hg : gap d j = 0) : anchorA d j = anchorB d j := by
  have e := anchors_gap d h j
  have hz : rotate d.orientation (0 : V3 ℝ) = 0 := by ext <;> simp [rotate]
  rw [hg, hz] at e
  have hx := congrArg V3.x e
  have hy := congrArg V3.y e
  have hz := congrArg V3.z e
  simp only [sub_x, sub_y, sub_z, zero_x, zero_y, zero_z] at hx hy hz
  ext <;> linarith

/-! ## C99 -/

/-- **C99, partial: all joints but five.** Missing: the joints in `loose`, whose anchors are apart
(`gaps_exact`). -/
theorem assembled_partial (d : Def) (h : d.orientation.lengthSqr = 1) (j : Joint)
    (hj : j ∉ loose) : anchorA d j = anchorB d j := by
  apply meet_of_gap d h
  have side : ∀ s : Side, s = .left ∨ s = .right := by intro s; cases s <;> simp
  cases j with
  | hipTorso | torsoLowerMiddle | torsoMiddleUpper =>
    ext <;> simp [gap, Joint.bodies, Joint.pivots, place, turn] <;> ring
  | torsoNeck | neckHead => exact absurd (by decide) hj
  | shoulderArm s => rcases side s with rfl | rfl <;> exact absurd (by decide) hj
  | wrist s =>
    rcases side s with rfl | rfl
    · ext <;> simp [gap, Joint.bodies, Joint.pivots, place, turn, torsoUpperTop, Side.sign] <;>
        ring
    · exact absurd (by decide) hj
  | hipLeg s | knee s | ankle s | torsoShoulder s | elbow s | twist s =>
    rcases side s with rfl | rfl <;> ext <;>
      simp [gap, Joint.bodies, Joint.pivots, place, turn, legPosX, torsoUpperTop,
        shoulderSizeX, Side.sign] <;> ring

/-- How far the anchors of the other joints are apart, in the coordinates of the rag doll. -/
theorem gaps_exact (d : Def) (h : d.orientation.lengthSqr = 1) :
    anchorA d .torsoNeck - anchorB d .torsoNeck =
      rotate d.orientation ⟨0, 0.0165 * d.neckSize.y, 0⟩ ∧
    anchorA d .neckHead - anchorB d .neckHead =
      rotate d.orientation ⟨0, -0.0135 * d.neckSize.y, 0⟩ ∧
    anchorA d (.shoulderArm .left) - anchorB d (.shoulderArm .left) =
      rotate d.orientation ⟨0.001 * d.torsoUpperSize.x, 0, 0⟩ ∧
    anchorA d (.shoulderArm .right) - anchorB d (.shoulderArm .right) =
      rotate d.orientation ⟨-0.001 * d.torsoUpperSize.x, 0, 0⟩ ∧
    anchorA d (.wrist .right) - anchorB d (.wrist .right) =
      rotate d.orientation ⟨0, d.handSize.y - d.armLowerSize.y, 0⟩ := by
  refine ⟨?_, ?_, ?_, ?_, ?_⟩ <;> rw [anchors_gap d h] <;> congr 1 <;> ext <;>
    simp [gap, Joint.bodies, Joint.pivots, place, turn, legPosX, torsoUpperTop,
            shoulderSizeX, Side.sign] <;> ring

/-- The frames of the two bodies of every joint agree, so that all angles are zero. -/
theorem frames_meet (d : Def) (h : d.orientation.lengthSqr = 1) (j : Joint) :
    worldFrame (orientation d j.bodies.1) j.frames.1 =
      worldFrame (orientation d j.bodies.2) j.frames.2 := by
  cases j <;> first
    | rfl
    | (rename_i s; cases s <;> first
        | rfl
        | (simp [worldFrame, Joint.bodies, Joint.frames, rotate_orientation d h, turn, Side.sign]
           refine ⟨?_, ?_⟩ <;> congr 1 <;> ext <;> simp))

/-- The mass of the rag doll is the requested weight. -/
theorem total_mass (s : SimpleDef) : (parts.map (mass (fromSimple s))).sum = s.weight := by
  simp [parts, mass, fromSimple]
  ring

/-- Two bodies with shapes joined by a joint never collide. -/
theorem joined_excluded (d : Def) (j : Joint) (h1 : (shape d j.bodies.1).isSome)
    (h2 : (shape d j.bodies.2).isSome) :
    j.bodies ∈ exclusions ∨ (j.bodies.2, j.bodies.1) ∈ exclusions := by
  cases j <;> first
    | (simp [exclusions, Joint.bodies]; done)
    | (rename_i s; cases s <;> first
        | (simp [exclusions, Joint.bodies]; done)
        | (simp [shape, Joint.bodies] at h1 h2))

/-- Neither do the bodies with shapes joined through a shoulder or the twist of a forearm, which
have none. -/
theorem joined_through_excluded (d : Def) (j k : Joint) (hjk : j.bodies.2 = k.bodies.1)
    (h1 : (shape d j.bodies.1).isSome) (hm : shape d j.bodies.2 = none)
    (h2 : (shape d k.bodies.2).isSome) : (j.bodies.1, k.bodies.2) ∈ exclusions := by
  cases j <;> simp [shape, Joint.bodies] at hm <;> cases k <;>
    simp [Joint.bodies] at hjk <;> simp [shape, Joint.bodies] at h1 h2 <;> subst hjk <;>
    rename_i s <;> cases s <;> simp [exclusions, Joint.bodies]

/-- The angles of a new rag doll, zero by `frames_meet`, are within the limits of the joints, and
the limits of the legs mirror one another. -/
theorem limits_allow_zero (j : Joint) : j.limits.1 ≤ 0 ∧ 0 ≤ j.limits.2 := by
  have hp := Real.pi_pos
  cases j <;> first
    | (simp only [Joint.limits, toRadians]; constructor <;> linarith)
    | (rename_i s; cases s <;> simp only [Joint.limits, toRadians] <;> constructor <;> linarith)

/-- The two sides mirror one another: places, masses and the limits of the legs. -/
theorem sides_mirror (d : Def) :
    (∀ f ∈ [Part.legUpper, .legLower, .foot, .shoulder, .armUpper, .armLower, .armTwist, .hand],
      (place d (f .right)).x = -(place d (f .left)).x ∧
      (place d (f .right)).y = (place d (f .left)).y ∧
      (place d (f .right)).z = (place d (f .left)).z ∧
      mass d (f .right) = mass d (f .left) ∧ shape d (f .right) = shape d (f .left)) ∧
    (Joint.hipLeg .right).limits =
      (-(Joint.hipLeg .left).limits.2, -(Joint.hipLeg .left).limits.1) := by
  constructor
  · intro f hf
    simp only [List.mem_cons, List.not_mem_nil, or_false] at hf
    rcases hf with rfl | rfl | rfl | rfl | rfl | rfl | rfl | rfl <;>
      simp [place, mass, shape, Side.sign]
  · simp only [Joint.limits, toRadians]
    ext <;> simp <;> ring

/-- Every body but the hip is the second body of exactly one joint, whose first body is nearer to
the hip: the bodies hang together. -/
theorem connected : ∃ depth : Part → ℕ, depth .hip = 0 ∧
    (∀ j : Joint, depth j.bodies.2 = depth j.bodies.1 + 1) ∧
    ∀ p, p ≠ .hip → ∃! j : Joint, j.bodies.2 = p := by
  refine ⟨fun
    | .hip => 0 | .torsoLower => 1 | .torsoMiddle => 2 | .torsoUpper => 3 | .neck => 4 | .head => 5
    | .legUpper _ => 1 | .legLower _ => 2 | .foot _ => 3 | .shoulder _ => 4 | .armUpper _ => 5
    | .armLower _ => 6 | .armTwist _ => 7 | .hand _ => 8, rfl, ?_, ?_⟩
  · intro j; cases j <;> rfl
  · intro p hp
    have key : ∀ j k : Joint, j.bodies.2 = k.bodies.2 → j = k := by
      intro j k e
      cases j <;> cases k <;> simp [Joint.bodies] at e ⊢ <;> exact e
    have ex : ∃ j : Joint, j.bodies.2 = p := by
      cases p with
      | hip => exact absurd rfl hp
      | head => exact ⟨.neckHead, rfl⟩
      | neck => exact ⟨.torsoNeck, rfl⟩
      | torsoUpper => exact ⟨.torsoMiddleUpper, rfl⟩
      | torsoMiddle => exact ⟨.torsoLowerMiddle, rfl⟩
      | torsoLower => exact ⟨.hipTorso, rfl⟩
      | legUpper s => exact ⟨.hipLeg s, rfl⟩
      | legLower s => exact ⟨.knee s, rfl⟩
      | foot s => exact ⟨.ankle s, rfl⟩
      | shoulder s => exact ⟨.torsoShoulder s, rfl⟩
      | armUpper s => exact ⟨.shoulderArm s, rfl⟩
      | armLower s => exact ⟨.elbow s, rfl⟩
      | armTwist s => exact ⟨.twist s, rfl⟩
      | hand s => exact ⟨.wrist s, rfl⟩
    obtain ⟨j, hj⟩ := ex
    exact ⟨j, hj, fun k hk => key k j (hk.trans hj.symm)⟩

/-- All shapes of a rag doll of at least 1.2 metres are valid, of any kind.  Missing: smaller ones
(`short_neck`). -/
theorem shapes_valid_partial (s : SimpleDef) (hs : 1.2 ≤ s.height) (p : Part) (x : Shape)
    (hx : shape (fromSimple s) p = some x) : x.Valid := by
  obtain ⟨pos, orn, height, weight, kind⟩ := s
  simp only at hs
  norm_num at hs
  cases p <;> cases kind <;>
    simp only [shape, fromSimple, shapeX, shapeY, shapeZ, scaled, Option.some.injEq,
      reduceCtorEq] at hx <;>
    subst hx <;> simp only [Shape.Valid] <;> norm_num <;>
    first
    | linarith
    | (constructor <;> linarith)
    | (refine ⟨?_, ?_, ?_⟩ <;> linarith)

/-- **Finding.** The neck of a rag doll of capsules shorter than 1.2 metres has a negative
length. -/
theorem short_neck (s : SimpleDef) (hs : s.height < 1.2) (hk : s.kind = .capsule) :
    ∃ r l, shape (fromSimple s) .neck = some (.capsule r l .y) ∧ l < 0 := by
  obtain ⟨pos, orn, height, weight, kind⟩ := s
  simp only at hs hk
  subst hk
  norm_num at hs
  refine ⟨_, _, rfl, ?_⟩
  simp only [fromSimple, scaled]
  norm_num
  linarith

/-! ## Findings -/

/-- The default definition, `ragdoll.hpp` 15-24. -/
noncomputable def defaultDef : Def :=
  fromSimple ⟨0, 1, 1.7, 72, .capsule⟩

/-- **Finding.** The right hand of the default rag doll starts one centimetre away from its
joint, although the left one does not. -/
theorem right_hand_apart :
    anchorA defaultDef (.wrist .left) = anchorB defaultDef (.wrist .left) ∧
    anchorA defaultDef (.wrist .right) - anchorB defaultDef (.wrist .right) = ⟨0, 0.01, 0⟩ := by
  have h : defaultDef.orientation.lengthSqr = 1 := by
    simp [defaultDef, fromSimple, Quat.lengthSqr]
  refine ⟨assembled_partial _ h _ (by decide), ?_⟩
  rw [(gaps_exact _ h).2.2.2.2]
  show rotate (1 : Quat ℝ) _ = _
  rw [rotate_one]
  ext <;> simp [defaultDef, fromSimple, scaled] <;> norm_num

/-- The hypotheses hold of the default rag doll and of one lying on its back; their shapes are
valid. -/
example : (∀ p x, shape defaultDef p = some x → x.Valid) ∧
    anchorA defaultDef (.knee .left) = anchorB defaultDef (.knee .left) :=
  ⟨fun p x hx => shapes_valid_partial _ (by norm_num) p x hx,
    assembled_partial _ (by simp [defaultDef, fromSimple, Quat.lengthSqr]) _ (by decide)⟩

example : (fromSimple ⟨⟨1, 2, 3⟩, ⟨0.6, 0, 0, 0.8⟩, 1.8, 80, .box⟩).orientation.lengthSqr = 1 := by
  simp [fromSimple, Quat.lengthSqr]; norm_num

/-- **C99 is false of the code.** -/
theorem AssembledFull_false : ¬ AssembledFull := by
  intro h
  have e := h defaultDef (by simp [defaultDef, fromSimple, Quat.lengthSqr]) (.wrist .right)
  have g := right_hand_apart.2
  rw [e] at g
  have := congrArg V3.y g
  norm_num at this

end Edyn.Ragdoll
