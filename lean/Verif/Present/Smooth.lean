import Verif.Present.Model
import Mathlib.Analysis.SpecificLimits.Basic
import Mathlib.Analysis.SpecialFunctions.Trigonometric.Bounds

/-!
# Corrections do not show as jumps (C83)
-/

namespace Edyn.Present

open Edyn.Math

/-! ## Quaternions -/

theorem qmul_assoc (a b c : Quat ℝ) : a * b * c = a * (b * c) := by ext <;> simp <;> ring
theorem qone_mul (a : Quat ℝ) : 1 * a = a := by ext <;> simp
theorem qmul_one (a : Quat ℝ) : a * 1 = a := by ext <;> simp
theorem one_unit : (1 : Quat ℝ).lengthSqr = 1 := by simp [Quat.lengthSqr]

theorem mul_unit {a b : Quat ℝ} (ha : a.lengthSqr = 1) (hb : b.lengthSqr = 1) : (a * b).lengthSqr = 1 := by
  rw [lengthSqr_mul, ha, hb, one_mul]

theorem jump_unit {a b : Quat ℝ} (ha : a.lengthSqr = 1) (hb : b.lengthSqr = 1) : (a * b.conjugate).lengthSqr = 1 :=
  mul_unit ha (by rw [lengthSqr_conjugate]; exact hb)

theorem integrate_zero {q : Quat ℝ} (hq : q.lengthSqr = 1) (w : V3 ℝ) : q.integrate w 0 = q := by
  have : ∀ t : ℝ, t = 0 → (⟨w.x * t, w.y * t, w.z * t, Real.cos (1 / 2 * Real.sqrt (V3.lengthSqr w) * 0)⟩ : Quat ℝ) = 1 := by
    rintro t rfl
    ext <;> simp
  unfold Quat.integrate
  simp only
  rw [this _ (by split_ifs <;> simp), qone_mul, normalize_unit q hq]

/-! ## Specification -/

/-- The orientations of the body and its offsets are normalized. -/
structure Normal (b : Body) : Prop where
  orn : b.st.pose.orn.lengthSqr = 1
  dis : b.dis.orn.lengthSqr = 1
  acc : b.acc.orn.lengthSqr = 1

/-- The state of the body after a message which may contain a new one. -/
def after (new : Option State) (s : State) : State := new.getD s

/-- How far apart two points are. -/
noncomputable def distance (p q : V3 ℝ) : ℝ := Real.sqrt (V3.lengthSqr (p - q))

/-- A rotation by at most 1.62 degrees. -/
def Slight (q : Quat ℝ) : Prop := q.lengthSqr = 1 ∧ 9999 / 10000 ≤ |q.w|

/-- The full statement: when a new state is applied to a body the next presentation, if no time passes, shows
the body where it would have been shown, up to a centimetre on either side and the motion within a step. -/
def NoJumpFull : Prop := ∀ (eps rate idt : ℝ) (new : Option State) (wake : Bool) (b : Body),
  0 < eps → eps ≤ 1 / 10000 → Normal b → (after new b.st).pose.orn.lengthSqr = 1 → b.procedural = true →
  b.shown = (present eps rate 0 idt b).shown →
  distance (present eps rate 0 idt (correct new wake b)).shown.pos (present eps rate 0 idt b).shown.pos ≤
    |idt| * distance (after new b.st).vel b.st.vel + 2 / 100

/-! ## Lengths -/

theorem distance_eq (p q : V3 ℝ) : distance p q ^ 2 = V3.lengthSqr (p - q) :=
  Real.sq_sqrt (lengthSqr_nonneg _)

theorem sqrt_length_add (u v : V3 ℝ) : Real.sqrt (V3.lengthSqr (u + v)) ≤ Real.sqrt (V3.lengthSqr u) + Real.sqrt (V3.lengthSqr v) := by
  apply Real.sqrt_le_iff.2
  refine ⟨by positivity, ?_⟩
  have hu := Real.mul_self_sqrt (lengthSqr_nonneg u)
  have hv := Real.mul_self_sqrt (lengthSqr_nonneg v)
  have hc : V3.dot u v ≤ Real.sqrt (V3.lengthSqr u) * Real.sqrt (V3.lengthSqr v) := by
    apply le_of_sq_le_sq _ (by positivity)
    rw [mul_pow, sq (Real.sqrt _), sq (Real.sqrt _), hu, hv]
    simp only [V3.lengthSqr, V3.dot]
    nlinarith [mul_self_nonneg (u.x * v.y - u.y * v.x), mul_self_nonneg (u.x * v.z - u.z * v.x),
      mul_self_nonneg (u.y * v.z - u.z * v.y)]
  have e : V3.lengthSqr (u + v) = V3.lengthSqr u + 2 * V3.dot u v + V3.lengthSqr v := by
    simp only [V3.lengthSqr, V3.dot, V3.add_x, V3.add_y, V3.add_z]; ring
  rw [e]
  nlinarith

theorem length_smul (s : ℝ) (v : V3 ℝ) : V3.lengthSqr (V3.smul s v) = s ^ 2 * V3.lengthSqr v := by
  simp only [V3.lengthSqr, V3.dot, V3.smul_x, V3.smul_y, V3.smul_z]; ring

theorem sqrt_length_smul (s : ℝ) (v : V3 ℝ) : Real.sqrt (V3.lengthSqr (V3.smul s v)) = |s| * Real.sqrt (V3.lengthSqr v) := by
  rw [length_smul, Real.sqrt_mul (sq_nonneg s), Real.sqrt_sq_eq_abs]

theorem sqrt_length_neg (v : V3 ℝ) : V3.lengthSqr (-v) = V3.lengthSqr v := by
  simp [V3.lengthSqr, V3.dot]

/-! ## Decay -/

theorem decayPos_zero_dt (o : V3 ℝ) : Real.sqrt (V3.lengthSqr (decayPos 0 o - o)) ≤ 1 / 100 := by
  unfold decayPos
  split_ifs with h
  · have : o - V3.smul (min 0 1) o - o = 0 := by ext <;> simp
    rw [this]; simp [V3.lengthSqr, V3.dot]
  · have : (0 : V3 ℝ) - o = -o := by ext <;> simp
    rw [this, sqrt_length_neg]
    apply Real.sqrt_le_iff.2
    exact ⟨by norm_num, by linarith [not_lt.1 h]⟩

theorem slerp_zero (eps : ℝ) (he : 0 < eps) (q : Quat ℝ) (hq : q.lengthSqr = 1) : slerp eps q 1 0 = q :=
  (slerp_spec eps he q 1 hq one_unit).2.1

theorem decayOrn_unit (eps s : ℝ) (he : 0 < eps) (q : Quat ℝ) (hq : q.lengthSqr = 1) :
    (decayOrn eps s q).lengthSqr = 1 := by
  unfold decayOrn
  split_ifs
  · exact (slerp_spec eps he q 1 hq one_unit).1 _
  · exact one_unit

/-- The part of an orientation offset dropped when no time passes. -/
theorem decayOrn_zero_dt (eps : ℝ) (he : 0 < eps) (q : Quat ℝ) (hq : q.lengthSqr = 1) :
    ∃ e, Slight e ∧ q = e * decayOrn eps 0 q := by
  unfold decayOrn
  split_ifs with h
  · refine ⟨1, ⟨one_unit, by norm_num⟩, ?_⟩
    rw [min_eq_left (by norm_num), slerp_zero eps he q hq, qone_mul]
  · exact ⟨q, ⟨hq, not_lt.1 h⟩, by rw [qmul_one]⟩

/-! ## One correction -/

theorem correct_awake (new : Option State) (wake : Bool) (b : Body) (h : b.awake = true) :
    correct new wake b =
      { b with st := after new b.st, prev := b.st.pose, acc := addJump b.acc b.st.pose (after new b.st).pose } := by
  simp only [Body.awake, Bool.and_eq_true, Bool.not_eq_true'] at h
  cases new <;> cases wake <;> simp [correct, accumulate, replace, assignPrevious, after, h.1, h.2]

/-- A correction keeps the sum of the position and its offsets, and the product of the offsets and the
orientation. -/
theorem correct_total (new : Option State) (wake : Bool) (b : Body) (h : b.awake = true) (hb : Normal b)
    (hn : (after new b.st).pose.orn.lengthSqr = 1) :
    (correct new wake b).st.pose.pos + ((correct new wake b).dis.pos + (correct new wake b).acc.pos) =
      b.st.pose.pos + (b.dis.pos + b.acc.pos) ∧
    (correct new wake b).dis.orn * (correct new wake b).acc.orn * (correct new wake b).st.pose.orn =
      b.dis.orn * b.acc.orn * b.st.pose.orn ∧
    Normal (correct new wake b) := by
  rw [correct_awake new wake b h]
  refine ⟨?_, ?_, hn, hb.dis, ?_⟩
  · ext <;> simp [addJump] <;> ring
  · simp only [addJump]
    rw [qmul_assoc, qmul_assoc, qmul_assoc, (mul_conjugate _ hn).2, qmul_one, qmul_assoc]
  · simp only [addJump]
    exact mul_unit hb.acc (jump_unit hb.orn hn)

theorem present_shown (eps rate dt idt : ℝ) (b : Body) (h : b.awake = true) (hp : b.procedural = true) (hb : Normal b) :
    (present eps rate dt idt b).shown = ⟨b.st.pose.pos + V3.smul idt b.st.vel + decayPos (rate * dt) (b.dis.pos + b.acc.pos),
      decayOrn eps (rate * dt) (b.dis.orn * b.acc.orn) * Quat.integrate b.st.pose.orn b.st.ang idt⟩ := by
  simp only [Body.awake, Bool.and_eq_true, Bool.not_eq_true'] at h
  simp [present, addOffset, interpolate, updateDis, transfer, h.1, h.2, hp, Body.awake,
    normalize_unit _ (mul_unit hb.dis hb.acc)]

/-- **C83, a correction does not show as a jump, partial.** When a state from the server or from extrapolation is
applied to a body that is awake, the next presentation, if no time passes, shows it where it would have been
shown otherwise: the positions differ by less than two centimetres, besides the difference in the motion
within the step, and at the end of a step the orientations differ by two slight rotations.  Missing: bodies
asleep (`no_jump_refuted`). -/
theorem no_jump_partial (eps rate idt : ℝ) (new : Option State) (wake : Bool) (b : Body)
    (he : 0 < eps) (hb : Normal b) (hn : (after new b.st).pose.orn.lengthSqr = 1)
    (hp : b.procedural = true) (ha : b.awake = true) :
    distance (present eps rate 0 idt (correct new wake b)).shown.pos (present eps rate 0 idt b).shown.pos ≤
      |idt| * distance (after new b.st).vel b.st.vel + 2 / 100 ∧
    ∃ e e', Slight e ∧ Slight e' ∧
      e' * (present eps rate 0 0 (correct new wake b)).shown.orn = e * (present eps rate 0 0 b).shown.orn := by
  obtain ⟨t1, t2, hc⟩ := correct_total new wake b ha hb hn
  have hca : (correct new wake b).awake = true := by rw [correct_awake new wake b ha]; exact ha
  have hcp : (correct new wake b).procedural = true := by rw [correct_awake new wake b ha]; exact hp
  have hv : (correct new wake b).st = after new b.st := by rw [correct_awake new wake b ha]
  rw [present_shown eps rate 0 idt _ hca hcp hc, present_shown eps rate 0 idt b ha hp hb,
    present_shown eps rate 0 0 _ hca hcp hc, present_shown eps rate 0 0 b ha hp hb]
  simp only [mul_zero]
  constructor
  · have d1 := decayPos_zero_dt ((correct new wake b).dis.pos + (correct new wake b).acc.pos)
    have d2 := decayPos_zero_dt (b.dis.pos + b.acc.pos)
    rw [hv] at t1 ⊢
    generalize (correct new wake b).dis.pos + (correct new wake b).acc.pos = o' at t1 d1
    generalize b.dis.pos + b.acc.pos = o at t1 d2
    have e : (after new b.st).pose.pos + V3.smul idt (after new b.st).vel + decayPos 0 o' -
        (b.st.pose.pos + V3.smul idt b.st.vel + decayPos 0 o) =
        V3.smul idt ((after new b.st).vel - b.st.vel) + ((decayPos 0 o' - o') + -(decayPos 0 o - o)) := by
      have := V3.ext_iff.1 t1
      simp only [V3.add_x, V3.add_y, V3.add_z] at this
      ext
      · simp; linarith [this.1]
      · simp; linarith [this.2.1]
      · simp; linarith [this.2.2]
    unfold distance
    rw [e]
    refine (sqrt_length_add _ _).trans ?_
    rw [sqrt_length_smul]
    have := sqrt_length_add (decayPos 0 o' - o') (-(decayPos 0 o - o))
    rw [sqrt_length_neg] at this
    linarith
  · obtain ⟨e, h1, h2⟩ := decayOrn_zero_dt eps he _ (mul_unit hb.dis hb.acc)
    obtain ⟨e', h1', h2'⟩ := decayOrn_zero_dt eps he _ (mul_unit hc.dis hc.acc)
    refine ⟨e, e', h1, h1', ?_⟩
    rw [integrate_zero hc.orn, integrate_zero hb.orn, ← qmul_assoc, ← qmul_assoc, ← h2, ← h2', t2]

/-! ## The offset decays -/

/-- Half the angle of the rotation of an offset. -/
noncomputable def halfAngle (q : Quat ℝ) : ℝ := Real.arccos |q.w|

theorem halfAngle_bounds (q : Quat ℝ) : 0 ≤ halfAngle q ∧ halfAngle q ≤ Real.pi / 2 :=
  ⟨Real.arccos_nonneg _, Real.arccos_le_pi_div_two.2 (abs_nonneg _)⟩

theorem w_le_one {q : Quat ℝ} (hq : q.lengthSqr = 1) : |q.w| ≤ 1 := by
  rw [abs_le]
  simp only [Quat.lengthSqr] at hq
  constructor <;> nlinarith [mul_self_nonneg q.x, mul_self_nonneg q.y, mul_self_nonneg q.z, mul_self_nonneg (q.w - 1), mul_self_nonneg (q.w + 1)]

theorem slerp_identity_w (eps : ℝ) (q : Quat ℝ) (hq : q.lengthSqr = 1) (hc : |q.w| ≤ 1 - eps) (he : 0 < eps) (s : ℝ) :
    |(slerp eps q 1 s).w| = |Real.cos ((1 - s) * halfAngle q)| := by
  have hm : Real.sqrt (q.lengthSqr * (1 : Quat ℝ).lengthSqr) = 1 := by rw [hq, one_unit]; simp
  simp only [slerp, hm, div_one, Quat.one_x, Quat.one_y, Quat.one_z, Quat.one_w, mul_zero, zero_mul, mul_one, one_mul,
    zero_add, add_zero, gt_iff_lt, if_neg (not_lt.2 hc)]
  have hlt : |q.w| < 1 := by linarith
  have hcos : Real.cos (halfAngle q) = |q.w| := Real.cos_arccos (by linarith [abs_nonneg q.w]) hlt.le
  have hsin : 0 < Real.sin (halfAngle q) := Real.sin_pos_of_pos_of_lt_pi (Real.arccos_pos.2 hlt)
    (by linarith [(halfAngle_bounds q).2, Real.pi_pos])
  change |q.w * (Real.sin ((1 - s) * halfAngle q) / Real.sin (halfAngle q)) +
    Real.sin ((if q.w < 0 then (-1 : ℝ) else 1) * s * halfAngle q) / Real.sin (halfAngle q)| = _
  generalize halfAngle q = θ at hcos hsin ⊢
  have hk : Real.sin (s * θ) = Real.sin θ * Real.cos ((1 - s) * θ) - Real.cos θ * Real.sin ((1 - s) * θ) := by
    rw [← Real.sin_sub]; congr 1; ring
  by_cases h : q.w < 0
  · have hw : q.w = -Real.cos θ := by rw [hcos, abs_of_neg h]; ring
    rw [if_pos h, show -1 * s * θ = -(s * θ) by ring, Real.sin_neg, hk, hw]
    have : -Real.cos θ * (Real.sin ((1 - s) * θ) / Real.sin θ) +
        -(Real.sin θ * Real.cos ((1 - s) * θ) - Real.cos θ * Real.sin ((1 - s) * θ)) / Real.sin θ = -Real.cos ((1 - s) * θ) := by
      field_simp; ring
    rw [this, abs_neg]
  · have hw : q.w = Real.cos θ := by rw [hcos, abs_of_nonneg (not_lt.1 h)]
    rw [if_neg h, one_mul, hk, hw]
    have : Real.cos θ * (Real.sin ((1 - s) * θ) / Real.sin θ) +
        (Real.sin θ * Real.cos ((1 - s) * θ) - Real.cos θ * Real.sin ((1 - s) * θ)) / Real.sin θ = Real.cos ((1 - s) * θ) := by
      field_simp; ring
    rw [this]

theorem halfAngle_one : halfAngle 1 = 0 := by simp [halfAngle]

/-- How an orientation offset decays. -/
theorem decayOrn_angle (eps s : ℝ) (he : 0 < eps) (he' : eps ≤ 1 / 10000) (hs : 0 ≤ s) (q : Quat ℝ) (hq : q.lengthSqr = 1) :
    halfAngle (decayOrn eps s q) ≤ (1 - min s 1) * halfAngle q := by
  have hb := halfAngle_bounds q
  have h1 : 0 ≤ 1 - min s 1 := by linarith [min_le_right s 1]
  have h2 : 1 - min s 1 ≤ 1 := by linarith [le_min hs zero_le_one]
  unfold decayOrn
  split_ifs with h
  · have hc := slerp_identity_w eps q hq (by linarith) he (min s 1)
    have hx : 0 ≤ (1 - min s 1) * halfAngle q := mul_nonneg h1 hb.1
    have hy : (1 - min s 1) * halfAngle q ≤ Real.pi / 2 := by nlinarith
    have e : halfAngle (slerp eps q 1 (min s 1)) = Real.arccos |Real.cos ((1 - min s 1) * halfAngle q)| := by
      rw [← hc]; rfl
    rw [e, abs_of_nonneg (Real.cos_nonneg_of_neg_pi_div_two_le_of_le (by linarith [Real.pi_pos]) hy),
      Real.arccos_cos hx (by linarith [Real.pi_pos])]
  · rw [halfAngle_one]; exact mul_nonneg h1 hb.1

/-- How a position offset decays. -/
theorem decayPos_length (s : ℝ) (o : V3 ℝ) : V3.lengthSqr (decayPos s o) ≤ (1 - min s 1) ^ 2 * V3.lengthSqr o := by
  unfold decayPos
  split_ifs
  · have : o - V3.smul (min s 1) o = V3.smul (1 - min s 1) o := by ext <;> simp <;> ring
    rw [this, length_smul]
  · have : V3.lengthSqr (0 : V3 ℝ) = 0 := by simp [V3.lengthSqr, V3.dot]
    rw [this]
    exact mul_nonneg (sq_nonneg _) (lengthSqr_nonneg _)

/-- **C83, offsets never grow.** Each presentation of a body leaves it with offsets no larger than those it had
together with what was accumulated since, for every decay rate and time that are not negative. -/
theorem offset_shrinks (eps rate dt idt : ℝ) (he : 0 < eps) (he' : eps ≤ 1 / 10000) (hr : 0 ≤ rate * dt) (b : Body)
    (hb : Normal b) :
    V3.lengthSqr (present eps rate dt idt b).dis.pos ≤ V3.lengthSqr (b.dis.pos + b.acc.pos) ∧
    halfAngle (present eps rate dt idt b).dis.orn ≤ halfAngle (b.dis.orn * b.acc.orn) ∧
    (present eps rate dt idt b).acc = .none ∧ Normal (present eps rate dt idt b) := by
  have h1 : 0 ≤ 1 - min (rate * dt) 1 := by linarith [min_le_right (rate * dt) 1]
  have h2 : 1 - min (rate * dt) 1 ≤ 1 := by linarith [le_min hr zero_le_one]
  have hu := mul_unit hb.dis hb.acc
  have hz : V3.lengthSqr (0 : V3 ℝ) = 0 := by simp [V3.lengthSqr, V3.dot]
  have hd : (present eps rate dt idt b).dis = if b.sleeping then .none else
      ⟨decayPos (rate * dt) (b.dis.pos + b.acc.pos), decayOrn eps (rate * dt) (b.dis.orn * b.acc.orn)⟩ := by
    obtain ⟨st, prev, dis, acc, shown, p, s, d⟩ := b
    cases p <;> cases s <;> cases d <;>
      simp_all [present, addOffset, interpolate, updateDis, transfer, Body.awake, normalize_unit]
  have hst : (present eps rate dt idt b).st = b.st := by
    obtain ⟨st, prev, dis, acc, shown, p, s, d⟩ := b
    cases p <;> cases s <;> cases d <;> simp [present, addOffset, interpolate, updateDis, transfer, Body.awake]
  have ha : (present eps rate dt idt b).acc = .none := by
    obtain ⟨st, prev, dis, acc, shown, p, s, d⟩ := b
    cases p <;> cases s <;> cases d <;> simp [present, addOffset, interpolate, updateDis, transfer, Body.awake]
  refine ⟨?_, ?_, ha, by rw [hst]; exact hb.orn, ?_, by rw [ha]; exact one_unit⟩
  · rw [hd]
    split_ifs
    · simp only [Pose.none]; rw [hz]; exact lengthSqr_nonneg _
    · refine (decayPos_length _ _).trans ?_
      exact mul_le_of_le_one_left (lengthSqr_nonneg _) (by nlinarith)
  · rw [hd]
    split_ifs
    · simp only [Pose.none]; rw [halfAngle_one]; exact (halfAngle_bounds _).1
    · refine (decayOrn_angle eps _ he he' hr _ hu).trans ?_
      nlinarith [(halfAngle_bounds (b.dis.orn * b.acc.orn)).1]
  · rw [hd]
    split_ifs
    · exact one_unit
    · exact decayOrn_unit eps _ he _ hu

/-- Presentations of a body whose simulated state changes in between: for each the time passed, the
interpolation interval and the state. -/
noncomputable def frames (eps rate : ℝ) (fs : List (ℝ × ℝ × State)) (b : Body) : Body :=
  fs.foldl (fun b f => present eps rate f.1 f.2.1 { b with st := f.2.2 }) b

theorem frame_dis (eps rate dt idt : ℝ) (b : Body) (hb : Normal b) (hs : b.sleeping = false) :
    (present eps rate dt idt b).dis =
      ⟨decayPos (rate * dt) (b.dis.pos + b.acc.pos), decayOrn eps (rate * dt) (b.dis.orn * b.acc.orn)⟩ ∧
    (present eps rate dt idt b).acc = .none ∧ (present eps rate dt idt b).sleeping = false ∧
    (present eps rate dt idt b).disabled = b.disabled ∧ (present eps rate dt idt b).procedural = b.procedural := by
  have hu := mul_unit hb.dis hb.acc
  obtain ⟨st, prev, dis, acc, shown, p, s, d⟩ := b
  cases p <;> cases s <;> cases d <;>
    simp_all [present, addOffset, interpolate, updateDis, transfer, Body.awake, normalize_unit]

theorem frames_bound (eps rate δ : ℝ) (he : 0 < eps) (he' : eps ≤ 1 / 10000) (h0 : 0 < δ) (h1 : δ ≤ 1) :
    ∀ (fs : List (ℝ × ℝ × State)) (b : Body), (∀ f ∈ fs, δ ≤ rate * f.1 ∧ f.2.2.pose.orn.lengthSqr = 1) → Normal b →
      b.sleeping = false →
      V3.lengthSqr ((frames eps rate fs b).dis.pos + (frames eps rate fs b).acc.pos) ≤
        ((1 - δ) ^ 2) ^ fs.length * V3.lengthSqr (b.dis.pos + b.acc.pos) ∧
      halfAngle ((frames eps rate fs b).dis.orn * (frames eps rate fs b).acc.orn) ≤
        (1 - δ) ^ fs.length * halfAngle (b.dis.orn * b.acc.orn) ∧
      Normal (frames eps rate fs b) ∧ (frames eps rate fs b).sleeping = false ∧
      (frames eps rate fs b).disabled = b.disabled ∧ (frames eps rate fs b).procedural = b.procedural := by
  intro fs
  induction fs using List.reverseRecOn with
  | nil => intro b _ hb hs; simp [frames, hb, hs]
  | append_singleton fs f ih =>
    intro b hf hb hs
    obtain ⟨i1, i2, i3, i4, i5, i6⟩ := ih b (fun g hg => hf g (by simp [hg])) hb hs
    obtain ⟨hδ, hu⟩ := hf f (by simp)
    have e : frames eps rate (fs ++ [f]) b = present eps rate f.1 f.2.1 { frames eps rate fs b with st := f.2.2 } := by
      simp [frames, List.foldl_append]
    have hn : Normal { frames eps rate fs b with st := f.2.2 } := ⟨hu, i3.dis, i3.acc⟩
    obtain ⟨j1, j2, j3, j4, j5⟩ := frame_dis eps rate f.1 f.2.1 _ hn i4
    have hN := (offset_shrinks eps rate f.1 f.2.1 he he' (by linarith) _ hn).2.2.2
    rw [e]
    have hm : δ ≤ min (rate * f.1) 1 := le_min hδ h1
    have hm' : min (rate * f.1) 1 ≤ 1 := min_le_right _ _
    have hle : (1 - min (rate * f.1) 1) ^ 2 ≤ (1 - δ) ^ 2 := by nlinarith
    refine ⟨?_, ?_, hN, j3, by rw [j4]; exact i5, by rw [j5]; exact i6⟩
    · rw [j2, j1]
      simp only [Pose.none]
      have : ∀ v : V3 ℝ, v + 0 = v := by intro v; ext <;> simp
      rw [this]
      refine (decayPos_length _ _).trans ?_
      rw [List.length_append, List.length_singleton, pow_succ' ((1 - δ) ^ 2)]
      have hnn := lengthSqr_nonneg ((frames eps rate fs b).dis.pos + (frames eps rate fs b).acc.pos)
      calc _ ≤ (1 - δ) ^ 2 * V3.lengthSqr ((frames eps rate fs b).dis.pos + (frames eps rate fs b).acc.pos) :=
            mul_le_mul_of_nonneg_right hle hnn
        _ ≤ _ := (mul_le_mul_of_nonneg_left i1 (sq_nonneg _)).trans (le_of_eq (mul_assoc _ _ _).symm)
    · rw [j2, j1]
      simp only [Pose.none]
      rw [qmul_one]
      refine (decayOrn_angle eps _ he he' (by linarith) _ (mul_unit i3.dis i3.acc)).trans ?_
      rw [List.length_append, List.length_singleton, pow_succ']
      have hnn := (halfAngle_bounds ((frames eps rate fs b).dis.orn * (frames eps rate fs b).acc.orn)).1
      calc _ ≤ (1 - δ) * halfAngle ((frames eps rate fs b).dis.orn * (frames eps rate fs b).acc.orn) :=
            mul_le_mul_of_nonneg_right (by linarith) hnn
        _ ≤ _ := (mul_le_mul_of_nonneg_left i2 (by linarith)).trans (le_of_eq (mul_assoc _ _ _).symm)

/-- **C83, offsets vanish.** If no further corrections arrive and each update takes at least some time, then after
finitely many presentations no offset is left: the body is shown where the simulation has it, however it moved
in the meantime. -/
theorem offset_vanishes (eps rate δ : ℝ) (he : 0 < eps) (he' : eps ≤ 1 / 10000) (h0 : 0 < δ) (b : Body) (hb : Normal b)
    (hs : b.awake = true) (hp : b.procedural = true) :
    ∃ N, ∀ (fs : List (ℝ × ℝ × State)) (f : ℝ × ℝ × State), N ≤ fs.length →
      (∀ g ∈ fs ++ [f], δ ≤ rate * g.1 ∧ g.2.2.pose.orn.lengthSqr = 1) →
      (frames eps rate (fs ++ [f]) b).dis = .none ∧ (frames eps rate (fs ++ [f]) b).acc = .none ∧
      (frames eps rate (fs ++ [f]) b).shown =
        ⟨f.2.2.pose.pos + V3.smul f.2.1 f.2.2.vel, Quat.integrate f.2.2.pose.orn f.2.2.ang f.2.1⟩ := by
  simp only [Body.awake, Bool.and_eq_true, Bool.not_eq_true'] at hs
  set d := min δ 1 with hd
  have d0 : 0 < d := lt_min h0 one_pos
  have d1 : d ≤ 1 := min_le_right _ _
  have dδ : d ≤ δ := min_le_left _ _
  have lim1 : Filter.Tendsto (fun n : ℕ => ((1 - d) ^ 2) ^ n * V3.lengthSqr (b.dis.pos + b.acc.pos)) Filter.atTop (nhds 0) := by
    have := (tendsto_pow_atTop_nhds_zero_of_lt_one (sq_nonneg (1 - d)) (by nlinarith : (1 - d) ^ 2 < 1)).mul_const
      (V3.lengthSqr (b.dis.pos + b.acc.pos))
    simpa using this
  have lim2 : Filter.Tendsto (fun n : ℕ => (1 - d) ^ n * halfAngle (b.dis.orn * b.acc.orn)) Filter.atTop (nhds 0) := by
    have := (tendsto_pow_atTop_nhds_zero_of_lt_one (by linarith : 0 ≤ 1 - d) (by linarith : 1 - d < 1)).mul_const
      (halfAngle (b.dis.orn * b.acc.orn))
    simpa using this
  obtain ⟨N, hN⟩ := Filter.eventually_atTop.1 ((lim1.eventually_lt_const (by norm_num : (0 : ℝ) < 1 / 10000)).and
    (lim2.eventually_lt_const (by norm_num : (0 : ℝ) < 1 / 100)))
  refine ⟨N, fun fs f hl hf => ?_⟩
  obtain ⟨hN1, hN2⟩ := hN _ hl
  obtain ⟨i1, i2, i3, i4, i5, i6⟩ := frames_bound eps rate d he he' d0 d1 fs b
    (fun g hg => ⟨dδ.trans (hf g (by simp [hg])).1, (hf g (by simp [hg])).2⟩) hb hs.1
  obtain ⟨hδ, hu⟩ := hf f (by simp)
  have e : frames eps rate (fs ++ [f]) b = present eps rate f.1 f.2.1 { frames eps rate fs b with st := f.2.2 } := by
    simp [frames, List.foldl_append]
  have hn : Normal { frames eps rate fs b with st := f.2.2 } := ⟨hu, i3.dis, i3.acc⟩
  obtain ⟨j1, j2, j3, j4, j5⟩ := frame_dis eps rate f.1 f.2.1 _ hn i4
  have hU := mul_unit i3.dis i3.acc
  have z1 : decayPos (rate * f.1) ((frames eps rate fs b).dis.pos + (frames eps rate fs b).acc.pos) = 0 := by
    unfold decayPos
    rw [if_neg (by linarith)]
  have z2 : decayOrn eps (rate * f.1) ((frames eps rate fs b).dis.orn * (frames eps rate fs b).acc.orn) = 1 := by
    unfold decayOrn
    rw [if_neg]
    set q := (frames eps rate fs b).dis.orn * (frames eps rate fs b).acc.orn
    have hc : Real.cos (halfAngle q) = |q.w| := Real.cos_arccos (by linarith [abs_nonneg q.w]) (w_le_one hU)
    have := Real.one_sub_sq_div_two_le_cos (x := halfAngle q)
    rw [← hc]
    have := (halfAngle_bounds q).1
    nlinarith
  refine ⟨by rw [e, j1]; simp only [z1, z2]; rfl, by rw [e, j2], ?_⟩
  have ha : ({ frames eps rate fs b with st := f.2.2 } : Body).awake = true := by
    simp [Body.awake, i4, i5, hs.2]
  rw [e, present_shown eps rate f.1 f.2.1 _ ha (by rw [← hp]; exact i6) hn]
  simp only [z1, z2]
  rw [qone_mul]
  congr 1
  ext <;> simp

end Edyn.Present
