import Verif.Mass.Capsule

/-!
# Compounds and the parallel axis theorem (C76, C78)

`moment_of_inertia(compound_shape)` and `shift_moment_of_inertia`, `src/edyn/dynamics/moment_of_inertia.cpp`, and
`shape_volume(compound_shape)`, `src/edyn/math/shape_volume.cpp`.
-/

namespace Edyn.Mass

open Edyn.Math V3 Edyn.Geom MeasureTheory

/-! ## Model -/

/-- `operator+` of matrices, `include/edyn/math/matrix3x3.hpp` 48-50. -/
def plus (a b : M3 ℝ) : M3 ℝ :=
  ⟨⟨a.r0.x + b.r0.x, a.r0.y + b.r0.y, a.r0.z + b.r0.z⟩, ⟨a.r1.x + b.r1.x, a.r1.y + b.r1.y, a.r1.z + b.r1.z⟩,
   ⟨a.r2.x + b.r2.x, a.r2.y + b.r2.y, a.r2.z + b.r2.z⟩⟩

/-- `shift_moment_of_inertia`, `moment_of_inertia.cpp` 217-220. -/
noncomputable def shiftInertia (inertia : M3 ℝ) (mass : ℝ) (offset : V3 ℝ) : M3 ℝ :=
  let d := M3.skew offset
  plus inertia ((d.transpose * d).scale mass)

/-- A node of a compound: the volume and the moment of inertia of its shape, as `shape_volume` and `moment_of_inertia`
give them, its position and its orientation, `include/edyn/shapes/compound_shape.hpp` 30-35. -/
structure Node where
  volume : ℝ
  inertia : ℝ → M3 ℝ
  position : V3 ℝ
  orientation : Quat ℝ

/-- `shape_volume(compound_shape)`, `shape_volume.cpp` 64-74. -/
def compoundVolume (nodes : List Node) : ℝ := nodes.foldl (fun v n => v + n.volume) 0

/-- `moment_of_inertia(compound_shape)`, `moment_of_inertia.cpp` 187-203. -/
noncomputable def compoundInertia (mass : ℝ) (nodes : List Node) : M3 ℝ :=
  let total := compoundVolume nodes
  nodes.foldl (fun i n =>
    let m := mass * (n.volume / total)
    let orn := M3.ofQuat n.orientation
    plus i (shiftInertia (orn * n.inertia m * orn.transpose) m n.position)) ⟨0, 0, 0⟩

/-- The node of one of the simple shapes. -/
noncomputable def Solid.node (s : Solid) (position : V3 ℝ) (orientation : Quat ℝ) : Node :=
  ⟨s.volume, s.inertia, position, orientation⟩

/-! ## Moved bodies -/

/-- `o + a · p` times `u + b · p`. -/
def prodQuad (o u : ℝ) (a b : V3 ℝ) : Quad where
  one := o * u
  x := o * b.x + u * a.x
  y := o * b.y + u * a.y
  z := o * b.z + u * a.z
  xx := a.x * b.x
  yy := a.y * b.y
  zz := a.z * b.z
  yz := a.y * b.z + a.z * b.y
  zx := a.z * b.x + a.x * b.z
  xy := a.x * b.y + a.y * b.x

theorem prodQuad_eval (o u : ℝ) (a b p : V3 ℝ) : (prodQuad o u a b).eval p = (o + dot a p) * (u + dot b p) := by
  simp only [Quad.eval, prodQuad, dot]
  ring

theorem region_placed (S : Shape) (pos : V3 ℝ) (q : Quat ℝ) (hq : q.lengthSqr = 1) :
    region (Placed S pos q) = (fun p => ofV pos + lin (M3.ofQuat q) p) '' region S := by
  ext w
  simp only [region, Placed, Set.mem_setOf_eq, Set.mem_image]
  constructor
  · rintro ⟨p, hp, e⟩
    refine ⟨ofV p, hp, ?_⟩
    rw [lin_apply, toV_ofV, M3.ofQuat_rotate q hq, ← ofV_toV w, e]
    rfl
  · rintro ⟨p, hp, e⟩
    refine ⟨toV p, hp, ?_⟩
    rw [← e, lin_apply, M3.ofQuat_rotate q hq]
    rfl

theorem placed_integral {S : Shape} (hS : MeasurableSet (region S)) (pos : V3 ℝ) (q : Quat ℝ) (hq : q.lengthSqr = 1)
    (f : V3 ℝ → ℝ) :
    integralOver (Placed S pos q) f = integralOver S (fun p => f (pos + M3.mulVec (M3.ofQuat q) p)) := by
  rw [integralOver, region_placed S pos q hq, affine_image _ _ hS, M3.ofQuat_det q (by rw [hq]; norm_num), abs_one, one_mul]
  rfl

theorem placed_compact {S : Shape} (hS : IsCompact (region S)) (pos : V3 ℝ) (q : Quat ℝ) (hq : q.lengthSqr = 1) :
    IsCompact (region (Placed S pos q)) := by
  rw [region_placed S pos q hq]
  apply hS.image
  exact continuous_const.add (LinearMap.continuous_of_finiteDimensional _)

/-- The moment of inertia from the integrals of the monomials. -/
theorem inertia_monomials {S : Shape} (hS : IsCompact (region S)) (m : ℝ) :
    inertiaOf S m =
      let M := monomials S
      let d := m / M.one
      ⟨⟨d * (M.yy + M.zz), -(d * M.xy), -(d * M.zx)⟩, ⟨-(d * M.xy), d * (M.zz + M.xx), -(d * M.yz)⟩,
       ⟨-(d * M.zx), -(d * M.yz), d * (M.xx + M.yy)⟩⟩ := by
  have hi : ∀ f c, (∀ p, f p = Quad.eval c p) → integralOver S f = c.pair (monomials S) := by
    intro f c hf
    rw [show f = c.eval from funext hf]
    exact integral_quad hS c
  simp only [inertiaOf]
  rw [hi (fun p => p.y * p.y + p.z * p.z) ⟨0, 0, 0, 0, 0, 1, 1, 0, 0, 0⟩ (by intro p; simp [Quad.eval]),
      hi (fun p => p.z * p.z + p.x * p.x) ⟨0, 0, 0, 0, 1, 0, 1, 0, 0, 0⟩ (by intro p; simp [Quad.eval]; ring),
      hi (fun p => p.x * p.x + p.y * p.y) ⟨0, 0, 0, 0, 1, 1, 0, 0, 0, 0⟩ (by intro p; simp [Quad.eval]),
      hi (fun p => -(p.x * p.y)) ⟨0, 0, 0, 0, 0, 0, 0, 0, 0, -1⟩ (by intro p; simp [Quad.eval]),
      hi (fun p => -(p.x * p.z)) ⟨0, 0, 0, 0, 0, 0, 0, 0, -1, 0⟩ (by intro p; simp [Quad.eval]; ring),
      hi (fun p => -(p.y * p.x)) ⟨0, 0, 0, 0, 0, 0, 0, 0, 0, -1⟩ (by intro p; simp [Quad.eval]; ring),
      hi (fun p => -(p.y * p.z)) ⟨0, 0, 0, 0, 0, 0, 0, -1, 0, 0⟩ (by intro p; simp [Quad.eval]),
      hi (fun p => -(p.z * p.x)) ⟨0, 0, 0, 0, 0, 0, 0, 0, -1, 0⟩ (by intro p; simp [Quad.eval]),
      hi (fun p => -(p.z * p.y)) ⟨0, 0, 0, 0, 0, 0, 0, -1, 0, 0⟩ (by intro p; simp [Quad.eval]; ring)]
  simp only [Quad.pair]
  have e : volumeOf S = (monomials S).one := rfl
  rw [e]
  ext <;> simp only [] <;> ring

theorem centroid_zero {S : Shape} (hv : volumeOf S ≠ 0) (h : centroidOf S = 0) :
    (monomials S).x = 0 ∧ (monomials S).y = 0 ∧ (monomials S).z = 0 := by
  have k : (1 / volumeOf S) ≠ 0 := one_div_ne_zero hv
  rw [centroidOf, V3.ext_iff] at h
  obtain ⟨h1, h2, h3⟩ := h
  simp only [smul_x, smul_y, smul_z, zero_x, zero_y, zero_z, mul_eq_zero, k, false_or] at h1 h2 h3
  exact ⟨h1, h2, h3⟩

theorem mul_entries (R : M3 ℝ) (h : R * R.transpose = 1) (h' : R.transpose * R = 1) :
    (dot R.r0 R.r0 = 1 ∧ dot R.r1 R.r1 = 1 ∧ dot R.r2 R.r2 = 1 ∧ dot R.r0 R.r1 = 0 ∧ dot R.r0 R.r2 = 0 ∧ dot R.r1 R.r2 = 0) ∧
    (dot R.column0 R.column0 = 1 ∧ dot R.column1 R.column1 = 1 ∧ dot R.column2 R.column2 = 1 ∧
      dot R.column0 R.column1 = 0 ∧ dot R.column0 R.column2 = 0 ∧ dot R.column1 R.column2 = 0) := by
  rw [M3.mul_def, M3.one_def] at h h'
  simp only [M3.mk.injEq, V3.mk.injEq, M3.transpose, M3.column0, M3.column1, M3.column2] at h h'
  obtain ⟨⟨a1, a2, a3⟩, ⟨a4, a5, a6⟩, ⟨a7, a8, a9⟩⟩ := h
  obtain ⟨⟨b1, b2, b3⟩, ⟨b4, b5, b6⟩, ⟨b7, b8, b9⟩⟩ := h'
  exact ⟨⟨a1, a5, a9, a4, a7, a8⟩, ⟨b1, b5, b9, b4, b7, b8⟩⟩

/-- **C78**: the parallel axis theorem.  The moment of inertia of a body which is turned and moved, from the one about
its centre of mass. -/
theorem placed_mass {S : Shape} (hS : IsCompact (region S)) (hv : volumeOf S ≠ 0) (hc : centroidOf S = 0) (pos : V3 ℝ)
    (q : Quat ℝ) (hq : q.lengthSqr = 1) (m : ℝ) :
    volumeOf (Placed S pos q) = volumeOf S ∧
    inertiaOf (Placed S pos q) m =
      shiftInertia (M3.ofQuat q * inertiaOf S m * (M3.ofQuat q).transpose) m pos := by
  have hvol : volumeOf (Placed S pos q) = volumeOf S := placed_integral hS.measurableSet pos q hq _
  refine ⟨hvol, ?_⟩
  obtain ⟨m1, m2, m3⟩ := centroid_zero hv hc
  obtain ⟨⟨a1, a2, a3, a4, a5, a6⟩, ⟨b1, b2, b3, b4, b5, b6⟩⟩ := mul_entries (M3.ofQuat q)
    (M3.ofQuat_orthogonal q (by rw [hq]; norm_num)).2 (M3.ofQuat_orthogonal q (by rw [hq]; norm_num)).1
  have hp : ∀ (f : V3 ℝ → ℝ) (o u : ℝ) (a b : V3 ℝ),
      (∀ p, f (pos + M3.mulVec (M3.ofQuat q) p) = (o + dot a p) * (u + dot b p)) →
      integralOver (Placed S pos q) f = (prodQuad o u a b).pair (monomials S) := by
    intro f o u a b h
    rw [placed_integral hS.measurableSet pos q hq, ← integral_quad hS]
    congr 1
    funext p
    rw [h, prodQuad_eval]
  rw [inertia_monomials (placed_compact hS pos q hq), inertia_monomials hS]
  have e0 : (monomials (Placed S pos q)).one = (monomials S).one := hvol
  have exx : (monomials (Placed S pos q)).xx =
      (prodQuad pos.x pos.x (M3.ofQuat q).r0 (M3.ofQuat q).r0).pair (monomials S) :=
    hp (fun p => p.x * p.x) pos.x pos.x (M3.ofQuat q).r0 (M3.ofQuat q).r0 (fun p => rfl)
  have eyy : (monomials (Placed S pos q)).yy =
      (prodQuad pos.y pos.y (M3.ofQuat q).r1 (M3.ofQuat q).r1).pair (monomials S) :=
    hp (fun p => p.y * p.y) pos.y pos.y (M3.ofQuat q).r1 (M3.ofQuat q).r1 (fun p => rfl)
  have ezz : (monomials (Placed S pos q)).zz =
      (prodQuad pos.z pos.z (M3.ofQuat q).r2 (M3.ofQuat q).r2).pair (monomials S) :=
    hp (fun p => p.z * p.z) pos.z pos.z (M3.ofQuat q).r2 (M3.ofQuat q).r2 (fun p => rfl)
  have eyz : (monomials (Placed S pos q)).yz =
      (prodQuad pos.y pos.z (M3.ofQuat q).r1 (M3.ofQuat q).r2).pair (monomials S) :=
    hp (fun p => p.y * p.z) pos.y pos.z (M3.ofQuat q).r1 (M3.ofQuat q).r2 (fun p => rfl)
  have ezx : (monomials (Placed S pos q)).zx =
      (prodQuad pos.z pos.x (M3.ofQuat q).r2 (M3.ofQuat q).r0).pair (monomials S) :=
    hp (fun p => p.z * p.x) pos.z pos.x (M3.ofQuat q).r2 (M3.ofQuat q).r0 (fun p => rfl)
  have exy : (monomials (Placed S pos q)).xy =
      (prodQuad pos.x pos.y (M3.ofQuat q).r0 (M3.ofQuat q).r1).pair (monomials S) :=
    hp (fun p => p.x * p.y) pos.x pos.y (M3.ofQuat q).r0 (M3.ofQuat q).r1 (fun p => rfl)
  have hv' : (monomials S).one ≠ 0 := hv
  simp only [e0, exx, eyy, ezz, eyz, ezx, exy]
  generalize monomials S = M at *
  generalize M3.ofQuat q = R at *
  have hd : m / M.one * M.one = m := div_mul_cancel₀ m hv'
  generalize m / M.one = d at *
  subst hd
  obtain ⟨⟨r00, r01, r02⟩, ⟨r10, r11, r12⟩, ⟨r20, r21, r22⟩⟩ := R
  obtain ⟨k0, k1, k2, k3, kxx, kyy, kzz, kyz, kzx, kxy⟩ := M
  obtain ⟨x, y, z⟩ := pos
  simp only at m1 m2 m3
  subst m1 m2 m3
  rw [shiftInertia, M3.mul_def, M3.mul_def, M3.mul_def]
  simp only [dot, M3.transpose, M3.column0, M3.column1, M3.column2] at a1 a2 a3 a4 a5 a6 b1 b2 b3 b4 b5 b6
  simp only [plus, M3.scale, M3.skew, dot, M3.transpose, M3.column0, M3.column1, M3.column2, prodQuad, Quad.pair, smul]
  ext <;> simp only []
  · linear_combination d * (kxx * b1 + kyy * b2 + kzz * b3 + 2 * kxy * b4 + 2 * kzx * b5 + 2 * kyz * b6) -
      d * (kxx + kyy + kzz) * a1
  · linear_combination (-d) * (kxx + kyy + kzz) * a4
  · linear_combination (-d) * (kxx + kyy + kzz) * a5
  · linear_combination (-d) * (kxx + kyy + kzz) * a4
  · linear_combination d * (kxx * b1 + kyy * b2 + kzz * b3 + 2 * kxy * b4 + 2 * kzx * b5 + 2 * kyz * b6) -
      d * (kxx + kyy + kzz) * a2
  · linear_combination (-d) * (kxx + kyy + kzz) * a6
  · linear_combination (-d) * (kxx + kyy + kzz) * a5
  · linear_combination (-d) * (kxx + kyy + kzz) * a6
  · linear_combination d * (kxx * b1 + kyy * b2 + kzz * b3 + 2 * kxy * b4 + 2 * kzx * b5 + 2 * kyz * b6) -
      d * (kxx + kyy + kzz) * a3

/-! ## Compounds -/

/-- A node whose shape fills the set: its volume is right and its centre of mass is the origin. -/
structure NodeFills (n : Node) (S : Shape) : Prop where
  compact : IsCompact (region S)
  volume : n.volume = volumeOf S
  positive : 0 < volumeOf S
  centroid : centroidOf S = 0
  unit : n.orientation.lengthSqr = 1

/-- Its moment of inertia is right too. -/
structure NodeRight (n : Node) (S : Shape) : Prop extends NodeFills n S where
  inertia : ∀ m, n.inertia m = inertiaOf S m

/-- The set filled by a compound. -/
def compoundSet (parts : List (Node × Shape)) : Shape :=
  fun p => ∃ c ∈ parts, Placed c.2 c.1.position c.1.orientation p

/-- The parts have no volume in common. -/
def Apart (parts : List (Node × Shape)) : Prop :=
  parts.Pairwise fun a b =>
    AEDisjoint volume (region (Placed a.2 a.1.position a.1.orientation)) (region (Placed b.2 b.1.position b.1.orientation))

theorem compound_cons (c : Node × Shape) (cs : List (Node × Shape)) :
    region (compoundSet (c :: cs)) = region (Placed c.2 c.1.position c.1.orientation) ∪ region (compoundSet cs) := by
  ext p
  simp only [region, compoundSet, Set.mem_setOf_eq, List.mem_cons, exists_eq_or_imp, Set.mem_union]

theorem compound_compact (parts : List (Node × Shape)) (h : ∀ c ∈ parts, NodeFills c.1 c.2) :
    IsCompact (region (compoundSet parts)) := by
  induction parts with
  | nil =>
    have : region (compoundSet []) = ∅ := by
      ext p
      simp [region, compoundSet]
    rw [this]
    exact isCompact_empty
  | cons c cs ih =>
    rw [compound_cons]
    have hc := h c (by simp)
    exact (placed_compact hc.compact _ _ hc.unit).union (ih fun d hd => h d (by simp [hd]))

theorem compound_integral (parts : List (Node × Shape)) (h : ∀ c ∈ parts, NodeFills c.1 c.2) (ha : Apart parts)
    (f : V3 ℝ → ℝ) (hf : Continuous fun p : ℝ × ℝ × ℝ => f (toV p)) :
    integralOver (compoundSet parts) f =
      (parts.map fun c => integralOver (Placed c.2 c.1.position c.1.orientation) f).sum := by
  induction parts with
  | nil =>
    have : region (compoundSet []) = ∅ := by
      ext p
      simp [region, compoundSet]
    simp [integralOver, this]
  | cons c cs ih =>
    have hc := h c (by simp)
    have hcs := compound_compact cs (fun d hd => h d (by simp [hd]))
    have hp := placed_compact hc.compact c.1.position c.1.orientation hc.unit
    rw [List.map_cons, List.sum_cons, ← ih (fun d hd => h d (by simp [hd])) (List.Pairwise.of_cons ha)]
    unfold integralOver
    rw [compound_cons]
    have hd : AEDisjoint volume (region (Placed c.2 c.1.position c.1.orientation)) (region (compoundSet cs)) := by
      have ha' := (List.pairwise_cons.1 ha).1
      clear ih ha hcs
      have : ∀ ds : List (Node × Shape), (∀ d ∈ ds, AEDisjoint volume (region (Placed c.2 c.1.position c.1.orientation))
          (region (Placed d.2 d.1.position d.1.orientation))) →
          AEDisjoint volume (region (Placed c.2 c.1.position c.1.orientation)) (region (compoundSet ds)) := by
        intro ds
        induction ds with
        | nil =>
          intro _
          have : region (compoundSet []) = ∅ := by
            ext p
            simp [region, compoundSet]
          rw [this, AEDisjoint, Set.inter_empty]
          exact measure_empty
        | cons d ds ihd =>
          intro hds
          rw [compound_cons, AEDisjoint.union_right_iff]
          exact ⟨hds d (by simp), ihd fun e he => hds e (by simp [he])⟩
      exact this cs ha'
    exact integral_union_ae hd hcs.measurableSet.nullMeasurableSet (hf.continuousOn.integrableOn_compact hp)
      (hf.continuousOn.integrableOn_compact hcs)

theorem compoundVolume_sum (nodes : List Node) : compoundVolume nodes = (nodes.map (·.volume)).sum := by
  have : ∀ (l : List Node) (a : ℝ), l.foldl (fun v n => v + n.volume) a = a + (l.map (·.volume)).sum := by
    intro l
    induction l with
    | nil => simp
    | cons n l ih =>
      intro a
      rw [List.foldl_cons, ih]
      simp only [List.map_cons, List.sum_cons]
      ring
  rw [compoundVolume, this, zero_add]

/-- **C76**: the volume of a compound whose parts do not overlap. -/
theorem compound_volume_partial (parts : List (Node × Shape)) (h : ∀ c ∈ parts, NodeFills c.1 c.2) (ha : Apart parts) :
    compoundVolume (parts.map (·.1)) = volumeOf (compoundSet parts) := by
  rw [compoundVolume_sum, volumeOf, compound_integral parts h ha _ continuous_const, List.map_map]
  congr 1
  apply List.map_congr_left
  intro c hc
  have k := h c hc
  simp only [Function.comp]
  rw [k.volume, ← (placed_mass k.compact k.positive.ne' k.centroid c.1.position c.1.orientation k.unit 1).1]
  rfl

/-- The sum of matrices. -/
noncomputable def total : List (M3 ℝ) → M3 ℝ
  | [] => ⟨0, 0, 0⟩
  | a :: l => plus a (total l)

theorem plus_assoc (a b c : M3 ℝ) : plus (plus a b) c = plus a (plus b c) := by
  simp only [plus, M3.mk.injEq, V3.mk.injEq]
  refine ⟨⟨?_, ?_, ?_⟩, ⟨?_, ?_, ?_⟩, ⟨?_, ?_, ?_⟩⟩ <;> ring

theorem plus_zero (a : M3 ℝ) : plus a ⟨0, 0, 0⟩ = a ∧ plus ⟨0, 0, 0⟩ a = a := by
  constructor <;> ext <;> simp [plus]

theorem foldl_plus (g : Node → M3 ℝ) : ∀ (l : List Node) (a : M3 ℝ),
    l.foldl (fun i n => plus i (g n)) a = plus a (total (l.map g))
  | [], a => by
    rw [List.map_nil, total, (plus_zero a).1]
    rfl
  | n :: l, a => by
    rw [List.foldl_cons, foldl_plus g l, List.map_cons, total, plus_assoc]

theorem total_entry (e : M3 ℝ → ℝ) (h0 : e ⟨0, 0, 0⟩ = 0) (hp : ∀ a b, e (plus a b) = e a + e b) :
    ∀ l : List (M3 ℝ), e (total l) = (l.map e).sum
  | [] => by rw [total, h0]; rfl
  | a :: l => by
    rw [total, hp, total_entry e h0 hp l]
    rfl

/-- The share of the mass of a part, times its integrals, is that of the whole. -/
theorem share (parts : List (Node × Shape)) (m V : ℝ) (hV : V ≠ 0) (h : ∀ c ∈ parts, NodeFills c.1 c.2)
    (f : V3 ℝ → ℝ) (g : M3 ℝ → ℝ)
    (hg : ∀ S m, g (inertiaOf S m) = m / volumeOf S * integralOver S f) (J : Node × Shape → M3 ℝ)
    (hJ : ∀ c ∈ parts, J c = inertiaOf (Placed c.2 c.1.position c.1.orientation) (m * (c.1.volume / V))) :
    (parts.map fun c => g (J c)).sum =
      m / V * (parts.map fun c => integralOver (Placed c.2 c.1.position c.1.orientation) f).sum := by
  rw [← List.sum_map_mul_left]
  congr 1
  apply List.map_congr_left
  intro c hc
  have k := h c hc
  have hv := (placed_mass k.compact k.positive.ne' k.centroid c.1.position c.1.orientation k.unit 1).1
  rw [hJ c hc, hg, hv, k.volume]
  have := k.positive.ne'
  field_simp

/-- **C78**, in part: the moment of inertia of a compound whose parts do not overlap, are given with their centres of
mass at their origins and have the right moments of inertia themselves. -/
theorem compound_inertia_partial (parts : List (Node × Shape)) (m : ℝ) (h : ∀ c ∈ parts, NodeRight c.1 c.2)
    (ha : Apart parts) (hn : parts ≠ []) :
    compoundInertia m (parts.map (·.1)) = inertiaOf (compoundSet parts) m := by
  have hV : compoundVolume (parts.map (·.1)) ≠ 0 := by
    rw [compoundVolume_sum, List.map_map]
    have : ∀ l : List (Node × Shape), (∀ c ∈ l, NodeRight c.1 c.2) → l ≠ [] →
        0 < (l.map ((fun n : Node => n.volume) ∘ fun c : Node × Shape => c.1)).sum := by
      intro l
      induction l with
      | nil => intro _ hl; exact absurd rfl hl
      | cons c l ih =>
        intro hl _
        have k := hl c (by simp)
        have : 0 < c.1.volume := by rw [k.volume]; exact k.positive
        simp only [List.map_cons, List.sum_cons, Function.comp]
        by_cases hl0 : l = []
        · subst hl0
          simpa using this
        · have := ih (fun d hd => hl d (by simp [hd])) hl0
          simp only [Function.comp_def] at this ⊢
          linarith
    exact (this parts h hn).ne'
  have h' : ∀ c ∈ parts, NodeFills c.1 c.2 := fun c hc => (h c hc).toNodeFills
  have hvol := compound_volume_partial parts h' ha
  rw [compoundInertia]
  simp only
  rw [foldl_plus (fun n => shiftInertia (M3.ofQuat n.orientation *
    n.inertia (m * (n.volume / compoundVolume (parts.map (·.1)))) * (M3.ofQuat n.orientation).transpose)
    (m * (n.volume / compoundVolume (parts.map (·.1)))) n.position), (plus_zero _).2, List.map_map]
  generalize compoundVolume (parts.map (·.1)) = V at *
  set J : Node × Shape → M3 ℝ := (fun n : Node => shiftInertia (M3.ofQuat n.orientation *
    n.inertia (m * (n.volume / V)) * (M3.ofQuat n.orientation).transpose) (m * (n.volume / V)) n.position) ∘ (·.1) with hJd
  have hJ : ∀ c ∈ parts, J c = inertiaOf (Placed c.2 c.1.position c.1.orientation) (m * (c.1.volume / V)) := by
    intro c hc
    have k := h c hc
    rw [hJd, (placed_mass k.compact k.positive.ne' k.centroid c.1.position c.1.orientation k.unit _).2, ← k.inertia]
    rfl
  have key : ∀ (f : V3 ℝ → ℝ) (g : M3 ℝ → ℝ) (_ : Continuous fun p : ℝ × ℝ × ℝ => f (toV p)) (_ : g ⟨0, 0, 0⟩ = 0)
      (_ : ∀ a b, g (plus a b) = g a + g b) (_ : ∀ S m, g (inertiaOf S m) = m / volumeOf S * integralOver S f),
      g (total (parts.map J)) = g (inertiaOf (compoundSet parts) m) := by
    intro f g hf h0 hp hg
    rw [total_entry g h0 hp, List.map_map, hg, compound_integral parts h' ha f hf, ← hvol, ← share parts m V hV h' f g hg J hJ]
    rfl
  have hz : (⟨0, 0, 0⟩ : M3 ℝ).r0 = 0 := rfl
  ext
  · exact key (fun p => p.y * p.y + p.z * p.z) (·.r0.x) (by unfold toV; fun_prop) rfl (fun _ _ => rfl) (fun _ _ => rfl)
  · exact key (fun p => -(p.x * p.y)) (·.r0.y) (by unfold toV; fun_prop) rfl (fun _ _ => rfl) (fun _ _ => rfl)
  · exact key (fun p => -(p.x * p.z)) (·.r0.z) (by unfold toV; fun_prop) rfl (fun _ _ => rfl) (fun _ _ => rfl)
  · exact key (fun p => -(p.y * p.x)) (·.r1.x) (by unfold toV; fun_prop) rfl (fun _ _ => rfl) (fun _ _ => rfl)
  · exact key (fun p => p.z * p.z + p.x * p.x) (·.r1.y) (by unfold toV; fun_prop) rfl (fun _ _ => rfl) (fun _ _ => rfl)
  · exact key (fun p => -(p.y * p.z)) (·.r1.z) (by unfold toV; fun_prop) rfl (fun _ _ => rfl) (fun _ _ => rfl)
  · exact key (fun p => -(p.z * p.x)) (·.r2.x) (by unfold toV; fun_prop) rfl (fun _ _ => rfl) (fun _ _ => rfl)
  · exact key (fun p => -(p.z * p.y)) (·.r2.y) (by unfold toV; fun_prop) rfl (fun _ _ => rfl) (fun _ _ => rfl)
  · exact key (fun p => p.x * p.x + p.y * p.y) (·.r2.z) (by unfold toV; fun_prop) rfl (fun _ _ => rfl) (fun _ _ => rfl)

/-! ## Compounds of simple shapes -/

theorem turn_compact {S : Shape} (h : IsCompact (region S)) : IsCompact (region fun p => S (turn p)) := by
  have e : (region fun p => S (turn p)) = (fun q : ℝ × ℝ × ℝ => (q.2.2, q.1, q.2.1)) '' region S := by
    ext p
    simp only [region, Set.mem_setOf_eq, Set.mem_image]
    constructor
    · intro hp
      exact ⟨(p.2.1, p.2.2, p.1), hp, rfl⟩
    · rintro ⟨q, hq, e⟩
      subst e
      exact hq
  rw [e]
  exact h.image (by fun_prop)

theorem solid_compact (s : Solid) (h : s.Proper) : IsCompact (region s.set) := by
  cases s with
  | box e =>
    simp only [Solid.set]
    rw [region_box]
    exact isCompact_Icc.prod (isCompact_Icc.prod isCompact_Icc)
  | sphere r =>
    simp only [Solid.set]
    rw [ball_eq (le_of_lt h)]
    exact revolution_compact (by fun_prop) (root_bound (le_of_lt h))
  | cylinder r hl a =>
    have hx : IsCompact (region (cylinderSet r hl .x)) := by
      rw [cylinder_x]
      exact revolution_compact (B := |r|) (by fun_prop) (fun _ => le_refl _)
    have hy := turn_compact hx
    rw [← (cylinder_turn r hl).1] at hy
    have hz := turn_compact hy
    rw [← (cylinder_turn r hl).2] at hz
    cases a
    · exact hx
    · exact hy
    · exact hz
  | capsule r hl a =>
    have hx : IsCompact (region (capsuleSet r hl .x)) := by
      rw [capsule_x (le_of_lt h.1) (le_of_lt h.2)]
      exact revolution_compact (radius_continuous r hl) (fun x => root_bound (le_of_lt h.1) _)
    have hy := turn_compact hx
    rw [← (capsule_turn r hl).1] at hy
    have hz := turn_compact hy
    rw [← (capsule_turn r hl).2] at hz
    cases a
    · exact hx
    · exact hy
    · exact hz

theorem solid_positive (s : Solid) (h : s.Proper) : 0 < s.volume := by
  have hp := Real.pi_pos
  cases s with
  | box e =>
    obtain ⟨h1, h2, h3⟩ := h
    simp only [Solid.volume, boxVolume, smul_x, smul_y, smul_z]
    positivity
  | sphere r =>
    have hr : 0 < r := h
    simp only [Solid.volume, sphereVolume]
    positivity
  | cylinder r hl a =>
    obtain ⟨h1, h2⟩ := h
    simp only [Solid.volume, cylinderVolume]
    positivity
  | capsule r hl a =>
    obtain ⟨h1, h2⟩ := h
    simp only [Solid.volume, cylinderVolume, sphereVolume]
    positivity

theorem solid_fills (s : Solid) (h : s.Proper) (pos : V3 ℝ) (q : Quat ℝ) (hq : q.lengthSqr = 1) :
    NodeFills (s.node pos q) s.set :=
  ⟨solid_compact s h, (solid_volume s h).1, (solid_volume s h).1 ▸ solid_positive s h, (solid_volume s h).2, hq⟩

theorem solid_right (s : Solid) (h : s.Proper) (hs : ∀ r hl a, s ≠ .capsule r hl a) (pos : V3 ℝ) (q : Quat ℝ)
    (hq : q.lengthSqr = 1) : NodeRight (s.node pos q) s.set :=
  { solid_fills s h pos q hq with inertia := fun m => solid_inertia_partial s m h hs }

/-- A compound of two balls meets the hypotheses. -/
example : ∃ parts : List (Node × Shape), parts.length = 2 ∧ (∀ c ∈ parts, NodeRight c.1 c.2) ∧ Apart parts := by
  have hq : (1 : Quat ℝ).lengthSqr = 1 := by simp [Quat.lengthSqr]
  refine ⟨[((Solid.sphere 1).node ⟨2, 0, 0⟩ 1, ballSet 1), ((Solid.sphere 1).node ⟨-2, 0, 0⟩ 1, ballSet 1)], rfl, ?_, ?_⟩
  · intro c hc
    simp only [List.mem_cons, List.not_mem_nil, or_false] at hc
    rcases hc with rfl | rfl <;> exact solid_right (.sphere 1) one_pos (by intro r hl a; simp) _ _ hq
  · simp only [Apart, List.pairwise_cons, List.mem_cons, List.not_mem_nil, or_false, forall_eq, List.Pairwise.nil, and_true,
      false_implies, implies_true]
    have : region (Placed (ballSet 1) ⟨2, 0, 0⟩ (1 : Quat ℝ)) ∩ region (Placed (ballSet 1) ⟨-2, 0, 0⟩ 1) = ∅ := by
      ext p
      simp only [region, Set.mem_inter_iff, Set.mem_setOf_eq, Set.mem_empty_iff_false, iff_false, not_and]
      rintro ⟨a, ha, e⟩ ⟨b, hb, e'⟩
      rw [rotate_one] at e e'
      have h1 : p.1 = 2 + a.x := congrArg V3.x e
      have h2 : p.1 = -2 + b.x := congrArg V3.x e'
      simp only [ballSet, V3.lengthSqr, dot] at ha hb
      have ax : -1 ≤ a.x := by nlinarith [sq_nonneg a.y, sq_nonneg a.z]
      have bx : b.x ≤ 1 := by nlinarith [sq_nonneg b.y, sq_nonneg b.z]
      linarith
    show volume _ = 0
    simp only [Solid.node]
    rw [this]
    exact measure_empty

end Edyn.Mass
