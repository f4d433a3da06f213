import Verif.Collide.Compound

/-!
# Contact points of compounds (C90): theorems
-/

namespace Edyn.Collide

open Edyn.Math hiding lengthSqr_nonneg
open V3 Edyn.Geom Edyn.Contact

variable {Sh : Type}

/-- **C90, a compound and a simple shape.** Whatever the function for the children reports: the compound has at most
four points, each of them is in the world a point of a child and names that child, and there is a point exactly when
there is one of a child whose box overlaps that of the other shape, both seen from the compound. -/
theorem compound_shape_points (K : Consts ℝ) {S : Sh → Shape} {a : Comp Sh} (ha : a.Ok S) (coll : Sh → BCtx → PRes)
    {c : BCtx} (ho : c.ornA.lengthSqr = 1) (hd : ∀ n ∈ a.nodes, ∃ ps, coll n.sh (c.atA n) = some ps) :
    ∃ l, compoundShape K a coll c = some l ∧ l.length ≤ 4 ∧
      (∀ p ∈ l, ∃ i n ps q, a.nodes[i]? = some n ∧ coll n.sh (c.atA n) = some ps ∧ q ∈ ps ∧
        Same c.toCtx p (c.atA n).toCtx q ∧ p.fA = some ⟨q.fA.bind (·.base), some i⟩ ∧ p.fB = q.fB) ∧
      (l ≠ [] ↔ ∃ n ∈ a.nodes, (toBox n.box).intersect (toBox (aabbToObject c.boxB c.posA c.ornA)) = true ∧
        ∃ ps, coll n.sh (c.atA n) = some ps ∧ ps ≠ []) := by
  obtain ⟨out, h1, h2⟩ := visit_exact ha (toBox (aabbToObject c.boxB c.posA c.ornA))
  obtain ⟨l, g1, g2, g3, g4⟩ := gather_spec K
    (fun i => a.nodes[i]?.bind fun n => (coll n.sh (c.atA n)).map (·.map (asPartA n i))) out (by
      intro i hi
      obtain ⟨n, hn, -⟩ := (h2 i).1 hi
      obtain ⟨ps, e⟩ := hd n (List.mem_of_getElem? hn)
      exact ⟨_, by rw [hn, Option.bind_some, e]; rfl⟩)
  refine ⟨l, by unfold compoundShape; rw [h1]; exact g1, g2, ?_, g4.trans ?_⟩
  · intro p hp
    obtain ⟨i, hi, ps, e, hps⟩ := g3 p hp
    obtain ⟨n, hn, -⟩ := (h2 i).1 hi
    rw [hn, Option.bind_some] at e
    obtain ⟨qs, eq, rfl⟩ := Option.map_eq_some_iff.1 e
    obtain ⟨q, hq, rfl⟩ := List.mem_map.1 hps
    exact ⟨i, n, qs, q, hn, eq, hq, same_asPartA ho (ha.unit n (List.mem_of_getElem? hn)) i q, rfl, rfl⟩
  · constructor
    · rintro ⟨i, hi, ps, e, hne⟩
      obtain ⟨n, hn, hb⟩ := (h2 i).1 hi
      rw [hn, Option.bind_some] at e
      obtain ⟨qs, eq, rfl⟩ := Option.map_eq_some_iff.1 e
      exact ⟨n, List.mem_of_getElem? hn, hb, qs, eq, by simpa using hne⟩
    · rintro ⟨n, hn, hb, ps, e, hne⟩
      obtain ⟨i, hi⟩ := List.mem_iff_getElem?.1 hn
      exact ⟨i, (h2 i).2 ⟨n, hi, hb⟩, _, by rw [hi, Option.bind_some, e]; rfl, by simpa using hne⟩

/-- The overlap test of boxes with a gap: two points in the boxes closer than the gap by which one has grown. -/
theorem overlap_of_near {a b : AABB} {v w : V3 ℝ} {t brk : ℝ} (ht : 0 ≤ t) (hb : t ≤ brk) (ha : a.Has v) (hw : b.Has w)
    (hd : lengthSqr (v - w) ≤ t * t) : (toBox (AABB.grow brk a)).intersect (toBox b) = true := by
  have sq : lengthSqr (v - w) = (v.x - w.x) * (v.x - w.x) + (v.y - w.y) * (v.y - w.y) + (v.z - w.z) * (v.z - w.z) := by
    simp [lengthSqr, dot]
  rw [sq] at hd
  have bx : |v.x - w.x| ≤ t := abs_le_of_sq_le_sq
    (by nlinarith [mul_self_nonneg (v.y - w.y), mul_self_nonneg (v.z - w.z)]) ht
  have bY : |v.y - w.y| ≤ t := abs_le_of_sq_le_sq
    (by nlinarith [mul_self_nonneg (v.x - w.x), mul_self_nonneg (v.z - w.z)]) ht
  have bz : |v.z - w.z| ≤ t := abs_le_of_sq_le_sq
    (by nlinarith [mul_self_nonneg (v.x - w.x), mul_self_nonneg (v.y - w.y)]) ht
  rw [abs_le] at bx bY bz
  apply overlap_of_common (w := w) _ hw
  obtain ⟨⟨a1, a2⟩, ⟨a3, a4⟩, a5, a6⟩ := ha
  simp only [AABB.Has, AABB.grow]
  and_intros <;> linarith

/-- The set of a compound as the union over its children. -/
theorem near_comp {S : Sh → Shape} {a : Comp Sh} {pos : V3 ℝ} {orn : Quat ℝ} {SB : V3 ℝ → Prop} {t : ℝ} :
    Near (compSet S a pos orn) SB t ↔ ∃ n ∈ a.nodes, Near (childSet S n pos orn) SB t := by
  constructor
  · rintro ⟨v, w, ⟨n, hn, hv⟩, hw, hd⟩
    exact ⟨n, hn, v, w, hv, hw, hd⟩
  · rintro ⟨n, hn, v, w, hv, hw, hd⟩
    exact ⟨v, w, ⟨n, hn, hv⟩, hw, hd⟩

/-- What is expected of a point of a compound, the first shape: it names a child and is good for that child. -/
def PartGoodA (S : Sh → Shape) (a : Comp Sh) (SB : V3 ℝ → Prop) (c : BCtx) (p : PPoint) : Prop :=
  ∃ i n f, a.nodes[i]? = some n ∧ p.fA = some f ∧ f.part = some i ∧
    Good (childSet S n c.posA c.ornA) SB c.toCtx p.unparted

/-- The full statement for a compound and a simple shape: the result for the compound is right if that for every child
is. -/
def CompoundShapeFull : Prop :=
  ∀ (Sh : Type) (K : Consts ℝ) (S : Sh → Shape) (a : Comp Sh), a.Ok S → ∀ (coll : Sh → BCtx → PRes) (c : BCtx)
    (SB : V3 ℝ → Prop), c.ornA.lengthSqr = 1 → 0 ≤ c.thr → c.boxB.Encloses SB →
    (∀ n ∈ a.nodes, RightAt c.thr (childSet S n c.posA c.ornA) SB (c.atA n).toCtx (coll n.sh (c.atA n))) →
    ∃ l, compoundShape K a coll c = some l ∧ l.length ≤ 4 ∧ (∀ p ∈ l, PartGoodA S a SB c p) ∧
      (l ≠ [] ↔ Near (compSet S a c.posA c.ornA) SB c.thr)

/-- **C90, a compound and a simple shape, partial.** If the results for the children are right, every point of the
compound is a good point of the child it names, there is none unless the shapes are within the threshold, and there
is one if the shapes have a common point.  Missing: shapes which do not touch but are within the threshold may get
no point, see `near_compound_missed`. -/
theorem compound_shape_partial (K : Consts ℝ) {S : Sh → Shape} {a : Comp Sh} (ha : a.Ok S) (coll : Sh → BCtx → PRes)
    {c : BCtx} {SB : V3 ℝ → Prop} (ho : c.ornA.lengthSqr = 1) (ht : 0 ≤ c.thr) (hB : c.boxB.Encloses SB)
    (hr : ∀ n ∈ a.nodes, RightAt c.thr (childSet S n c.posA c.ornA) SB (c.atA n).toCtx (coll n.sh (c.atA n))) :
    ∃ l, compoundShape K a coll c = some l ∧ l.length ≤ 4 ∧ (∀ p ∈ l, PartGoodA S a SB c p) ∧
      (l ≠ [] → Near (compSet S a c.posA c.ornA) SB c.thr) ∧
      ((∃ w, compSet S a c.posA c.ornA w ∧ SB w) → l ≠ []) := by
  obtain ⟨l, h1, h2, h3, h4⟩ := compound_shape_points K ha coll ho
    (fun n hn => let ⟨ps, e, _⟩ := hr n hn; ⟨ps, e⟩)
  refine ⟨l, h1, h2, ?_, ?_, ?_⟩
  · intro p hp
    obtain ⟨i, n, ps, q, hn, e, hq, hs, hfA, -⟩ := h3 p hp
    obtain ⟨ps', e', -, hg⟩ := hr n (List.mem_of_getElem? hn)
    rw [e] at e'
    obtain rfl := Option.some.inj e'
    exact ⟨i, n, _, hn, hfA, rfl, hs.good (hg q hq)⟩
  · intro hne
    obtain ⟨n, hn, -, ps, e, hps⟩ := h4.1 hne
    obtain ⟨ps', e', hnear, -⟩ := hr n hn
    rw [e] at e'
    obtain rfl := Option.some.inj e'
    exact near_comp.2 ⟨n, hn, hnear.1 hps⟩
  · rintro ⟨w, ⟨n, hn, hw⟩, hB'⟩
    obtain ⟨ps, e, hnear, -⟩ := hr n hn
    refine h4.2 ⟨n, hn, ?_, ps, e, hnear.2 ⟨w, w, hw, hB', ?_⟩⟩
    · obtain ⟨u, hu, rfl⟩ := hw
      exact overlap_of_common (ha.boxed n hn u hu) (aabb_to_object_encloses c.boxB c.posA c.ornA ho u (hB _ hB'))
    · have : lengthSqr (w - w) = 0 := by simp [lengthSqr, dot]
      rw [this]; positivity

/-- **C90, a compound and a plane.** If the results for the children are right up to a distance which is not above
the breaking threshold, so is the result for the compound, as long as the box of the plane contains the points of the
plane which are that close to the compound. -/
theorem compound_plane_right (K : Consts ℝ) {S : Sh → Shape} {a : Comp Sh} (ha : a.Ok S) (coll : Sh → BCtx → PRes)
    {c : BCtx} {SB : V3 ℝ → Prop} {t brk : ℝ} (ho : c.ornA.lengthSqr = 1) (ht : 0 ≤ t) (hb : t ≤ brk)
    (hB : ∀ v w, compSet S a c.posA c.ornA v → SB w → lengthSqr (v - w) ≤ t * t → c.boxB.Has w)
    (hr : ∀ n ∈ a.nodes, RightAt t (childSet S n c.posA c.ornA) SB (c.atA n).toCtx (coll n.sh (c.atA n))) :
    ∃ l, compoundPlane K brk a coll c = some l ∧ l.length ≤ 4 ∧ (∀ p ∈ l, PartGoodA S a SB c p) ∧
      (l ≠ [] ↔ Near (compSet S a c.posA c.ornA) SB t) := by
  set f : ℕ → PRes := fun i => a.nodes[i]?.bind fun n =>
    if (toBox (AABB.grow brk (aabbToWorld n.box c.posA c.ornA))).intersect (toBox c.boxB) then
      (coll n.sh (c.atA n)).map (·.map (asPartA n i))
    else some [] with hf
  have hin : ∀ i n, a.nodes[i]? = some n → i ∈ List.range a.nodes.length :=
    fun i n hn => List.mem_range.2 (List.getElem?_eq_some_iff.1 hn).1
  have hout : ∀ i ∈ List.range a.nodes.length, ∃ n, a.nodes[i]? = some n :=
    fun i hi => ⟨_, List.getElem?_eq_getElem (List.mem_range.1 hi)⟩
  obtain ⟨l, g1, g2, g3, g4⟩ := gather_spec K f (List.range a.nodes.length) (by
      intro i hi
      obtain ⟨n, hn⟩ := hout i hi
      obtain ⟨ps, e, -⟩ := hr n (List.mem_of_getElem? hn)
      simp only [hf, hn, Option.bind_some, e]
      split
      · exact ⟨_, rfl⟩
      · exact ⟨_, rfl⟩)
  refine ⟨l, g1, g2, ?_, g4.trans ?_⟩
  · intro p hp
    obtain ⟨i, hi, ps, e, hps⟩ := g3 p hp
    obtain ⟨n, hn⟩ := hout i hi
    obtain ⟨qs, eq, -, hg⟩ := hr n (List.mem_of_getElem? hn)
    simp only [hf, hn, Option.bind_some, eq] at e
    split at e
    · obtain rfl := Option.some.inj e
      obtain ⟨q, hq, rfl⟩ := List.mem_map.1 hps
      exact ⟨i, n, _, hn, rfl, rfl, (same_asPartA ho (ha.unit n (List.mem_of_getElem? hn)) i q).good (hg q hq)⟩
    · obtain rfl := Option.some.inj e
      simp at hps
  · rw [near_comp]
    constructor
    · rintro ⟨i, hi, ps, e, hne⟩
      obtain ⟨n, hn⟩ := hout i hi
      obtain ⟨qs, eq, hnear, -⟩ := hr n (List.mem_of_getElem? hn)
      simp only [hf, hn, Option.bind_some, eq] at e
      split at e
      · obtain rfl := Option.some.inj e
        exact ⟨n, List.mem_of_getElem? hn, hnear.1 (by simpa using hne)⟩
      · obtain rfl := Option.some.inj e
        exact absurd rfl hne
    · rintro ⟨n, hn, hnear⟩
      obtain ⟨i, hi⟩ := List.mem_iff_getElem?.1 hn
      obtain ⟨qs, eq, hiff, -⟩ := hr n hn
      refine ⟨i, hin i n hi, qs.map (asPartA n i), ?_, by simpa using hiff.2 hnear⟩
      obtain ⟨v, w, hv, hw, hd⟩ := hnear
      have hbox : (aabbToWorld n.box c.posA c.ornA).Has v := by
        obtain ⟨u, hu, rfl⟩ := hv
        exact aabb_to_world_encloses n.box c.posA c.ornA ho _ ⟨u, ha.boxed n hn u hu, rfl⟩
      simp only [hf, hi, Option.bind_some, eq]
      rw [if_pos (overlap_of_near ht hb hbox (hB v w ⟨n, hn, hv⟩ hw hd) hd)]
      rfl

/-- The context in which a child is collided with a mesh. -/
noncomputable def meshCtx (c : BCtx) (n : Child Sh) : BCtx :=
  { c.atA n with boxA := aabbToWorld n.box c.posA c.ornA }

/-- **C90, a compound and a mesh.** Every child is collided with the mesh, where it is in the world and with a box
which contains it; the compound has at most four points, each of them is in the world a point of a child and names
that child, and there is a point exactly when there is one of a child. -/
theorem compound_mesh_points (K : Consts ℝ) {S : Sh → Shape} {a : Comp Sh} (ha : a.Ok S) (coll : Sh → BCtx → PRes)
    {c : BCtx} (ho : c.ornA.lengthSqr = 1) (hd : ∀ n ∈ a.nodes, ∃ ps, coll n.sh (meshCtx c n) = some ps) :
    (∀ n ∈ a.nodes, (meshCtx c n).boxA.Encloses (childSet S n c.posA c.ornA) ∧
      childSet S n c.posA c.ornA = Placed (S n.sh) (meshCtx c n).posA (meshCtx c n).ornA) ∧
    ∃ l, compoundMesh K a coll c = some l ∧ l.length ≤ 4 ∧
      (∀ p ∈ l, ∃ i n ps q, a.nodes[i]? = some n ∧ coll n.sh (meshCtx c n) = some ps ∧ q ∈ ps ∧
        Same c.toCtx p (meshCtx c n).toCtx q ∧ p.fA = some ⟨q.fA.bind (·.base), some i⟩ ∧ p.fB = q.fB) ∧
      (l ≠ [] ↔ ∃ n ∈ a.nodes, ∃ ps, coll n.sh (meshCtx c n) = some ps ∧ ps ≠ []) := by
  refine ⟨fun n hn => ⟨?_, ?_⟩, ?_⟩
  · rintro w ⟨u, hu, rfl⟩
    exact aabb_to_world_encloses n.box c.posA c.ornA ho _ ⟨u, ha.boxed n hn u hu, rfl⟩
  · funext w
    apply propext
    constructor
    · rintro ⟨u, ⟨v, hv, rfl⟩, rfl⟩
      exact ⟨v, hv, place_place n c.posA v ho (ha.unit n hn)⟩
    · rintro ⟨v, hv, rfl⟩
      exact ⟨_, ⟨v, hv, rfl⟩, (place_place n c.posA v ho (ha.unit n hn)).symm⟩
  have hin : ∀ i n, a.nodes[i]? = some n → i ∈ List.range a.nodes.length :=
    fun i n hn => List.mem_range.2 (List.getElem?_eq_some_iff.1 hn).1
  have hout : ∀ i ∈ List.range a.nodes.length, ∃ n, a.nodes[i]? = some n :=
    fun i hi => ⟨_, List.getElem?_eq_getElem (List.mem_range.1 hi)⟩
  obtain ⟨l, g1, g2, g3, g4⟩ := gather_spec K
    (fun i => a.nodes[i]?.bind fun n => (coll n.sh (meshCtx c n)).map (·.map (asPartA n i)))
    (List.range a.nodes.length) (by
      intro i hi
      obtain ⟨n, hn⟩ := hout i hi
      obtain ⟨ps, e⟩ := hd n (List.mem_of_getElem? hn)
      exact ⟨_, by rw [hn, Option.bind_some, e]; rfl⟩)
  refine ⟨l, g1, g2, ?_, g4.trans ?_⟩
  · intro p hp
    obtain ⟨i, hi, ps, e, hps⟩ := g3 p hp
    obtain ⟨n, hn⟩ := hout i hi
    rw [hn, Option.bind_some] at e
    obtain ⟨qs, eq, rfl⟩ := Option.map_eq_some_iff.1 e
    obtain ⟨q, hq, rfl⟩ := List.mem_map.1 hps
    exact ⟨i, n, qs, q, hn, eq, hq, same_asPartA ho (ha.unit n (List.mem_of_getElem? hn)) i q, rfl, rfl⟩
  · constructor
    · rintro ⟨i, hi, ps, e, hne⟩
      obtain ⟨n, hn⟩ := hout i hi
      rw [hn, Option.bind_some] at e
      obtain ⟨qs, eq, rfl⟩ := Option.map_eq_some_iff.1 e
      exact ⟨n, List.mem_of_getElem? hn, qs, eq, by simpa using hne⟩
    · rintro ⟨n, hn, ps, e, hne⟩
      obtain ⟨i, hi⟩ := List.mem_iff_getElem?.1 hn
      exact ⟨i, hin i n hi, _, by rw [hi, Option.bind_some, e]; rfl, by simpa using hne⟩

/-! ## Two compounds -/

/-- What is expected of a point of two compounds: it names a child of each and is good for these children. -/
def PartGood (S : Sh → Shape) (a b : Comp Sh) (c : BCtx) (p : PPoint) : Prop :=
  ∃ i n f j m g, a.nodes[i]? = some n ∧ p.fA = some f ∧ f.part = some i ∧
    b.nodes[j]? = some m ∧ p.fB = some g ∧ g.part = some j ∧
    Good (childSet S n c.posA c.ornA) (childSet S m c.posB c.ornB) c.toCtx p.unparted

/-- The children are collided correctly. -/
def PairsRight (S : Sh → Shape) (a b : Comp Sh) (coll : Sh → Sh → BCtx → PRes) (c : BCtx) : Prop :=
  ∀ n ∈ a.nodes, ∀ m ∈ b.nodes, RightAt c.thr (childSet S n c.posA c.ornA) (childSet S m c.posB c.ornB)
    ((c.atB m).atA n).toCtx (coll n.sh m.sh ((c.atB m).atA n))

theorem compound_loop (K : Consts ℝ) {S : Sh → Shape} {a b : Comp Sh} (ha : a.Ok S) (hb : b.Ok S)
    (coll : Sh → Sh → BCtx → PRes) {c : BCtx} (ho : c.Ok) (hB : c.boxB.Encloses (compSet S b c.posB c.ornB))
    (hr : PairsRight S a b coll c) :
    ∃ l, compoundLoop K a b coll c = some l ∧ l.length ≤ 4 ∧ (∀ p ∈ l, PartGood S a b c p) ∧
      (l ≠ [] → Near (compSet S a c.posA c.ornA) (compSet S b c.posB c.ornB) c.thr) ∧
      ((∃ w, compSet S a c.posA c.ornA w ∧ compSet S b c.posB c.ornB w) → l ≠ []) := by
  obtain ⟨oA, oB, ht⟩ := ho
  have one : ∀ m ∈ b.nodes, _ := fun m hm =>
    compound_shape_partial K ha (fun s => coll s m.sh) (c := c.atB m) (SB := childSet S m c.posB c.ornB) oA ht
      (fun w hw => hB w ⟨m, hm, hw⟩) (fun n hn => hr n hn m hm)
  have hin : ∀ i n, b.nodes[i]? = some n → i ∈ List.range b.nodes.length :=
    fun i n hn => List.mem_range.2 (List.getElem?_eq_some_iff.1 hn).1
  have hout : ∀ i ∈ List.range b.nodes.length, ∃ n, b.nodes[i]? = some n :=
    fun i hi => ⟨_, List.getElem?_eq_getElem (List.mem_range.1 hi)⟩
  obtain ⟨l, g1, g2, g3, g4⟩ := gather_spec K
    (fun j => b.nodes[j]?.bind fun m =>
      (compoundShape K a (fun s => coll s m.sh) (c.atB m)).map (·.map (asPartB m j)))
    (List.range b.nodes.length) (by
      intro i hi
      obtain ⟨n, hn⟩ := hout i hi
      obtain ⟨ps, e, -⟩ := one n (List.mem_of_getElem? hn)
      exact ⟨_, by rw [hn, Option.bind_some, e]; rfl⟩)
  refine ⟨l, g1, g2, ?_, ?_, ?_⟩
  · intro p hp
    obtain ⟨j, hj, ps, e, hps⟩ := g3 p hp
    obtain ⟨m, hm⟩ := hout j hj
    have hmm := List.mem_of_getElem? hm
    obtain ⟨qs, eq, -, hg, -⟩ := one m hmm
    rw [hm, Option.bind_some, eq, Option.map_some] at e
    obtain rfl := Option.some.inj e
    obtain ⟨q, hq, rfl⟩ := List.mem_map.1 hps
    obtain ⟨i, n, f, k1, k2, k3, k4⟩ := hg q hq
    exact ⟨i, n, f, j, m, _, k1, k2, k3, hm, rfl, rfl, (same_asPartB oB (hb.unit m hmm) j q).good k4⟩
  · intro hne
    obtain ⟨j, hj, ps, e, hps⟩ := g4.1 hne
    obtain ⟨m, hm⟩ := hout j hj
    have hmm := List.mem_of_getElem? hm
    obtain ⟨qs, eq, -, -, hnear, -⟩ := one m hmm
    rw [hm, Option.bind_some, eq, Option.map_some] at e
    obtain rfl := Option.some.inj e
    obtain ⟨v, w, hv, hw, hd⟩ := hnear (by simpa using hps)
    exact ⟨v, w, hv, ⟨m, hmm, hw⟩, hd⟩
  · rintro ⟨w, hw, m, hm, hwm⟩
    obtain ⟨j, hj⟩ := List.mem_iff_getElem?.1 hm
    obtain ⟨qs, eq, -, -, -, htouch⟩ := one m hm
    exact g4.2 ⟨j, hin j m hj, qs.map (asPartB m j), by rw [hj, Option.bind_some, eq]; rfl,
      by simpa using htouch ⟨w, hw, hwm⟩⟩

theorem unparted_swap (p : PPoint) : p.swap.unparted = p.unparted.swap := rfl

/-- The full statement for two compounds. -/
def CompoundCompoundFull : Prop :=
  ∀ (Sh : Type) (K : Consts ℝ) (S : Sh → Shape) (a b : Comp Sh), a.Ok S → b.Ok S →
    ∀ (coll : Sh → Sh → BCtx → PRes) (c : BCtx), c.Ok → c.boxA.Encloses (compSet S a c.posA c.ornA) →
    c.boxB.Encloses (compSet S b c.posB c.ornB) → PairsRight S a b coll c → PairsRight S b a coll c.swapped →
    ∃ l, compoundCompound K a b coll c = some l ∧ l.length ≤ 4 ∧ (∀ p ∈ l, PartGood S a b c p) ∧
      (l ≠ [] ↔ Near (compSet S a c.posA c.ornA) (compSet S b c.posB c.ornB) c.thr)

/-- **C90, two compounds, partial.** If the results for the children are right in both orders, every point of two
compounds is a good point of the two children it names, there is none unless the compounds are within the threshold,
and there is one if they have a common point, whichever of them has more children.  Missing: compounds which do not
touch but are within the threshold. -/
theorem compound_compound_partial (K : Consts ℝ) {S : Sh → Shape} {a b : Comp Sh} (ha : a.Ok S) (hb : b.Ok S)
    (coll : Sh → Sh → BCtx → PRes) {c : BCtx} (ho : c.Ok) (hA : c.boxA.Encloses (compSet S a c.posA c.ornA))
    (hB : c.boxB.Encloses (compSet S b c.posB c.ornB)) (hr : PairsRight S a b coll c)
    (hr' : PairsRight S b a coll c.swapped) :
    ∃ l, compoundCompound K a b coll c = some l ∧ l.length ≤ 4 ∧ (∀ p ∈ l, PartGood S a b c p) ∧
      (l ≠ [] → Near (compSet S a c.posA c.ornA) (compSet S b c.posB c.ornB) c.thr) ∧
      ((∃ w, compSet S a c.posA c.ornA w ∧ compSet S b c.posB c.ornB w) → l ≠ []) := by
  unfold compoundCompound
  split
  · obtain ⟨l, h1, h2, h3, h4, h5⟩ := compound_loop K hb ha coll (c := c.swapped) ⟨ho.2.1, ho.1, ho.2.2⟩ hA hr'
    refine ⟨l.map CPoint.swap, by simp only [pswap, h1, Option.map_some], by simpa using h2, ?_, ?_, ?_⟩
    · intro p hp
      obtain ⟨q, hq, rfl⟩ := List.mem_map.1 hp
      obtain ⟨i, n, f, j, m, g, k1, k2, k3, k4, k5, k6, k7⟩ := h3 q hq
      exact ⟨j, m, g, i, n, f, k4, k5, k6, k1, k2, k3, Good.swap (c := c.toCtx) k7⟩
    · intro hne
      exact (h4 (by simpa using hne)).symm
    · rintro ⟨w, w1, w2⟩
      simpa using h5 ⟨w, w2, w1⟩
  · exact compound_loop K ha hb coll ho hB hr

end Edyn.Collide
