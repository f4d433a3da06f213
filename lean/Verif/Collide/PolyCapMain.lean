import Verif.Collide.PolyCapPoints

/-!
# Contacts between a polyhedron and a capsule: the theorems (C95)
-/

namespace Edyn.Collide

open Edyn.Math hiding lengthSqr_nonneg
open V3 Edyn.Geom Edyn.Geom.Poly Edyn.Contact

/-! ## Moving everything by a rigid motion -/

/-- A point of a body in the world. -/
noncomputable def move (p : V3 ℝ) (q : Quat ℝ) (w : V3 ℝ) : V3 ℝ := p + Quat.rotate q w

theorem move_sub (p : V3 ℝ) (q : Quat ℝ) (v w : V3 ℝ) : move p q v - move p q w = Quat.rotate q (v - w) := by
  rw [rotate_sub]; unfold move; ext <;> simp

theorem move_along (p : V3 ℝ) (q : Quat ℝ) (v w : V3 ℝ) (t : ℝ) :
    move p q (v + smul t (w - v)) = move p q v + smul t (move p q w - move p q v) := by
  rw [move_sub]
  unfold move
  rw [rotate_add, rotate_smul]; ext <;> simp <;> ring

theorem move_add (p : V3 ℝ) (q : Quat ℝ) (v n : V3 ℝ) (r : ℝ) : move p q (v + smul r n) = move p q v + smul r (Quat.rotate q n) := by
  unfold move
  rw [rotate_add, rotate_smul]; ext <;> simp <;> ring

theorem move_onto (p : V3 ℝ) {q : Quat ℝ} (hq : q.lengthSqr = 1) (w : V3 ℝ) : move p q (toObjectSpace w p q) = w := by
  unfold move toObjectSpace
  rw [(rotate_conjugate q hq _).2]; ext <;> simp

theorem move_beyond (p : V3 ℝ) {q : Quat ℝ} (hq : q.lengthSqr = 1) (n v w u : V3 ℝ) :
    beyond (Quat.rotate q n) (move p q v) (move p q w) (move p q u) = beyond n v w u := by
  unfold beyond
  rw [move_sub, move_sub, ← rotate_cross q hq, rotate_dot q hq]

theorem side_move {p : V3 ℝ} {q : Quat ℝ} {l : List (V3 ℝ)} {v w : V3 ℝ} (h : Side (l.map (move p q)) v w) :
    ∃ v' w', v = move p q v' ∧ w = move p q w' ∧ Side l v' w' := side_map h

theorem move_height (p : V3 ℝ) {q : Quat ℝ} (hq : q.lengthSqr = 1) (w n : V3 ℝ) :
    dot (move p q w) (Quat.rotate q n) = dot w n + dot p (Quat.rotate q n) := by
  unfold move; rw [dot_add_left, rotate_dot q hq]; ring

section
variable {V V' : V3 ℝ → Prop} {n : V3 ℝ} {near near' : ℝ → Prop} {p : V3 ℝ} {q : Quat ℝ}

theorem Outline.move {l : List (V3 ℝ)} (hq : q.lengthSqr = 1) (hV : ∀ w, V (move p q w) ↔ V' w)
    (hn : ∀ w, near (dot (Collide.move p q w) (Quat.rotate q n)) ↔ near' (dot w n)) (h : Outline V' n near' l) :
    Outline V (Quat.rotate q n) near (l.map (Collide.move p q)) := by
  refine ⟨by rw [List.length_map]; exact h.three, ?_, ?_⟩
  · intro v hv
    obtain ⟨w, hw, rfl⟩ := List.mem_map.mp hv
    exact ⟨(hV w).mpr (h.of w hw).1, (hn w).mpr (h.of w hw).2⟩
  · intro v w hs u hu hnear
    obtain ⟨v', w', rfl, rfl, hs'⟩ := side_move hs
    rw [← move_onto p hq u] at hu hnear ⊢
    rw [move_beyond p hq]
    exact h.around v' w' hs' _ ((hV _).mp hu) ((hn _).mp hnear)

theorem Feature.move {l : List (V3 ℝ)} (hq : q.lengthSqr = 1) (hV : ∀ w, V (move p q w) ↔ V' w)
    (hn : ∀ w, near (dot (Collide.move p q w) (Quat.rotate q n)) ↔ near' (dot w n)) (h : Feature V' n near' l) :
    Feature V (Quat.rotate q n) near (l.map (Collide.move p q)) := by
  refine ⟨by simpa using h.nonempty, ?_, fun h3 => (h.outline (by rwa [List.length_map] at h3)).move hq hV hn⟩
  intro v hv
  obtain ⟨w, hw, rfl⟩ := List.mem_map.mp hv
  exact ⟨(hV w).mpr (h.of w hw).1, (hn w).mpr (h.of w hw).2⟩

theorem Meets.move {eps : ℝ} {lA lB : List (V3 ℝ)} (hq : q.lengthSqr = 1)
    (h : Meets eps (Quat.rotate q n) (lA.map (move p q)) (lB.map (Collide.move p q))) : Meets eps n lA lB := by
  have up : ∀ {l : List (V3 ℝ)} {v w}, Side l v w → Side (l.map (Collide.move p q)) (Collide.move p q v) (Collide.move p q w) := by
    rintro l v w ⟨i, hi, hj⟩
    exact ⟨i, by rw [List.getElem?_map, hi]; rfl, by rw [List.length_map, List.getElem?_map, hj]; rfl⟩
  cases h with
  | vertexA v h1 h2 h3 =>
    obtain ⟨v, hv, rfl⟩ := List.mem_map.mp h1
    exact .vertexA v hv (by rwa [List.length_map] at h2) fun u w hs => by rw [← move_beyond p hq]; exact h3 _ _ (up hs)
  | vertexB v h1 h2 h3 =>
    obtain ⟨v, hv, rfl⟩ := List.mem_map.mp h1
    exact .vertexB v hv (by rwa [List.length_map] at h2) fun u w hs => by rw [← move_beyond p hq]; exact h3 _ _ (up hs)
  | sides a0 a1 b0 b1 s t r h1 h2 s0 s1 t0 t1 hr hp =>
    obtain ⟨a0, a1, rfl, rfl, k1⟩ := side_move h1
    obtain ⟨b0, b1, rfl, rfl, k2⟩ := side_move h2
    refine .sides a0 a1 b0 b1 s t r k1 k2 s0 s1 t0 t1 ?_ ?_
    · rw [← move_along, ← move_along, move_sub, ← rotate_smul] at hr
      have := congrArg (Quat.rotate q.conjugate) hr
      rwa [(rotate_conjugate q hq _).1, (rotate_conjugate q hq _).1] at this
    · rw [move_sub, move_sub, ← rotate_cross q hq, rotate_dot q hq] at hp; exact hp

theorem CapOpposite.move {eps dist r tol : ℝ} {e0 e1 wA wB : V3 ℝ} {f : Option Feat} (hq : q.lengthSqr = 1) (hV : ∀ w, V (move p q w) ↔ V' w)
    (hn : ∀ w, near (dot (Collide.move p q w) (Quat.rotate q n)) ↔ near' (dot w n))
    (h : CapOpposite eps dist r V' n near' tol e0 e1 wA wB f) :
    CapOpposite eps dist r V (Quat.rotate q n) near tol (Collide.move p q e0) (Collide.move p q e1) (Collide.move p q wA) (Collide.move p q wB) f := by
  have hd : ∀ v w : V3 ℝ, dot (Collide.move p q v - Collide.move p q w) (Quat.rotate q n) = dot (v - w) n := by
    intro v w; rw [move_sub, rotate_dot q hq]
  have hs : ∀ (v w : V3 ℝ) (s : ℝ), v - w = smul s n → Collide.move p q v - Collide.move p q w = smul s (Quat.rotate q n) := by
    intro v w s e; rw [move_sub, e, rotate_smul]
  cases h with
  | ends e s l h1 h2 h3 h4 h5 h6 =>
    refine .ends (Collide.move p q e) s _ (by rcases h1 with rfl | rfl <;> simp) (by rw [hd]; exact h2) (by rw [h3, move_add]) (hs _ _ _ h4) (h5.move hq hV hn) ?_
    intro v w hsd
    obtain ⟨v', w', rfl, rfl, hs'⟩ := side_move hsd
    rw [move_beyond p hq]; exact h6 v' w' hs'
  | sides a0 a1 s t h1 h2 h3 h4 s0 s1 t0 t1 h5 h6 h7 h8 =>
    refine .sides (Collide.move p q a0) (Collide.move p q a1) s t ((hV _).mpr h1) ((hV _).mpr h2) ((hn _).mpr h3) ((hn _).mpr h4) s0 s1 t0 t1
      (by rw [hd]; exact h5) (by rw [h6, move_along]) (by rw [h7, move_add, move_along]) ?_
    rcases h8 with ⟨z, h8⟩ | h8
    · exact .inl ⟨z, hs _ _ _ h8⟩
    · right; rw [move_sub, move_sub, ← rotate_cross q hq, rotate_dot q hq]; exact h8
  | line t h1 h2 h3 h4 =>
    refine .line t ((hV _).mpr h1) (by rw [hd]; exact h2) (by rw [h3, move_add, move_along]) fun u => ?_
    rw [← move_along, ← move_along, move_sub, move_sub, rotate_length q hq, rotate_length q hq]
    exact h4 u
  | hemisphere0 h1 h2 h3 => exact .hemisphere0 (by rw [hd]; exact h1) (by rw [h2, move_add]) (hs _ _ _ h3)
  | hemisphere1 h1 h2 h3 => exact .hemisphere1 (by rw [hd]; exact h1) (by rw [h2, move_add]) (hs _ _ _ h3)

end

/-! ## The shapes seen from the polyhedron -/

/-- The position and the orientation of the capsule seen from the polyhedron. -/
theorem move_back (c : Ctx) (hc : c.Ok) (w : V3 ℝ) :
    move c.posA c.ornA (move (toObjectSpace c.posB c.posA c.ornA) (c.ornA.conjugate * c.ornB) w) = move c.posB c.ornB w := by
  obtain ⟨oA, oB, -⟩ := hc
  unfold move toObjectSpace
  rw [rotate_mul _ _ (conjugate_unit oA) oB, rotate_add, (rotate_conjugate c.ornA oA _).2, (rotate_conjugate c.ornA oA _).2]
  ext <;> simp <;> ring

theorem conj_unit_mul (c : Ctx) (hc : c.Ok) : (c.ornA.conjugate * c.ornB).lengthSqr = 1 := by
  rw [Edyn.Math.lengthSqr_mul, conjugate_unit hc.1, hc.2.1, mul_one]

theorem vertex_back (c : Ctx) (hc : c.Ok) (hl : ℝ) (a : Axis) :
    move c.posA c.ornA (capVertex0 hl a (toObjectSpace c.posB c.posA c.ornA) (c.ornA.conjugate * c.ornB)) = capVertex0 hl a c.posB c.ornB ∧
    move c.posA c.ornA (capVertex1 hl a (toObjectSpace c.posB c.posA c.ornA) (c.ornA.conjugate * c.ornB)) = capVertex1 hl a c.posB c.ornB := by
  have e0 : ∀ pos orn, capVertex0 hl a pos orn = move pos orn (smul hl a.vec) := by
    intro pos orn; unfold capVertex0 move; rw [rotate_smul]
  have e1 : ∀ pos orn, capVertex1 hl a pos orn = move pos orn (smul (-hl) a.vec) := by
    intro pos orn; unfold capVertex1 move; rw [rotate_smul]; ext <;> simp <;> ring
  rw [e0, e0, e1, e1, move_back c hc, move_back c hc]
  exact ⟨rfl, rfl⟩

theorem wB_back (c : Ctx) (hc : c.Ok) (q : V3 ℝ) :
    toWorldSpace (toObjectSpace q (toObjectSpace c.posB c.posA c.ornA) (c.ornA.conjugate * c.ornB)) c.posB c.ornB = move c.posA c.ornA q := by
  have := move_back c hc (toObjectSpace q (toObjectSpace c.posB c.posA c.ornA) (c.ornA.conjugate * c.ornB))
  rw [move_onto _ (conj_unit_mul c hc)] at this
  exact this.symm

theorem hull_low {vs : List (V3 ℝ)} {n : V3 ℝ} {h : ℝ} (hv : ∀ v ∈ vs, h ≤ dot v n) {w : V3 ℝ} (hw : Hull vs w) : h ≤ dot w n := by
  induction hw with
  | vertex hp => exact hv _ hp
  | between t _ _ t0 t1 ih1 ih2 =>
    rw [dot_add_left, dot_smul_left, dot_sub_left]; nlinarith

/-- Separation seen from the polyhedron in terms of the placed shapes. -/
theorem CapSep.gap {m : PMesh} {r hl : ℝ} (hr : 0 ≤ r) (hh : 0 < hl) {a : Axis} {c : Ctx} (hc : c.Ok) {x : Axis4}
    (h : CapSep m.verts (capVertex0 hl a (toObjectSpace c.posB c.posA c.ornA) (c.ornA.conjugate * c.ornB))
      (capVertex1 hl a (toObjectSpace c.posB c.posA c.ornA) (c.ornA.conjugate * c.ornB)) r x) :
    GapAlong (Placed (Hull m.verts) c.posA c.ornA) (Placed (capsuleSet r hl a) c.posB c.ornB) (Quat.rotate c.ornA x.dir) x.dist ∧
    (∃ w, Placed (Hull m.verts) c.posA c.ornA w ∧ dot w (Quat.rotate c.ornA x.dir) = x.projA + dot c.posA (Quat.rotate c.ornA x.dir)) ∧
    (∀ w, Placed (Hull m.verts) c.posA c.ornA w → x.projA + dot c.posA (Quat.rotate c.ornA x.dir) ≤ dot w (Quat.rotate c.ornA x.dir)) := by
  obtain ⟨oA, oB, -⟩ := id hc
  obtain ⟨v, hv, ev⟩ := h.hitA
  obtain ⟨b0, b1⟩ := vertex_back c hc hl a
  have hu : lengthSqr (Quat.rotate c.ornA x.dir) = 1 := rotate_unit oA h.unit
  have pB : IsProjection (tubeSet (capVertex0 hl a c.posB c.ornB) (capVertex1 hl a c.posB c.ornB) r) (Quat.rotate c.ornA x.dir)
      (x.projB + dot c.posA (Quat.rotate c.ornA x.dir)) := by
    have := capsule_support_partial (capVertex0 hl a c.posB c.ornB) (capVertex1 hl a c.posB c.ornB) r hr _ hu
    have e : capsuleProjection (capVertex0 hl a c.posB c.ornB) (capVertex1 hl a c.posB c.ornB) r (Quat.rotate c.ornA x.dir) =
        x.projB + dot c.posA (Quat.rotate c.ornA x.dir) := by
      rw [h.projB]
      unfold capsuleProjection
      rw [← b0, ← b1, move_height _ oA, move_height _ oA, max_add_add_right]; ring
    rwa [e] at this
  have hB : ∀ w, Placed (capsuleSet r hl a) c.posB c.ornB w → tubeSet (capVertex0 hl a c.posB c.ornB) (capVertex1 hl a c.posB c.ornB) r w := by
    intro w hw
    rw [capsule_inflate r hl hh a c.posB oB] at hw
    obtain ⟨k, ⟨t, t0, t1, rfl⟩, hk⟩ := hw
    exact ⟨t, t0, t1, hk⟩
  have hB' : ∀ w, tubeSet (capVertex0 hl a c.posB c.ornB) (capVertex1 hl a c.posB c.ornB) r w → Placed (capsuleSet r hl a) c.posB c.ornB w := by
    rintro w ⟨t, t0, t1, hk⟩
    rw [capsule_inflate r hl hh a c.posB oB]
    exact ⟨_, ⟨t, t0, t1, rfl⟩, hk⟩
  have hA : ∀ w, Placed (Hull m.verts) c.posA c.ornA w → x.projA + dot c.posA (Quat.rotate c.ornA x.dir) ≤ dot w (Quat.rotate c.ornA x.dir) := by
    rintro _ ⟨u, hu, rfl⟩
    have := hull_low h.onA hu
    have e := move_height c.posA oA u x.dir
    unfold move at e
    rw [e]; linarith
  have eA : dot (c.posA + Quat.rotate c.ornA v) (Quat.rotate c.ornA x.dir) = x.projA + dot c.posA (Quat.rotate c.ornA x.dir) := by
    have e := move_height c.posA oA v x.dir
    unfold move at e
    rw [e, ev]
  obtain ⟨⟨w, w1, w2⟩, w3⟩ := pB
  refine ⟨⟨?_, _, w, ⟨v, .vertex hv, rfl⟩, hB' w w1, ?_⟩, ⟨_, ⟨v, .vertex hv, rfl⟩, eA⟩, hA⟩
  · intro s t hs ht
    rw [dot_sub_left, h.dist]; linarith [hA s hs, w3 t (hB t ht)]
  · rw [dot_sub_left, h.dist, eA, w2]; ring

/-- The directions in which the shapes have to be compared: against the normals of the faces of the polyhedron, and from the
axis of the capsule to an edge of the polyhedron, along the step between the points of them which are closest to each
other, turned so that it does not point from the polyhedron to the capsule. -/
inductive CapCompared (tiny : ℝ) (m : PMesh) (hl : ℝ) (a : Axis) (c : Ctx) : V3 ℝ → Prop
  | face {f} : f ∈ m.faces → CapCompared tiny m hl a c (-Quat.rotate c.ornA f.1)
  | edge {e p q k d} : e ∈ m.edges →
      ClosestPair (segSet (c.posA + Quat.rotate c.ornA e.v0) (c.posA + Quat.rotate c.ornA e.v1))
        (segSet (capVertex0 hl a c.posB c.ornB) (capVertex1 hl a c.posB c.ornB)) p q →
      tiny < lengthSqr (p - q) → lengthSqr d = 1 → p - q = smul k d → dot (c.posB - c.posA) d ≤ 0 → (dot (c.posB - c.posA) d = 0 → 0 < k) →
      CapCompared tiny m hl a c d

/-- The edges of the polyhedron are long enough, and parallel to the capsule or clearly not so. -/
def CapClear (eps : ℝ) (m : PMesh) (hl : ℝ) (a : Axis) (c : Ctx) : Prop :=
  ∀ e ∈ m.edges, eps < lengthSqr (e.v1 - e.v0) ∧
    (cross (Quat.rotate c.ornA (e.v1 - e.v0)) (capVertex1 hl a c.posB c.ornB - capVertex0 hl a c.posB c.ornB) = 0 ∨
      eps < lengthSqr (cross (Quat.rotate c.ornA (e.v1 - e.v0)) (capVertex1 hl a c.posB c.ornB - capVertex0 hl a c.posB c.ornB)))

/-- The step between the closest points of two segments does not depend on the choice of the points. -/
theorem closest_step {S T : V3 ℝ → Prop} (hS : Convex S) (hT : Convex T) {a b a' b' : V3 ℝ} (h : ClosestPair S T a b) (h' : ClosestPair S T a' b') :
    a - b = a' - b' := by
  obtain ⟨h1, h2, h3⟩ := h
  obtain ⟨k1, k2, k3⟩ := h'
  have e1 := h3 a' b' k1 k2
  have e2 := k3 a b h1 h2
  have e3 := h3 _ _ (hS a a' h1 k1 (1 / 2) (by norm_num) (by norm_num)) (hT b b' h2 k2 (1 / 2) (by norm_num) (by norm_num))
  have e4 : a + smul (1 / 2) (a' - a) - (b + smul (1 / 2) (b' - b)) = smul (1 / 2) ((a - b) + (a' - b')) := by ext <;> simp <;> ring
  rw [e4] at e3
  generalize a - b = u at *
  generalize a' - b' = v at *
  have key : lengthSqr (u - v) ≤ 0 := by
    have : lengthSqr (u - v) = 2 * lengthSqr u + 2 * lengthSqr v - 4 * lengthSqr (smul (1 / 2) (u + v)) := by
      simp [lengthSqr, dot]; ring
    linarith
  have hx : u.x - v.x = 0 ∧ u.y - v.y = 0 ∧ u.z - v.z = 0 := by
    simp only [lengthSqr, dot, sub_x, sub_y, sub_z] at key
    refine ⟨?_, ?_, ?_⟩ <;> nlinarith [mul_self_nonneg (u.x - v.x), mul_self_nonneg (u.y - v.y), mul_self_nonneg (u.z - v.z)]
  ext <;> linarith [hx.1, hx.2.1, hx.2.2]

theorem closest_move {p : V3 ℝ} {q : Quat ℝ} (hq : q.lengthSqr = 1) {a0 a1 b0 b1 c1 c2 : V3 ℝ} (h : ClosestPair (segSet a0 a1) (segSet b0 b1) c1 c2) :
    ClosestPair (segSet (move p q a0) (move p q a1)) (segSet (move p q b0) (move p q b1)) (move p q c1) (move p q c2) := by
  obtain ⟨⟨s, s0, s1, rfl⟩, ⟨t, t0, t1, rfl⟩, h3⟩ := h
  refine ⟨⟨s, s0, s1, move_along _ _ _ _ _⟩, ⟨t, t0, t1, move_along _ _ _ _ _⟩, ?_⟩
  rintro _ _ ⟨u, u0, u1, rfl⟩ ⟨v, w0, w1, rfl⟩
  rw [← move_along, ← move_along, move_sub, move_sub, rotate_length q hq, rotate_length q hq]
  exact h3 _ _ ⟨u, u0, u1, rfl⟩ ⟨v, w0, w1, rfl⟩

theorem capTowards_of {posB D d : V3 ℝ} {k : ℝ} (hD : 0 < lengthSqr D) (hd : lengthSqr d = 1) (h : D = smul k d) (h1 : dot posB d ≤ 0)
    (h2 : dot posB d = 0 → 0 < k) : capTowards posB D = d := by
  have hk : lengthSqr D = k * k := by
    rw [h, show lengthSqr (smul k d) = k * k * lengthSqr d by simp [lengthSqr, dot]; ring, hd, mul_one]
  have hk0 : k ≠ 0 := by rintro rfl; rw [hk] at hD; simp at hD
  unfold capTowards
  simp only
  rw [hk, Real.sqrt_mul_self_eq_abs]
  rcases lt_or_gt_of_ne hk0 with hneg | hpos
  · have e : smul (1 / |k|) D = -d := by rw [abs_of_neg hneg, h]; ext <;> simp <;> field_simp
    have : dot posB d < 0 := lt_of_le_of_ne h1 fun h0 => by have := h2 h0; linarith
    rw [e, if_pos (by rw [dot_neg_right]; linarith)]; ext <;> simp
  · have e : smul (1 / |k|) D = d := by rw [abs_of_pos hpos, h]; ext <;> simp <;> field_simp
    rw [e, if_neg (not_lt.mpr h1)]

/-- **C95, a polyhedron and a capsule, partial.** For every convex polyhedron and capsule the call is defined.  There is one
direction: the shapes are apart by the distance along it, and not further apart along the normal of any face nor along any
step from the axis of the capsule to the closest point of an edge.  If this distance is beyond the threshold there are no
points and the shapes are not within the threshold; otherwise there are at most four points, all of them are good, and
there is one unless the capsule lies flat and its axis does not clearly meet the feature of the polyhedron.  Missing: that
there is a point whenever the shapes are within the threshold. -/
theorem polyhedron_capsule_partial (K : Consts ℝ) (hK : 0 ≤ K.tiny) (k kh : ℕ) (eps tol : ℝ) (he : 0 ≤ eps) (ht : 0 < tol)
    (m : PMesh) (hm : PolySolid m) (hk : m.verts.length ≤ k) (hkh : m.verts.length < kh) (r hl : ℝ) (hr : 0 ≤ r) (hh : 0 < hl)
    (h4 : eps < 4 * hl * hl) (a : Axis) (c : Ctx) (hc : c.Ok) :
    ∃ l n dist, polyCapsule K k kh eps tol m r hl a c = some l ∧ lengthSqr n = 1 ∧
      GapAlong (Placed (Hull m.verts) c.posA c.ornA) (Placed (capsuleSet r hl a) c.posB c.ornB) n dist ∧
      (CapClear eps m hl a c → ∀ d x, CapCompared K.tiny m hl a c d →
        GapAlong (Placed (Hull m.verts) c.posA c.ornA) (Placed (capsuleSet r hl a) c.posB c.ornB) d x → x ≤ dist) ∧
      (c.thr < dist → l = [] ∧ ¬ Near (Placed (Hull m.verts) c.posA c.ornA) (Placed (capsuleSet r hl a) c.posB c.ornB) c.thr) ∧
      l.length ≤ 4 ∧ (∀ p ∈ l, PolyCapGood eps tol m r hl a c n dist p) ∧
      (dist ≤ c.thr → ∃ lA,
        Feature (Corner m.verts c.posA c.ornA) n (fun h => ∀ w, Placed (Hull m.verts) c.posA c.ornA w → h < dot w n + tol) lA ∧
        (tol ≤ |dot (capVertex0 hl a c.posB c.ornB - capVertex1 hl a c.posB c.ornB) n| ∨ lA.length = 1 ∨
          Meets eps n lA [capVertex0 hl a c.posB c.ornB, capVertex1 hl a c.posB c.ornB] → l ≠ [])) := by
  obtain ⟨oA, oB, ht0⟩ := id hc
  obtain ⟨b0, b1⟩ := vertex_back c hc hl a
  obtain ⟨x, x1, x2, x3, x4⟩ := capAxis_spec hm hk (eps := eps) hK (toObjectSpace c.posB c.posA c.ornA)
    (capVertex0 hl a (toObjectSpace c.posB c.posA c.ornA) (c.ornA.conjugate * c.ornB))
    (capVertex1 hl a (toObjectSpace c.posB c.posA c.ornA) (c.ornA.conjugate * c.ornB)) r
  have hlen := cap_length hl a (toObjectSpace c.posB c.posA c.ornA) (conj_unit_mul c hc)
  have hu : lengthSqr (Quat.rotate c.ornA x.dir) = 1 := rotate_unit oA x2.unit
  obtain ⟨g1, ⟨w0, hw0, ew0⟩, g3⟩ := x2.gap hr hh hc
  have hcmp : CapClear eps m hl a c → ∀ d y, CapCompared K.tiny m hl a c d →
      GapAlong (Placed (Hull m.verts) c.posA c.ornA) (Placed (capsuleSet r hl a) c.posB c.ornB) d y → y ≤ x.dist := by
    intro hcl d y hd hy
    cases hd with
    | face hf =>
      obtain ⟨z, z1, z2, z3⟩ := x3 _ hf
      have := (z1.gap hr hh hc).1
      rw [z2, show Quat.rotate c.ornA (-_) = -Quat.rotate c.ornA _ from rotate_neg c.ornA _] at this
      rw [gap_unique hy this]; exact z3
    | @edge e p q k _ hee hpq htiny hd1 hk1 hd2 hd3 =>
      obtain ⟨l1, l2⟩ := hcl e hee
      rw [← b0, ← b1, move_sub, ← rotate_cross _ oA, rotate_length _ oA] at l2
      have hclose := closest_segments_partial eps he false e.v0 e.v1
        (capVertex0 hl a (toObjectSpace c.posB c.posA c.ornA) (c.ornA.conjugate * c.ornB))
        (capVertex1 hl a (toObjectSpace c.posB c.posA c.ornA) (c.ornA.conjugate * c.ornB)) (.inr l1) (.inr (by rw [hlen]; exact h4))
        (l2.imp (fun h => by
          have := congrArg (Quat.rotate c.ornA.conjugate) h
          rw [(rotate_conjugate c.ornA oA _).1] at this
          rw [this]; ext <;> simp [Quat.rotate]) id)
      obtain ⟨⟨s0, s1⟩, ⟨t0, t1⟩, c1, c2, -, hmin⟩ := hclose
      have x4' := x4 e hee
      generalize hS : closestSegSeg eps false e.v0 e.v1
        (capVertex0 hl a (toObjectSpace c.posB c.posA c.ornA) (c.ornA.conjugate * c.ornB))
        (capVertex1 hl a (toObjectSpace c.posB c.posA c.ornA) (c.ornA.conjugate * c.ornB)) = S at *
      have pair : ClosestPair (segSet e.v0 e.v1) (segSet (capVertex0 hl a (toObjectSpace c.posB c.posA c.ornA) (c.ornA.conjugate * c.ornB))
          (capVertex1 hl a (toObjectSpace c.posB c.posA c.ornA) (c.ornA.conjugate * c.ornB))) S.c1 S.c2 := by
        refine ⟨⟨S.s, s0, s1, c1⟩, ⟨S.t, t0, t1, c2⟩, ?_⟩
        rintro _ _ ⟨u, u0, u1, rfl⟩ ⟨v, w0, w1, rfl⟩
        exact hmin u v u0 u1 w0 w1
      have pair' := closest_move (p := c.posA) oA pair
      rw [b0, b1] at pair'
      have step := closest_step (seg_convex _ _) (seg_convex _ _) hpq pair'
      rw [move_sub] at step
      rw [step, rotate_length _ oA] at htiny
      obtain ⟨z, z1, z2, z3⟩ := x4' htiny
      have hdd : Quat.rotate c.ornA (Quat.rotate c.ornA.conjugate d) = d := (rotate_conjugate c.ornA oA d).2
      have hpd : dot (toObjectSpace c.posB c.posA c.ornA) (Quat.rotate c.ornA.conjugate d) = dot (c.posB - c.posA) d := by
        unfold toObjectSpace; exact rotate_dot _ (conjugate_unit oA) _ _
      have e : capTowards (toObjectSpace c.posB c.posA c.ornA) (S.c1 - S.c2) = Quat.rotate c.ornA.conjugate d := by
        refine capTowards_of (k := k) (lt_of_le_of_lt hK htiny) (rotate_unit (conjugate_unit oA) hd1) ?_ (by rw [hpd]; exact hd2) (by rw [hpd]; exact hd3)
        rw [← rotate_smul, ← hk1, step, (rotate_conjugate c.ornA oA _).1]
      have := (z1.gap hr hh hc).1
      rw [z2, e, hdd] at this
      rw [gap_unique hy this]; exact z3
  unfold polyCapsule
  simp only [x1, Option.bind_some]
  by_cases hd : c.thr < x.dist
  · rw [if_pos hd]
    exact ⟨[], _, x.dist, rfl, hu, g1, hcmp, fun h => ⟨rfl, gap_far hu ht0 g1 h⟩, by simp, by simp, fun h => absurd h (not_le.mpr hd)⟩
  rw [if_neg hd]
  obtain ⟨g, e1, e2⟩ := support_isPolygon (pts := m.verts) (offset := 0) (positive := true) (kh := kh) ht hkh
    (by obtain ⟨v, hv, e⟩ := x2.hitA; exact ⟨v, hv, by rw [show v + 0 = v by ext <;> simp]; exact e⟩)
  simp only [if_true] at e2
  rw [e1, Option.bind_some]
  obtain ⟨l, p1, p2, p3, p4, lA, p5, p6⟩ := capPoints_spec K he ht (posB := toObjectSpace c.posB c.posA c.ornA)
    (ornB := c.ornA.conjugate * c.ornB) (n := Quat.rotate c.ornA x.dir) x2 (by rw [hlen]; exact h4) e2
  have hV : ∀ w, Corner m.verts c.posA c.ornA (move c.posA c.ornA w) ↔ ∃ v ∈ m.verts, w = v + 0 := by
    intro w
    constructor
    · rintro ⟨v, hv, e⟩
      refine ⟨v, hv, ?_⟩
      have : Quat.rotate c.ornA (w - v) = 0 := by
        rw [← move_sub c.posA, e]; unfold move; ext <;> simp
      have := congrArg (Quat.rotate c.ornA.conjugate) this
      rw [(rotate_conjugate c.ornA oA _).1, show Quat.rotate c.ornA.conjugate (0 : V3 ℝ) = 0 by ext <;> simp [Quat.rotate]] at this
      have ex := congrArg V3.x this
      have ey := congrArg V3.y this
      have ez := congrArg V3.z this
      simp only [sub_x, sub_y, sub_z, zero_x, zero_y, zero_z] at ex ey ez
      ext <;> simp <;> linarith
    · rintro ⟨v, hv, rfl⟩
      exact ⟨v, hv, by rw [show v + 0 = v by ext <;> simp]; rfl⟩
  have hN : ∀ w, (∀ w', Placed (Hull m.verts) c.posA c.ornA w' → dot (move c.posA c.ornA w) (Quat.rotate c.ornA x.dir) <
      dot w' (Quat.rotate c.ornA x.dir) + tol) ↔ dot w x.dir < x.projA + tol := by
    intro w
    rw [move_height _ oA]
    constructor
    · intro h; have := h w0 hw0; linarith
    · intro h w' hw'; have := g3 w' hw'; linarith
  refine ⟨l, _, x.dist, p1, hu, g1, hcmp, fun h => absurd h hd, p2, ?_, ?_⟩
  · intro p hp
    obtain ⟨q1, q2, q3, q4, q5, q6, q, q7, q8⟩ := p3 p hp
    have eA : c.wA p = move c.posA c.ornA p.pA := rfl
    have eB : c.wB p = move c.posA c.ornA q := by
      unfold Ctx.wB; rw [q7, wB_back c hc]
    refine ⟨q1, q2, not_lt.mp hd, ⟨w0, hw0, ?_⟩, ?_, ?_, ?_, ?_, q4⟩
    · rw [eA, move_height _ oA, ew0]; linarith
    · rw [eA]; exact (hN _).mpr q6
    · have := q8.move (p := c.posA)
        (near := fun h => ∀ w, Placed (Hull m.verts) c.posA c.ornA w → h < dot w (Quat.rotate c.ornA x.dir) + tol) oA hV hN
      rw [b0, b1] at this
      rw [eA, eB]; exact this
    · intro hatt
      rw [q3] at hatt
      split at hatt
      · rename_i h
        obtain ⟨lo, ho⟩ := p4 h
        exact ⟨_, ho.move oA hV hN⟩
      · simp at hatt
    · rw [q3]; split <;> simp
  · intro _
    refine ⟨_, p5.move oA hV hN, ?_⟩
    rintro (h | h | h)
    · apply p6
      left
      rw [← b0, ← b1, move_sub, rotate_dot _ oA] at h
      exact h
    · apply p6; right; left; rwa [List.length_map] at h
    · apply p6; right; right
      rw [← b0, ← b1] at h
      exact Meets.move (lB := [_, _]) oA h

end Edyn.Collide
