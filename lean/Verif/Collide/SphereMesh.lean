import Verif.Collide.SphereTri

/-!
# Contact points of spheres with triangle meshes: what holds (C88)
-/

namespace Edyn.Collide

open Edyn.Math hiding lengthSqr_nonneg
open V3 Edyn.Geom Edyn.Contact

section
variable {eps tiny tol thick r : ℝ} {T : Facet} {c : Ctx} {w : Fin 3 → ℝ}

theorem triFeature_index (v : Fin 3 → V3 ℝ) (o d : V3 ℝ) (tol : ℝ) : (triFeature v o d tol).index < 3 := by
  unfold triFeature
  generalize dot (v 0 - o) d = a
  generalize dot (v 1 - o) d = b
  generalize dot (v 2 - o) d = k
  unfold triStep
  by_cases h1 : |b - a| < tol
  · by_cases h2 : |k - max b a| < tol
    · simp [h1, h2]
    · by_cases h3 : max b a < k <;> simp [h1, h2, h3]
  · by_cases h2 : a < b
    · by_cases h3 : |k - b| < tol
      · simp [h1, h2, h3]
      · by_cases h4 : b < k <;> simp [h1, h2, h3, h4]
    · by_cases h3 : |k - a| < tol
      · simp [h1, h2, h3]
      · by_cases h4 : a < k <;> simp [h1, h2, h3, h4]

theorem corner_val {i : ℕ} (h : i < 3) : (corner i).val = i := Nat.mod_eq_of_lt h

/-- Which vertices a feature has, in terms of the corner. -/
theorem triPart_edge {i : ℕ} (h : i < 3) (k : Fin 3) : TriPart .edge i k ↔ k = corner i ∨ k = corner i + 1 := by
  have : i = 0 ∨ i = 1 ∨ i = 2 := by omega
  rcases this with rfl | rfl | rfl <;> fin_cases k <;> simp [TriPart, corner, Fin.ofNat, Fin.ext_iff]

theorem triPart_vertex {i : ℕ} (h : i < 3) (k : Fin 3) : TriPart .vertex i k ↔ k = corner i := by
  have : i = 0 ∨ i = 1 ∨ i = 2 := by omega
  rcases this with rfl | rfl | rfl <;> fin_cases k <;> simp [TriPart, corner, Fin.ofNat, Fin.ext_iff]

/-- Two of the weights are positive: the point is between these vertices. -/
theorem Facet.at_edge {k : Fin 3} (hs : w 0 + w 1 + w 2 = 1) (hz : w (k + 2) = 0) :
    T.at w = T.v k + smul (w (k + 1)) (T.v (k + 1) - T.v k) := by
  unfold Facet.at
  fin_cases k
  · have hk' : w 2 = 0 := hz
    have : w 0 = 1 - w 1 := by linarith
    show _ = T.v 0 + smul (w 1) (T.v 1 - T.v 0)
    rw [hk', this]; ext <;> simp <;> ring
  · have hk' : w 0 = 0 := hz
    have : w 1 = 1 - w 2 := by linarith
    show _ = T.v 1 + smul (w 2) (T.v 2 - T.v 1)
    rw [hk', this]; ext <;> simp <;> ring
  · have hk' : w 1 = 0 := hz
    have : w 2 = 1 - w 0 := by linarith
    show _ = T.v 2 + smul (w 0) (T.v 0 - T.v 2)
    rw [hk', this]; ext <;> simp <;> ring

theorem Facet.sum_at (k : Fin 3) : w 0 + w 1 + w 2 = w k + w (k + 1) + w (k + 2) := by
  fin_cases k
  · rfl
  · show _ = w 1 + w 2 + w 0; ring
  · show _ = w 2 + w 0 + w 1; ring

/-- If every vertex is level with `x` or at least twice the tolerance below it, and one is level with it, the
feature consists of the vertices which are level with it. -/
theorem tri_feature_clear (v : Fin 3 → V3 ℝ) (o d : V3 ℝ) {tol x : ℝ} (ht : 0 < tol)
    (h : ∀ k, dot (v k - o) d = x ∨ dot (v k - o) d + 2 * tol ≤ x) (hx : ∃ k, dot (v k - o) d = x) :
    (triFeature v o d tol).proj = x ∧
    ∀ k, TriPart (triFeature v o d tol).feat (triFeature v o d tol).index k ↔ dot (v k - o) d = x := by
  have ex3 : ∀ P : Fin 3 → Prop, (∃ a, P a) ↔ P 0 ∨ P 1 ∨ P 2 := fun P => Fin.exists_fin_succ.trans (by
    simp [Fin.exists_fin_succ])
  rw [all3] at h ⊢
  rw [ex3] at hx
  unfold triFeature
  revert h hx
  generalize dot (v 0 - o) d = a
  generalize dot (v 1 - o) d = b
  generalize dot (v 2 - o) d = k
  intro h hx
  have e1 : triStep tol 1 b ⟨.vertex, 0, a⟩ = if |b - a| < tol then ⟨.edge, 0, max b a⟩ else
      if a < b then ⟨.vertex, 1, b⟩ else ⟨.vertex, 0, a⟩ := rfl
  rw [e1]
  by_cases h1 : |b - a| < tol
  · rw [if_pos h1]
    have e2 : triStep tol 2 k ⟨.edge, 0, max b a⟩ = if |k - max b a| < tol then ⟨.face, 0, max k (max b a)⟩ else
        if max b a < k then ⟨.vertex, 2, k⟩ else ⟨.edge, 0, max b a⟩ := rfl
    rw [e2]
    clear e1 e2
    rcases le_total a b with hab | hab
    · rw [max_eq_left hab]
      split_ifs with h2 h3 <;> simp [TriPart] <;> (try and_intros) <;> grind [abs_lt]
    · rw [max_eq_right hab]
      split_ifs with h2 h3 <;> simp [TriPart] <;> (try and_intros) <;> grind [abs_lt]
  · rw [if_neg h1]
    by_cases h2 : a < b
    · rw [if_pos h2]
      have e2 : triStep tol 2 k ⟨.vertex, 1, b⟩ = if |k - b| < tol then ⟨.edge, 1, b⟩ else
          if b < k then ⟨.vertex, 2, k⟩ else ⟨.vertex, 1, b⟩ := rfl
      rw [e2]
      split_ifs with h3 h4 <;> simp [TriPart] <;> (try and_intros) <;> grind [abs_lt]
    · rw [if_neg h2]
      have e2 : triStep tol 2 k ⟨.vertex, 0, a⟩ = if |k - a| < tol then ⟨.edge, 2, a⟩ else
          if a < k then ⟨.vertex, 2, k⟩ else ⟨.vertex, 0, a⟩ := rfl
      rw [e2]
      split_ifs with h3 h4 <;> simp [TriPart] <;> (try and_intros) <;> grind [abs_lt]

/-! ## The point for the closest feature -/

/-- The closest point is inside of the closest feature: every vertex of the triangle has a positive weight or is
further down along the direction than the tolerances. -/
def Facet.Clear (tol : ℝ) (T : Facet) (p : V3 ℝ) (w : Fin 3 → ℝ) : Prop :=
  ∀ k, 0 < w k ∨ dot (T.v k) (towards p (T.at w)) + 2 * tol ≤ dot (T.at w) (towards p (T.at w))

/-- At every edge of the triangle which has the closest point, the face on the other side bends away, and the
direction to the centre is not beyond the normal of that face. -/
def Facet.Facing (T : Facet) (p : V3 ℝ) (w : Fin 3 → ℝ) : Prop :=
  ∀ k, w (k + 2) = 0 → dot T.n (cross (T.v (k + 1) - T.v k) (T.adj k)) < 0 ∧
    dot (towards p (T.at w)) (cross (T.v (k + 1) - T.v k) (T.adj k)) ≤ 0

theorem feature_clear (ht : 0 < tol) {p : V3 ℝ} (h : T.Nearest p w) (hp : 0 < lengthSqr (p - T.at w))
    (hc : T.Clear tol p w) :
    (triFeature T.v 0 (towards p (T.at w)) tol).proj = dot (T.at w) (towards p (T.at w)) ∧
    ∀ k, TriPart (triFeature T.v 0 (towards p (T.at w)) tol).feat (triFeature T.v 0 (towards p (T.at w)) tol).index k ↔
      0 < w k := by
  set d := towards p (T.at w) with hd
  have z : ∀ k, dot (T.v k - 0) d = dot (T.v k) d := by intro k; simp [dot]
  have level : ∀ k, 0 < w k → dot (T.v k) d = dot (T.at w) d := fun k hk => h.level hp hk
  have le : ∀ j, dot (T.v j) d ≤ dot (T.at w) d := fun j => (h.extreme hp).2 _ (T.has_vertex j)
  obtain ⟨m, hm⟩ : ∃ m, 0 < w m := by
    by_contra hno
    push Not at hno
    have := h.sum
    linarith [hno 0, hno 1, hno 2]
  have key := tri_feature_clear T.v 0 d (x := dot (T.at w) d) ht
    (fun k => by
      rw [z]
      rcases hc k with hk | hk
      · exact .inl (level k hk)
      · exact .inr hk)
    ⟨m, by rw [z]; exact level m hm⟩
  refine ⟨key.1, fun k => (key.2 k).trans ?_⟩
  rw [z]
  refine ⟨fun e => ?_, level k⟩
  rcases hc k with hk | hk
  · exact hk
  · exfalso
    rw [← hd] at hk
    linarith

/-- **C88, the contact of a sphere with a triangle, partial.** Let the centre of the sphere be in front of the
triangle, or its closest point on an edge.  If the closest point is inside of the closest feature, by the
tolerance, and the faces on the other side of the edges which have the closest point face away, then a point is
added exactly when the sphere is within the threshold and not deeper than the thickness of the mesh; the point is
good: it goes from the closest point of the triangle to the closest point of the sphere. -/
theorem sphere_triangle_partial (he : 0 < eps) (htn : 0 ≤ tiny) (ht : 0 < tol) (hr : 0 < r) (hT : T.Ok eps)
    (hc : c.Fixed) (h : T.Nearest c.posA w) (hp : tiny < lengthSqr (c.posA - T.at w))
    (hside : (∃ i, w i = 0) ∨ 0 ≤ dot (c.posA - T.v 0) T.n) (hclear : T.Clear tol c.posA w) (hface : T.Facing c.posA w) :
    ∃ o, sphereTriangle eps tiny tol thick r T c = some o ∧
      (o ≠ none ↔ Real.sqrt (lengthSqr (c.posA - T.at w)) - r ≤ c.thr ∧
        -thick ≤ Real.sqrt (lengthSqr (c.posA - T.at w)) - r) ∧
      ∀ pt, o = some pt → Good (Placed (ballSet r) c.posA c.ornA) T.tri.Has c pt ∧ c.wB pt = T.at w ∧
        pt.n = towards c.posA (T.at w) ∧ pt.dist = Real.sqrt (lengthSqr (c.posA - T.at w)) - r := by
  obtain ⟨⟨oA, oB, hthr⟩, pB, qB⟩ := hc
  have hp0 := lt_of_le_of_lt htn hp
  set d := towards c.posA (T.at w) with hd
  set L := Real.sqrt (lengthSqr (c.posA - T.at w)) with hL
  have hLp : 0 < L := Real.sqrt_pos.2 hp0
  have hu : lengthSqr d = 1 := towards_unit hp0
  have hstep : c.posA - T.at w = smul L d := towards_smul hp0
  obtain ⟨hproj, hpart⟩ := feature_clear ht h hp0 hclear
  rw [← hd] at hproj hpart
  set s := triFeature T.v 0 d tol with hs
  have hidx : s.index < 3 := triFeature_index _ _ _ _
  have hsum := h.sum
  -- the face: the direction is the normal
  have faceN : s.feat = .face → d = T.n := by
    intro hf
    rw [hf] at hpart
    have hall : ∀ k, 0 < w k := fun k => (hpart k).1 trivial
    have l0 := h.level hp0 (hall 0)
    have l1 := h.level hp0 (hall 1)
    have l2 := h.level hp0 (hall 2)
    have dir := T.level_normal hT.normal hu (l1.trans l0.symm) (l2.trans l0.symm)
    have hn0 : 0 ≤ dot (c.posA - T.v 0) T.n := hside.resolve_left (by
      rintro ⟨i, hi⟩
      exact absurd hi (hall i).ne')
    set m := dot d T.n with hm
    have hmm : m * m = 1 := by
      have h1 := hu
      rw [dir] at h1
      have : lengthSqr (smul m T.n) = m * m * lengthSqr T.n := by simp [lengthSqr, dot]; ring
      rw [this, hT.normal.1, mul_one] at h1
      exact h1
    have hplane : dot (c.posA - T.v 0) T.n = L * m := by
      have pl := tri_plane hT.normal _ h.has
      have e1 : dot (c.posA - T.v 0) T.n = dot (c.posA - T.at w) T.n := by
        rw [dot_sub_left, dot_sub_left, pl]; rfl
      rw [e1, hstep, dot_smul_left]
    rw [hplane] at hn0
    have hm0 : 0 ≤ m := by
      by_contra hcon
      push Not at hcon
      nlinarith
    have hm1 : m = 1 := by nlinarith
    rw [dir, hm1]
    ext <;> simp
  -- the axis is kept
  have hclip : triClip d T.adj T.v T.n s.feat (corner s.index) = d := by
    cases hf : s.feat with
    | face => simp only [triClip]; exact (faceN hf).symm
    | edge =>
      rw [hf] at hpart
      have hz : w (corner s.index + 2) = 0 := by
        have : ¬ 0 < w (corner s.index + 2) := by
          rw [← hpart, triPart_edge hidx]
          generalize corner s.index = k
          fin_cases k <;> simp
        exact le_antisymm (not_lt.1 this) (h.nonneg _)
      obtain ⟨f1, f2⟩ := hface _ hz
      simp only [triClip]
      rw [if_neg (by simpa using f1), if_neg (not_lt.2 f2)]
    | vertex =>
      rw [hf] at hpart
      have hz1 : w (corner s.index + 1) = 0 := by
        have : ¬ 0 < w (corner s.index + 1) := by
          rw [← hpart, triPart_vertex hidx]
          generalize corner s.index = k
          fin_cases k <;> simp
        exact le_antisymm (not_lt.1 this) (h.nonneg _)
      have hz2 : w (corner s.index + 2) = 0 := by
        have : ¬ 0 < w (corner s.index + 2) := by
          rw [← hpart, triPart_vertex hidx]
          generalize corner s.index = k
          fin_cases k <;> simp
        exact le_antisymm (not_lt.1 this) (h.nonneg _)
      obtain ⟨f1, f2⟩ := hface _ hz2
      obtain ⟨g1, g2⟩ := hface (corner s.index + 2) (by
        rw [← hz1]
        congr 1
        generalize corner s.index = k
        fin_cases k <;> rfl)
      simp only [triClip]
      rw [if_neg (not_not.2 f1), if_neg (not_lt.2 f2), if_neg (not_not.2 g1), if_neg (not_lt.2 g2)]
      simp
  have hdist : -(dot c.posA (-d) + r) - s.proj = L - r := by
    rw [hproj, dot_neg_right]
    have := towards_dot hp0
    rw [dot_sub_left, ← hL, ← hd] at this
    linarith
  have run : sphereTriangle eps tiny tol thick r T c =
      if c.thr < L - r then some none else if thick < -(L - r) then some none else spherePoint eps r T c d (L - r) s := by
    unfold sphereTriangle
    rw [sphere_axis_nearest he.le htn hT h hp hside, Option.bind_some]
    simp only
    rw [← hd, ← hs, hclip, ← hs, hdist, ← hL]
    by_cases h1 : c.thr < L - r
    · rw [if_pos h1, if_pos h1]
    · rw [if_neg h1, if_neg h1]
  -- the point
  have wB : ∀ (pA n : V3 ℝ) (x : ℝ) (att : Att) (fA fB : Option Feat), c.wB ⟨pA, T.at w, n, x, att, fA, fB⟩ = T.at w := by
    intro pA n x att fA fB
    simp only [Ctx.wB, toWorldSpace, pB, qB]
    rw [rotate_one]
    ext <;> simp
  have good : ∀ (att : Att) (fA fB : Option Feat),
      Good (Placed (ballSet r) c.posA c.ornA) T.tri.Has c
        ⟨Quat.rotate c.ornA.conjugate (smul r (-d)), T.at w, d, L - r, att, fA, fB⟩ := by
    intro att fA fB
    have eA : c.wA ⟨Quat.rotate c.ornA.conjugate (smul r (-d)), T.at w, d, L - r, att, fA, fB⟩ = c.posA + smul r (-d) := by
      simp only [Ctx.wA]
      exact world_rotated c.posA (smul r (-d)) oA
    refine ⟨hu, ?_, ?_, ?_⟩
    · rw [eA, ball_inflate r c.posA oA]
      exact inflate_extreme hr.le (neg_unit hu) (point_extreme c.posA (-d))
    · rw [wB]; exact h.extreme hp0
    · rw [eA, wB]
      have e1 := congrArg V3.x hstep
      have e2 := congrArg V3.y hstep
      have e3 := congrArg V3.z hstep
      simp only [sub_x, sub_y, sub_z, smul_x, smul_y, smul_z] at e1 e2 e3
      ext <;> simp <;> linarith
  have point : ∃ att, spherePoint eps r T c d (L - r) s =
      some (some ⟨Quat.rotate c.ornA.conjugate (smul r (-d)), T.at w, d, L - r, att, none, some (T.feature s)⟩) := by
    cases hf : s.feat with
    | face =>
      have hdn := faceN hf
      refine ⟨.onB, ?_⟩
      unfold spherePoint
      simp only [hf]
      have foot : c.posA + smul (-L) T.n = T.at w := by
        rw [← hdn]
        have e1 := congrArg V3.x hstep
        have e2 := congrArg V3.y hstep
        have e3 := congrArg V3.z hstep
        simp only [sub_x, sub_y, sub_z, smul_x, smul_y, smul_z] at e1 e2 e3
        ext <;> simp <;> linarith
      have hin : pointInTriangle eps T.tri T.n c.posA :=
        (point_in_triangle eps he T.tri T.n c.posA hT.normal hT.area T.n (.inl rfl)).1 (-L) (by rw [foot]; exact h.has)
      have hproj2 : projectPlane c.posA (T.v 0) T.n = T.at w := by
        have pl := tri_plane hT.normal _ h.has
        have e1 : dot (c.posA - T.v 0) T.n = L := by
          have : dot (c.posA - T.v 0) T.n = dot (c.posA - T.at w) T.n := by
            rw [dot_sub_left, dot_sub_left, pl]; rfl
          rw [this, hstep, hdn, dot_smul_left, show dot T.n T.n = 1 from hT.normal.1, mul_one]
        rw [← foot]
        unfold projectPlane
        rw [dot_comm] at e1
        ext <;> simp [e1, dot_comm] <;> ring
      rw [if_pos hin, hproj2, ← hdn]
    | edge =>
      rw [hf] at hpart
      have hz : w (corner s.index + 2) = 0 := by
        have : ¬ 0 < w (corner s.index + 2) := by
          rw [← hpart, triPart_edge hidx]
          generalize corner s.index = k
          fin_cases k <;> simp
        exact le_antisymm (not_lt.1 this) (h.nonneg _)
      have p0 : 0 < w (corner s.index) := (hpart _).1 ((triPart_edge hidx _).2 (.inl rfl))
      have p1 : 0 < w (corner s.index + 1) := (hpart _).1 ((triPart_edge hidx _).2 (.inr rfl))
      refine ⟨.none, ?_⟩
      unfold spherePoint
      simp only [hf]
      have l0 := h.level hp0 p0
      have l1 := h.level hp0 p1
      have hat := T.at_edge (k := corner s.index) hsum hz
      have hsk := hsum
      rw [Facet.sum_at (corner s.index), hz] at hsk
      have hedge := hT.edges (corner s.index)
      generalize corner s.index = k at *
      have hb : 0 < dot (T.v (k + 1) - T.v k) (T.v (k + 1) - T.v k) := lt_trans he hedge
      have ht' : dot (c.posA - T.v k) (T.v (k + 1) - T.v k) / dot (T.v (k + 1) - T.v k) (T.v (k + 1) - T.v k) =
          w (k + 1) := by
        have perp : dot d (T.v (k + 1) - T.v k) = 0 := by
          rw [dot_comm, dot_sub_left, l0, l1, sub_self]
        have e1 : c.posA - T.v k = smul L d + smul (w (k + 1)) (T.v (k + 1) - T.v k) := by
          rw [← hstep, hat]; ext <;> simp <;> ring
        rw [e1, dot_add_left, dot_smul_left, dot_smul_left, perp]
        field_simp
        ring
      unfold closestLine
      simp only
      rw [if_pos (show eps < dot (T.v (k + 1) - T.v k) (T.v (k + 1) - T.v k) from hedge), Option.map_some, ht', if_pos ⟨p1, by linarith⟩, ← hat]
    | vertex =>
      rw [hf] at hpart
      have hz1 : w (corner s.index + 1) = 0 := by
        have : ¬ 0 < w (corner s.index + 1) := by
          rw [← hpart, triPart_vertex hidx]
          generalize corner s.index = k
          fin_cases k <;> simp
        exact le_antisymm (not_lt.1 this) (h.nonneg _)
      have hz2 : w (corner s.index + 2) = 0 := by
        have : ¬ 0 < w (corner s.index + 2) := by
          rw [← hpart, triPart_vertex hidx]
          generalize corner s.index = k
          fin_cases k <;> simp
        exact le_antisymm (not_lt.1 this) (h.nonneg _)
      refine ⟨.none, ?_⟩
      have hat := T.at_edge (k := corner s.index) hsum hz2
      unfold spherePoint
      simp only [hf]
      rw [hat, hz1]
      congr 3
      ext <;> simp
  obtain ⟨att, hpoint⟩ := point
  rw [run]
  by_cases h1 : c.thr < L - r
  · rw [if_pos h1]
    exact ⟨none, rfl, by simp; intro; linarith, by simp⟩
  · rw [if_neg h1]
    by_cases h2 : thick < -(L - r)
    · rw [if_pos h2]
      exact ⟨none, rfl, by simp; intro; linarith, by simp⟩
    · rw [if_neg h2, hpoint]
      refine ⟨_, rfl, ?_, ?_⟩
      · simp only [ne_eq, reduceCtorEq, not_false_eq_true, true_iff]
        exact ⟨not_lt.1 h1, by linarith⟩
      · rintro pt hpt
        obtain rfl := Option.some.inj hpt
        exact ⟨good _ _ _, wB _ _ _ _ _ _, rfl, rfl⟩

/-- **C88, no contact from a distance.** A sphere whose centre is in front of the triangle, or whose closest point
of the triangle is on an edge, gets no point if it is farther away than the threshold. -/
theorem sphere_triangle_far (he : 0 ≤ eps) (htn : 0 ≤ tiny) (hT : T.Ok eps) (h : T.Nearest c.posA w)
    (hp : tiny < lengthSqr (c.posA - T.at w)) (hside : (∃ i, w i = 0) ∨ 0 ≤ dot (c.posA - T.v 0) T.n)
    (hfar : r + c.thr < Real.sqrt (lengthSqr (c.posA - T.at w))) :
    sphereTriangle eps tiny tol thick r T c = some none := by
  unfold sphereTriangle
  rw [sphere_axis_nearest he htn hT h hp hside, Option.bind_some]
  simp only
  rw [if_pos (by linarith)]

/-- What holds for every point which is added for a triangle: the normal is a unit vector; the pivot on the sphere is
the point of it furthest against the normal; the distance is at most the threshold and not deeper than the thickness.
For an edge or a vertex the other pivot is a point of it and the distance is that of the pivots along the normal up
to twice the tolerance.  For the face the normal is that of the triangle, the other pivot is the projection of the
centre onto the plane, which is not farther outside of an edge than the tolerance over its length. -/
structure FromTri (eps tol thick r : ℝ) (T : Facet) (c : Ctx) (p : Point) : Prop where
  unit : lengthSqr p.n = 1
  onA : Extreme (Placed (ballSet r) c.posA c.ornA) (-p.n) (c.wA p)
  upper : p.dist ≤ c.thr
  lower : -thick ≤ p.dist
  place : (p.att = .none ∧ (∃ i, (p.fB = some ⟨.triVertex, some (T.vert i)⟩ ∧ c.wB p = T.v i) ∨
        (p.fB = some ⟨.triEdge, some (T.edge i)⟩ ∧ ∃ t, 0 < t ∧ t < 1 ∧ c.wB p = T.v i + smul t (T.v (i + 1) - T.v i))) ∧
      dot (c.wA p - c.wB p) p.n - 2 * tol < p.dist ∧ p.dist < dot (c.wA p - c.wB p) p.n + 2 * tol) ∨
    (p.att = .onB ∧ p.fB = some ⟨.triFace, some T.id⟩ ∧ p.n = T.n ∧ dot (c.wB p - T.v 0) T.n = 0 ∧
      c.posA - c.wB p = smul (dot (c.posA - T.v 0) T.n) T.n ∧
      (∀ i, dot (c.wB p - T.v i) (cross (T.v (i + 1) - T.v i) T.n) < eps))

theorem clip_unit {adj v : Fin 3 → V3 ℝ} {sep n : V3 ℝ} (hs : lengthSqr sep = 1) (hn : lengthSqr n = 1)
    (ha : ∀ i, lengthSqr (adj i) = 1) (k : TriFeat) (i : Fin 3) : lengthSqr (triClip sep adj v n k i) = 1 := by
  rcases (tri_clip_spec sep adj v n k i).1 with h | h | ⟨-, h⟩ | ⟨-, h⟩ <;> rw [h]
  · exact hs
  · exact hn
  · exact ha _
  · exact ha _

/-- **C88, every contact of a sphere with a triangle.** -/
theorem sphere_triangle_sound (he : 0 < eps) (htn : 0 ≤ tiny) (ht : 0 < tol) (hr : 0 < r) (hT : T.Ok eps)
    (hc : c.Fixed) : ∃ o, sphereTriangle eps tiny tol thick r T c = some o ∧
      ∀ p, o = some p → FromTri eps tol thick r T c p := by
  obtain ⟨⟨oA, oB, hthr⟩, pB, qB⟩ := hc
  obtain ⟨x, a, ea, ua, -⟩ := sphereAxis_spec (p := c.posA) (r := r) he.le htn hT
  unfold sphereTriangle
  rw [ea, Option.bind_some]
  simp only
  by_cases h0 : c.thr < x
  · rw [if_pos h0]; exact ⟨none, rfl, by simp⟩
  rw [if_neg h0]
  have hu := clip_unit (v := T.v) ua hT.normal.1 hT.adj (triFeature T.v 0 a tol).feat
    (corner (triFeature T.v 0 a tol).index)
  generalize triClip a T.adj T.v T.n (triFeature T.v 0 a tol).feat (corner (triFeature T.v 0 a tol).index) = d at hu ⊢
  have hidx := triFeature_index T.v 0 d tol
  obtain ⟨⟨k0, hk0⟩, hmax, hnear, -⟩ := tri_feature_partial T.v 0 d tol ht
  have z : ∀ k, dot (T.v k - 0) d = dot (T.v k) d := by intro k; simp [dot]
  simp only [z] at hk0 hmax hnear
  generalize triFeature T.v 0 d tol = s at hidx hk0 hmax hnear ⊢
  set dist := -(dot c.posA (-d) + r) - s.proj with hdist
  by_cases h1 : c.thr < dist
  · rw [if_pos h1]; exact ⟨none, rfl, by simp⟩
  rw [if_neg h1]
  by_cases h2 : thick < -dist
  · rw [if_pos h2]; exact ⟨none, rfl, by simp⟩
  rw [if_neg h2]
  push Not at h1 h2
  have wB : ∀ (p : Point), c.wB p = p.pB := by
    intro p
    simp only [Ctx.wB, toWorldSpace, pB, qB]
    rw [rotate_one]
    ext <;> simp
  have wA : ∀ (n q : V3 ℝ) (x : ℝ) (att : Att) (fA fB : Option Feat),
      c.wA ⟨Quat.rotate c.ornA.conjugate (smul r (-n)), q, n, x, att, fA, fB⟩ = c.posA + smul r (-n) := by
    intro n q x att fA fB
    simp only [Ctx.wA]
    exact world_rotated c.posA (smul r (-n)) oA
  have ext : ∀ n, lengthSqr n = 1 → Extreme (Placed (ballSet r) c.posA c.ornA) (-n) (c.posA + smul r (-n)) := by
    intro n hn
    rw [ball_inflate r c.posA oA]
    exact inflate_extreme hr.le (neg_unit hn) (point_extreme c.posA (-n))
  -- the distance of the pivots along the normal
  have gap : ∀ q : V3 ℝ, (∀ j, dot (T.v j) d - 2 * tol < dot q d) → (∃ j, dot q d ≤ dot (T.v j) d) →
      dot (c.posA + smul r (-d) - q) d - 2 * tol < dist ∧ dist < dot (c.posA + smul r (-d) - q) d + 2 * tol := by
    intro q lo ⟨j, up⟩
    have e : dot (c.posA + smul r (-d) - q) d = dot c.posA d - r - dot q d := by
      rw [dot_sub_left, dot_add_left, dot_smul_left, dot_neg_left, show dot d d = 1 from hu]; ring
    rw [e, hdist, dot_neg_right]
    have l0 := lo k0
    have l1 := hmax j
    constructor <;> linarith
  unfold spherePoint
  cases hf : s.feat with
  | face =>
    simp only
    refine ⟨_, rfl, ?_⟩
    intro p hp
    by_cases hin : pointInTriangle eps T.tri T.n c.posA
    · rw [if_pos hin] at hp
      obtain rfl := Option.some.inj hp
      have hin' := (point_in_triangle eps he T.tri T.n c.posA hT.normal hT.area T.n (.inl rfl)).2 hin
      have hnn : dot T.n T.n = 1 := hT.normal.1
      have foot : projectPlane c.posA (T.v 0) T.n = c.posA - smul (dot (c.posA - T.v 0) T.n) T.n := by
        unfold projectPlane
        ext <;> simp [dot] <;> ring
      have pl : ∀ i, dot (T.v i) T.n = dot (T.v 0) T.n := fun i => tri_plane hT.normal _ (T.has_vertex i)
      refine ⟨hT.normal.1, ?_, h1, by linarith, .inr ⟨rfl, ?_, rfl, ?_, ?_, ?_⟩⟩
      · rw [wA]; exact ext _ hT.normal.1
      · simp [Facet.feature, hf]
      · rw [wB]
        simp only
        rw [foot, dot_sub_left, dot_sub_left, dot_smul_left, hnn, dot_sub_left]; ring
      · rw [wB]
        simp only
        rw [foot]; ext <;> simp
      · intro i
        rw [wB]
        simp only
        rw [foot]
        have e : dot (c.posA - smul (dot (c.posA - T.v 0) T.n) T.n - T.v i) (cross (T.v (i + 1) - T.v i) T.n) =
            dot (c.posA - T.v i) (cross (T.v (i + 1) - T.v i) T.n) := by
          have p0 : dot T.n (cross (T.v (i + 1) - T.v i) T.n) = 0 := by simp [dot, cross]; ring
          simp only [dot_sub_left, dot_smul_left, p0]; ring
        rw [e]
        obtain ⟨a0, a1, a2⟩ := hin'
        fin_cases i
        · exact a0
        · exact a1
        · exact a2
    · rw [if_neg hin] at hp
      simp at hp
  | edge =>
    simp only
    rw [hf] at hnear
    have n0 := hnear _ ((triPart_edge hidx _).2 (.inl rfl))
    have n1 := hnear _ ((triPart_edge hidx _).2 (.inr rfl))
    have hfe : T.feature s = ⟨.triEdge, some (T.edge (corner s.index))⟩ := by simp [Facet.feature, hf]
    rw [hfe]
    have hedge := hT.edges (corner s.index)
    generalize corner s.index = k at *
    obtain ⟨q, hq, hqq, -⟩ := closest_line_spec eps he.le (T.v k) (T.v (k + 1) - T.v k) c.posA hedge
    rw [hq, Option.map_some]
    refine ⟨_, rfl, ?_⟩
    intro p hp
    by_cases hin : 0 < q.t ∧ q.t < 1
    · rw [if_pos hin] at hp
      obtain rfl := Option.some.inj hp
      refine ⟨hu, by rw [wA]; exact ext _ hu, h1, by linarith, .inl ⟨rfl, ⟨k, .inr ⟨rfl, q.t, hin.1, hin.2, ?_⟩⟩, ?_⟩⟩
      · rw [wB]; exact hqq
      · rw [wA, wB]
        simp only
        have e : dot q.q d = dot (T.v k) d + q.t * (dot (T.v (k + 1)) d - dot (T.v k) d) := by
          rw [hqq, dot_add_left, dot_smul_left, dot_sub_left]
        refine gap _ (fun j => ?_) ?_
        · rw [e]
          have a0 := n0 j
          have a1 := n1 j
          nlinarith [hin.1, hin.2]
        · rw [e]
          rcases le_total (dot (T.v k) d) (dot (T.v (k + 1)) d) with hle | hle
          · exact ⟨k + 1, by nlinarith [hin.1, hin.2]⟩
          · exact ⟨k, by nlinarith [hin.1, hin.2]⟩
    · rw [if_neg hin] at hp
      simp at hp
  | vertex =>
    simp only
    rw [hf] at hnear
    have n0 := hnear _ ((triPart_vertex hidx _).2 rfl)
    refine ⟨_, rfl, ?_⟩
    intro p hp
    obtain rfl := Option.some.inj hp
    refine ⟨hu, by rw [wA]; exact ext _ hu, h1, by linarith, .inl ⟨rfl, ⟨corner s.index, .inl ⟨?_, ?_⟩⟩, ?_⟩⟩
    · simp [Facet.feature, hf]
    · rw [wB]
    · rw [wA, wB]
      exact gap _ n0 ⟨_, le_rfl⟩

end

end Edyn.Collide
