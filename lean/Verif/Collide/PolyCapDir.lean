import Verif.Collide.PolyCapsule

/-!
# Contacts between a polyhedron and a capsule: the direction and the points (C95)
-/

namespace Edyn.Collide

open Edyn.Math hiding lengthSqr_nonneg
open V3 Edyn.Geom Edyn.Geom.Poly Edyn.Contact

/-- The direction is a unit vector and the projections are those of the two shapes. -/
structure CapSep (vs : List (V3 ℝ)) (v0 v1 : V3 ℝ) (r : ℝ) (x : Axis4) : Prop where
  unit : lengthSqr x.dir = 1
  dist : x.dist = x.projA - x.projB
  hitA : ∃ v ∈ vs, dot v x.dir = x.projA
  onA : ∀ v ∈ vs, x.projA ≤ dot v x.dir
  projB : x.projB = capsuleProjection v0 v1 r x.dir

theorem keepBest_fold (l : List Axis4) (b : Option Axis4) (h : b ≠ none ∨ l ≠ []) :
    ∃ x, l.foldl keepBest b = some x ∧ (x ∈ l ∨ b = some x) ∧ (∀ y ∈ l, y.dist ≤ x.dist) ∧ ∀ y, b = some y → y.dist ≤ x.dist := by
  induction l generalizing b with
  | nil =>
    rcases h with h | h
    · obtain ⟨x, hx⟩ := Option.ne_none_iff_exists'.mp h
      exact ⟨x, hx, .inr hx, by simp, fun y hy => by rw [hx] at hy; cases hy; exact le_rfl⟩
    · simp at h
  | cons a l ih =>
    obtain ⟨y, k1, k2, k3, k4⟩ := keepBest_cases b a
    obtain ⟨x, h1, h2, h3, h4⟩ := ih (keepBest b a) (.inl (by rw [k1]; simp))
    have hy := h4 y k1
    refine ⟨x, h1, ?_, ?_, fun z hz => (k3 z hz).trans hy⟩
    · rcases h2 with h2 | h2
      · exact .inl (List.mem_cons_of_mem _ h2)
      · rw [k1] at h2
        cases h2
        rcases k4 with rfl | k4
        · exact .inl List.mem_cons_self
        · exact .inr k4
    · intro z hz
      rcases List.mem_cons.mp hz with rfl | hz
      · exact k2.trans hy
      · exact h3 z hz

theorem mapM_all {α β : Type} {f : α → Option β} {l : List α} (h : ∀ a ∈ l, ∃ b, f a = some b) :
    ∃ bs, l.mapM f = some bs ∧ (∀ b ∈ bs, ∃ a ∈ l, f a = some b) ∧ ∀ a ∈ l, ∃ b ∈ bs, f a = some b := by
  induction l with
  | nil => exact ⟨[], rfl, by simp, by simp⟩
  | cons a l ih =>
    obtain ⟨b, hb⟩ := h a List.mem_cons_self
    obtain ⟨bs, h1, h2, h3⟩ := ih fun a ha => h a (List.mem_cons_of_mem _ ha)
    refine ⟨b :: bs, by rw [List.mapM_cons, hb, h1]; rfl, ?_, ?_⟩
    · intro c hc
      rcases List.mem_cons.mp hc with rfl | hc
      · exact ⟨a, List.mem_cons_self, hb⟩
      · obtain ⟨d, hd, e⟩ := h2 c hc
        exact ⟨d, List.mem_cons_of_mem _ hd, e⟩
    · intro c hc
      rcases List.mem_cons.mp hc with rfl | hc
      · exact ⟨b, List.mem_cons_self, hb⟩
      · obtain ⟨d, hd, e⟩ := h3 c hc
        exact ⟨d, List.mem_cons_of_mem _ hd, e⟩

/-- The direction of two different points, turned away from the capsule. -/
noncomputable def capTowards (posB d : V3 ℝ) : V3 ℝ :=
  open Classical in
  let u := smul (1 / Real.sqrt (lengthSqr d)) d
  if 0 < dot posB u then -u else u

theorem scaled_unit {d : V3 ℝ} (h : 0 < lengthSqr d) : lengthSqr (smul (1 / Real.sqrt (lengthSqr d)) d) = 1 := by
  have hs := Real.sqrt_pos.mpr h
  have e : lengthSqr (smul (1 / Real.sqrt (lengthSqr d)) d) = 1 / Real.sqrt (lengthSqr d) * (1 / Real.sqrt (lengthSqr d)) * lengthSqr d := by
    generalize 1 / Real.sqrt (lengthSqr d) = k
    simp [lengthSqr, dot]; ring
  rw [e]
  have := Real.mul_self_sqrt h.le
  generalize Real.sqrt (lengthSqr d) = s at *
  rw [← this]; field_simp

theorem capTowards_unit {posB d : V3 ℝ} (h : 0 < lengthSqr d) : lengthSqr (capTowards posB d) = 1 := by
  unfold capTowards
  simp only
  split
  · exact neg_unit (scaled_unit h)
  · exact scaled_unit h

theorem capEdgeCand_spec {m : PMesh} (hm : PolySolid m) {k : ℕ} (hk : m.verts.length ≤ k) {eps tiny : ℝ} (ht : 0 ≤ tiny)
    (posB v0 v1 : V3 ℝ) (r : ℝ) (e : PEdge) :
    ∃ o, capEdgeCand k eps tiny m posB v0 v1 r e = some o ∧ (∀ y, o = some y → CapSep m.verts v0 v1 r y) ∧
      (tiny < lengthSqr ((closestSegSeg eps false e.v0 e.v1 v0 v1).c1 - (closestSegSeg eps false e.v0 e.v1 v0 v1).c2) →
        ∃ y, o = some y ∧ y.dir = capTowards posB ((closestSegSeg eps false e.v0 e.v1 v0 v1).c1 - (closestSegSeg eps false e.v0 e.v1 v0 v1).c2)) := by
  unfold capEdgeCand
  simp only
  generalize (closestSegSeg eps false e.v0 e.v1 v0 v1).c1 - (closestSegSeg eps false e.v0 e.v1 v0 v1).c2 = d
  by_cases h : tiny < lengthSqr d
  · rw [if_pos h]
    have hu := capTowards_unit (posB := posB) (lt_of_le_of_lt ht h)
    obtain ⟨p, h1, ⟨v, hv, h2⟩, h3⟩ := solid_projection hm hk (-capTowards posB d)
    have e : (if 0 < dot posB (smul (1 / Real.sqrt (lengthSqr d)) d) then -smul (1 / Real.sqrt (lengthSqr d)) d
        else smul (1 / Real.sqrt (lengthSqr d)) d) = capTowards posB d := by unfold capTowards; simp only
    rw [e, h1, Option.map_some]
    refine ⟨_, rfl, ?_, fun _ => ⟨_, rfl, rfl⟩⟩
    rintro y ⟨⟩
    refine ⟨hu, rfl, ⟨v, hv, ?_⟩, fun w hw => ?_, rfl⟩
    · simp only; rw [← h2, dot_neg_right, neg_neg]
    · have := h3 w hw
      rw [dot_neg_right] at this
      simp only; linarith
  · rw [if_neg h]
    exact ⟨none, rfl, by simp, fun h' => absurd h' h⟩

theorem capAxis_spec {m : PMesh} (hm : PolySolid m) {k : ℕ} (hk : m.verts.length ≤ k) {eps tiny : ℝ} (ht : 0 ≤ tiny)
    (posB v0 v1 : V3 ℝ) (r : ℝ) :
    ∃ x, capAxis k eps tiny m posB v0 v1 r = some x ∧ CapSep m.verts v0 v1 r x ∧
      (∀ f ∈ m.faces, ∃ y, CapSep m.verts v0 v1 r y ∧ y.dir = -f.1 ∧ y.dist ≤ x.dist) ∧
      ∀ e ∈ m.edges, tiny < lengthSqr ((closestSegSeg eps false e.v0 e.v1 v0 v1).c1 - (closestSegSeg eps false e.v0 e.v1 v0 v1).c2) →
        ∃ y, CapSep m.verts v0 v1 r y ∧
          y.dir = capTowards posB ((closestSegSeg eps false e.v0 e.v1 v0 v1).c1 - (closestSegSeg eps false e.v0 e.v1 v0 v1).c2) ∧ y.dist ≤ x.dist := by
  have hface : ∀ f ∈ m.faces, CapSep m.verts v0 v1 r (capFaceCand v0 v1 r f) := by
    intro f hf
    refine ⟨neg_unit (hm.face_unit f hf), rfl, ⟨f.2, hm.face_on f hf, rfl⟩, fun w hw => ?_, rfl⟩
    have := hm.face_behind f hf w hw
    rw [dot_sub_left] at this
    simp only [capFaceCand, dot_neg_right]; linarith
  obtain ⟨es, h1, h2, h3⟩ := mapM_all (f := capEdgeCand k eps tiny m posB v0 v1 r) (l := m.edges)
    fun e _ => by obtain ⟨o, ho, -⟩ := capEdgeCand_spec hm hk (eps := eps) ht posB v0 v1 r e; exact ⟨o, ho⟩
  obtain ⟨f, hf⟩ := List.exists_mem_of_ne_nil _ hm.some_face
  obtain ⟨x, k1, k2, k3, -⟩ := keepBest_fold (m.faces.map (capFaceCand v0 v1 r) ++ es.filterMap id) none
    (.inr (List.ne_nil_of_mem (List.mem_append_left _ (List.mem_map_of_mem hf))))
  refine ⟨x, by unfold capAxis; rw [h1]; exact k1, ?_, ?_, ?_⟩
  · rcases k2 with k2 | k2
    · rcases List.mem_append.mp k2 with k2 | k2
      · obtain ⟨f, hf, rfl⟩ := List.mem_map.mp k2
        exact hface f hf
      · obtain ⟨o, ho, e⟩ := List.mem_filterMap.mp k2
        obtain ⟨a, ha, e2⟩ := h2 o ho
        obtain ⟨o', e3, e4, -⟩ := capEdgeCand_spec hm hk (eps := eps) ht posB v0 v1 r a
        rw [e2] at e3; cases e3
        exact e4 x e
    · simp at k2
  · intro f hf
    exact ⟨_, hface f hf, rfl, k3 _ (List.mem_append_left _ (List.mem_map_of_mem hf))⟩
  · intro e he hd
    obtain ⟨o, ho, e1⟩ := h3 e he
    obtain ⟨o', e3, e4, e5⟩ := capEdgeCand_spec hm hk (eps := eps) ht posB v0 v1 r e
    rw [e1] at e3; cases e3
    obtain ⟨y, rfl, hy⟩ := e5 hd
    exact ⟨y, e4 y rfl, hy, k3 y (List.mem_append_right _ (List.mem_filterMap.mpr ⟨_, ho, rfl⟩))⟩

/-! ## The points -/

theorem maybe_add_onto {F : Type} (k : Consts ℝ) (ps l : List (CPoint ℝ F)) (hl : l.length ≤ 4) :
    (ps.foldl (maybeAdd k) l).length ≤ 4 ∧ (∀ p ∈ ps.foldl (maybeAdd k) l, p ∈ l ∨ p ∈ ps) ∧
      (l ≠ [] ∨ ps ≠ [] → ps.foldl (maybeAdd k) l ≠ []) := by
  have main : ∀ (ps l : List (CPoint ℝ F)), l.length ≤ 4 → (ps.foldl (maybeAdd k) l).length ≤ 4 ∧
      (∀ p ∈ ps.foldl (maybeAdd k) l, p ∈ l ∨ p ∈ ps) ∧ (l ≠ [] → ps.foldl (maybeAdd k) l ≠ []) := by
    intro ps
    induction ps with
    | nil => intro l hl; exact ⟨hl, fun p hp => .inl hp, fun h => h⟩
    | cons q ps ih =>
      intro l hl
      rw [List.foldl_cons]
      have step : (maybeAdd k l q).length ≤ 4 ∧ (∀ p ∈ maybeAdd k l q, p ∈ l ∨ p = q) ∧ (l ≠ [] → maybeAdd k l q ≠ []) := by
        rcases maybeAdd_cases k l q with e | ⟨e, h⟩ | ⟨i, hi, e⟩
        · rw [e]; exact ⟨hl, fun p hp => .inl hp, fun h => h⟩
        · rw [e]; exact ⟨by rw [List.length_append, List.length_singleton]; omega, fun p hp => by simpa using hp, fun _ => by simp⟩
        · rw [e]
          refine ⟨by rw [List.length_set]; exact hl, fun p hp => (List.mem_or_eq_of_mem_set hp), fun h h0 => h ?_⟩
          have := congrArg List.length h0
          rw [List.length_set] at this
          exact List.length_eq_zero_iff.mp this
      obtain ⟨s1, s2, s3⟩ := step
      obtain ⟨i1, i2, i3⟩ := ih _ s1
      refine ⟨i1, fun p hp => ?_, fun h => i3 (s3 h)⟩
      rcases i2 p hp with h | h
      · rcases s2 p h with h | rfl
        · exact .inl h
        · exact .inr List.mem_cons_self
      · exact .inr (List.mem_cons_of_mem _ h)
  obtain ⟨m1, m2, m3⟩ := main ps l hl
  refine ⟨m1, m2, fun h => ?_⟩
  by_cases h0 : l = []
  · subst h0
    have := (maybe_add_all k ps).2.2.mpr (h.resolve_left (by simp))
    exact this
  · exact m3 h0

end Edyn.Collide
