import Verif.Collide.PolySat

/-!
# Contacts between two polyhedra: the choice of the direction (C94)
-/

namespace Edyn.Collide

open Edyn.Math hiding lengthSqr_nonneg
open V3 Edyn.Geom Edyn.Geom.Poly Edyn.Contact

theorem Faces2.scale {a b : PEdge} {d : V3 ℝ} (h : Faces2 a b d) {k : ℝ} (hk : 0 < k) : Faces2 a b (smul k d) := by
  obtain ⟨⟨s, t, hs, ht, hd⟩, u, v, hu, hv, hd'⟩ := h
  refine ⟨⟨k * s, k * t, by positivity, by positivity, ?_⟩, k * u, k * v, by positivity, by positivity, ?_⟩
  · rw [hd]; ext <;> simp <;> ring
  · have : -smul k d = smul k (-d) := by ext <;> simp
    rw [this, hd']; ext <;> simp <;> ring

/-- A direction between the normals of two edges separates the shapes at these edges. -/
theorem Faces2.sep {A B : PMesh} (hA : PolySolid A) (hB : PolySolid B) {a b : PEdge} (ha : a ∈ A.edges) (hb : b ∈ B.edges)
    (posA posB : V3 ℝ) {d : V3 ℝ} (hd : Faces2 a b d) (hu : lengthSqr d = 1) :
    Sep A.verts B.verts posA posB ⟨dot (b.v0 + posB - (a.v0 + posA)) d, dot (a.v0 + posA) (-d), dot (b.v0 + posB) (-d), -d⟩ := by
  obtain ⟨⟨s, t, hs, ht, hd⟩, u, v, hu', hv, hd'⟩ := hd
  refine ⟨neg_unit hu, ?_, ⟨a.v0, hA.edge_on a ha, rfl⟩, fun w hw => ?_, ⟨b.v0, hB.edge_on b hb, rfl⟩, fun w hw => ?_⟩ <;>
    simp only
  · rw [dot_neg_right, dot_neg_right, dot_sub_left]; ring
  · obtain ⟨h1, h2⟩ := hA.edge_behind a ha w hw
    have : dot (w - a.v0) d ≤ 0 := by
      rw [hd, dot_add_right, dot_smul_right, dot_smul_right]; nlinarith
    rw [dot_sub_left] at this
    rw [dot_neg_right, dot_neg_right, dot_add_left, dot_add_left]; linarith
  · obtain ⟨h1, h2⟩ := hB.edge_behind b hb w hw
    have : dot (w - b.v0) (-d) ≤ 0 := by
      rw [hd', dot_add_right, dot_smul_right, dot_smul_right]; nlinarith
    rw [dot_sub_left] at this
    rw [dot_add_left, dot_add_left]; linarith

theorem Faces2.outward {A : PMesh} (hA : PolySolid A) {a b : PEdge} (ha : a ∈ A.edges) {d : V3 ℝ} (hd : Faces2 a b d) :
    0 < dot a.v0 d := by
  obtain ⟨⟨s, t, hs, ht, hd⟩, _⟩ := hd
  obtain ⟨h1, h2⟩ := hA.edge_around a ha
  rw [hd, dot_add_right, dot_smul_right, dot_smul_right]; positivity

theorem edge_side {m : PMesh} (h : PolySolid m) {e : PEdge} (he : e ∈ m.edges) {w : V3 ℝ} (hw : dot e.n0 w * dot e.n1 w < 0) :
    ∃ k, 0 < k ∧ e.v0 - e.v1 = smul k (cross e.n1 e.n0) := by
  rcases h.edge_dir e he with h | h
  · rw [h] at hw; nlinarith [mul_self_nonneg (dot e.n1 w)]
  · exact h

theorem shift (u v p : V3 ℝ) : u + p - (v + p) = u - v := by ext <;> simp
theorem shift' (u p : V3 ℝ) : u + p - p = u := by ext <;> simp

/-- Two edges give a direction if and only if they make a face of the Minkowski difference and are not almost parallel;
the direction is that of this face. -/
theorem polyEdgeCand_spec {A B : PMesh} (hA : PolySolid A) (hB : PolySolid B) {a b : PEdge} (ha : a ∈ A.edges) (hb : b ∈ B.edges)
    {tiny : ℝ} (ht : 0 ≤ tiny) (posA posB : V3 ℝ) :
    (∀ x, polyEdgeCand tiny posA posB a b = some x → Sep A.verts B.verts posA posB x ∧ Faces2 a b (-x.dir) ∧ x.dist = x.projA - x.projB) ∧
    (∀ d, Faces2 a b d → a.n0 ≠ a.n1 → b.n0 ≠ b.n1 → tiny < lengthSqr (cross (a.v0 - a.v1) (b.v0 - b.v1)) → ∃ x, polyEdgeCand tiny posA posB a b = some x) := by
  constructor
  · intro x hx
    unfold polyEdgeCand at hx
    simp only [shift, shift'] at hx
    split at hx
    · rename_i hm
      rw [shift, shift] at hm
      split at hx
      · rename_i hl
        have hm' := hm
        unfold minkowskiFace at hm'
        simp only at hm'
        obtain ⟨ka, hka, ea⟩ := edge_side hA ha hm'.2.1
        obtain ⟨kb, hkb, eb⟩ := edge_side hB hb (w := a.v0 - a.v1) (by have := hm'.1; linarith)
        have hf := minkowski_faces hka hkb ea eb hm
        have hu := unit_of_len (ht.trans_lt hl)
        have hpos : 0 < 1 / Real.sqrt (lengthSqr (cross (a.v0 - a.v1) (b.v0 - b.v1))) := by
          have := Real.sqrt_pos.2 (ht.trans_lt hl); positivity
        generalize 1 / Real.sqrt (lengthSqr (cross (a.v0 - a.v1) (b.v0 - b.v1))) = r at *
        generalize cross (a.v0 - a.v1) (b.v0 - b.v1) = y at *
        have hf' : Faces2 a b (smul r y) ∨ Faces2 a b (-smul r y) := by
          rcases hf with h | h
          · exact .inl (h.scale hpos)
          · have := h.scale hpos
            rw [show smul r (-y) = -smul r y by ext <;> simp] at this
            exact .inr this
        have key : ∀ d, Faces2 a b d → lengthSqr d = 1 → some (Axis4.mk (dot (b.v0 + posB - (a.v0 + posA)) d) (dot (a.v0 + posA) (-d)) (dot (b.v0 + posB) (-d)) (-d)) = some x →
            Sep A.verts B.verts posA posB x ∧ Faces2 a b (-x.dir) ∧ x.dist = x.projA - x.projB := by
          intro d h1 h2 h3
          cases h3
          have h4 := h1.sep hA hB ha hb posA posB h2
          exact ⟨h4, by simpa [show - -d = d by ext <;> simp] using h1, h4.dist⟩
        rcases hf' with h | h
        · rw [if_neg (not_lt.mpr (h.outward hA ha).le)] at hx
          exact key _ h hu hx
        · have := h.outward hA ha
          rw [dot_neg_right] at this
          rw [if_pos (by linarith)] at hx
          exact key _ h (neg_unit hu) hx
      · simp at hx
    · simp at hx
  · intro d hd na nb hl
    have hne : cross (a.v0 - a.v1) (b.v0 - b.v1) ≠ 0 := by
      intro h; rw [h] at hl; simp [lengthSqr, dot] at hl; linarith
    obtain ⟨ka, hka, ea⟩ := (hA.edge_dir a ha).resolve_left na
    obtain ⟨kb, hkb, eb⟩ := (hB.edge_dir b hb).resolve_left nb
    have hm := faces_minkowski hka hkb ea eb hne hd
    unfold polyEdgeCand
    simp only [shift]
    rw [if_pos (by rw [shift, shift]; exact hm), if_pos hl]
    exact ⟨_, rfl⟩

/-- Two edges which have to be considered: they make a face of the Minkowski difference and are not almost parallel. -/
def Relevant (tiny : ℝ) (a b : PEdge) (d : V3 ℝ) : Prop :=
  Faces2 a b d ∧ lengthSqr d = 1 ∧ a.n0 ≠ a.n1 ∧ b.n0 ≠ b.n1 ∧ tiny < lengthSqr (cross (a.v0 - a.v1) (b.v0 - b.v1))

theorem foldl_keepBest (P : Axis4 → Prop) (l : List Axis4) : ∀ b, (∀ y ∈ l, P y) → (∀ y, b = some y → P y) →
    (l.foldl keepBest b = none ↔ l = [] ∧ b = none) ∧
    ∀ x, l.foldl keepBest b = some x → P x ∧ (∀ y ∈ l, y.dist ≤ x.dist) ∧ ∀ y, b = some y → y.dist ≤ x.dist := by
  induction l with
  | nil => intro b _ hb; exact ⟨by simp, fun x hx => ⟨hb x hx, by simp, fun y hy => by rw [List.foldl_nil] at hx; rw [hx] at hy; cases hy; exact le_rfl⟩⟩
  | cons f l ih =>
    intro b hl hb
    obtain ⟨z, k1, k2, k3, k4⟩ := keepBest_cases b f
    have hz : P z := by
      rcases k4 with rfl | k4
      · exact hl _ List.mem_cons_self
      · exact hb z k4
    obtain ⟨i1, i2⟩ := ih (some z) (fun y hy => hl y (List.mem_cons_of_mem _ hy)) (by rintro _ ⟨⟩; exact hz)
    rw [List.foldl_cons, k1]
    refine ⟨by rw [i1]; simp, fun x hx => ?_⟩
    obtain ⟨j1, j2, j3⟩ := i2 x hx
    have := j3 z rfl
    refine ⟨j1, ?_, fun y hy => (k3 y hy).trans this⟩
    intro y hy
    rcases List.mem_cons.mp hy with rfl | hy
    · exact k2.trans this
    · exact j2 y hy

theorem faces_dir_unique {a b : PEdge} {ka kb : ℝ} (hka : 0 < ka) (hkb : 0 < kb) {ea eb : V3 ℝ}
    (ha : ea = smul ka (cross a.n1 a.n0)) (hb : eb = smul kb (cross b.n1 b.n0)) (hx : cross ea eb ≠ 0) {d d' : V3 ℝ}
    (h : Faces2 a b d) (h' : Faces2 a b d') (u : lengthSqr d = 1) (u' : lengthSqr d' = 1) (n : V3 ℝ) (hn : 0 < dot n d) (hn' : 0 < dot n d') : d = d' := by
  have perp : ∀ d, Faces2 a b d → dot d ea = 0 ∧ dot d eb = 0 := by
    rintro d ⟨⟨s, t, hs, ht, hd⟩, u, v, hu, hv, hd'⟩
    constructor
    · rw [hd, ha]; simp [dot, cross]; ring
    · have : dot (-d) eb = 0 := by rw [hd', hb]; simp [dot, cross]; ring
      rw [dot_neg_left] at this; linarith
  have par : ∀ d, Faces2 a b d → ∃ k, d = smul k (cross ea eb) := by
    intro d hd
    obtain ⟨p1, p2⟩ := perp d hd
    have hL : lengthSqr (cross ea eb) ≠ 0 := lengthSqr_ne hx
    refine ⟨dot d (cross ea eb) / lengthSqr (cross ea eb), ?_⟩
    have e : smul (lengthSqr (cross ea eb)) d = smul (dot d (cross ea eb)) (cross ea eb) := by
      -- (ea × eb) × d = 0
      have c0 : cross (cross ea eb) d = 0 := by
        have : cross (cross ea eb) d = smul (dot d ea) eb - smul (dot d eb) ea := by
          ext <;> simp [cross, dot] <;> ring
        rw [this, p1, p2]; ext <;> simp
      have : smul (lengthSqr (cross ea eb)) d - smul (dot d (cross ea eb)) (cross ea eb) = cross (cross (cross ea eb) d) (cross ea eb) := by
        generalize cross ea eb = x
        ext <;> simp [cross, dot, lengthSqr] <;> ring
      rw [c0] at this
      have z : cross 0 (cross ea eb) = (0 : V3 ℝ) := by ext <;> simp [cross]
      rw [z] at this
      ext
      · have := congrArg V3.x this; simp at this; simp; linarith
      · have := congrArg V3.y this; simp at this; simp; linarith
      · have := congrArg V3.z this; simp at this; simp; linarith
    have e2 := congrArg (smul (1 / lengthSqr (cross ea eb))) e
    generalize lengthSqr (cross ea eb) = L at *
    generalize dot d (cross ea eb) = D at *
    have l : smul (1 / L) (smul L d) = d := by
      ext <;> simp only [smul_x, smul_y, smul_z] <;> field_simp
    rw [l] at e2
    rw [e2]
    ext <;> simp only [smul_x, smul_y, smul_z] <;> field_simp
  obtain ⟨k, rfl⟩ := par d h
  obtain ⟨k', rfl⟩ := par d' h'
  have hL : 0 < lengthSqr (cross ea eb) := lt_of_le_of_ne (lengthSqr_nonneg _) (Ne.symm (lengthSqr_ne hx))
  rw [dot_smul_right] at hn hn'
  have e1 : k * k * lengthSqr (cross ea eb) = 1 := by
    rw [← u]; simp only [lengthSqr, dot_smul_left, dot_smul_right]; ring
  have e2 : k' * k' * lengthSqr (cross ea eb) = 1 := by
    rw [← u']; simp only [lengthSqr, dot_smul_left, dot_smul_right]; ring
  have e3 : k * k = k' * k' := by
    have : (k * k - k' * k') * lengthSqr (cross ea eb) = 0 := by linarith
    rcases mul_eq_zero.mp this with h | h
    · linarith
    · exact absurd h hL.ne'
  rcases mul_self_eq_mul_self_iff.mp e3 with h | h
  · rw [h]
  · exfalso
    rw [h] at hn
    nlinarith

/-- The edges: a direction is found unless no two edges have to be considered; no such pair is further apart. -/
theorem edgeBest_spec {A B : PMesh} (hA : PolySolid A) (hB : PolySolid B) {tiny : ℝ} (ht : 0 ≤ tiny) (posA posB : V3 ℝ) :
    ((edgeBest tiny A B posA posB).isSome ↔ ∃ a ∈ A.edges, ∃ b ∈ B.edges, ∃ d, Relevant tiny a b d) ∧
    ∀ x, edgeBest tiny A B posA posB = some x → Sep A.verts B.verts posA posB x ∧
      ∀ a ∈ A.edges, ∀ b ∈ B.edges, ∀ d, Relevant tiny a b d →
        ∃ y, Sep A.verts B.verts posA posB y ∧ y.dir = -d ∧ y.dist ≤ x.dist := by
  have mem : ∀ y, y ∈ (A.edges.flatMap fun a => B.edges.filterMap fun b => polyEdgeCand tiny posA posB a b) ↔
      ∃ a ∈ A.edges, ∃ b ∈ B.edges, polyEdgeCand tiny posA posB a b = some y := by
    intro y; simp [List.mem_flatMap, List.mem_filterMap]
  have all : ∀ y ∈ (A.edges.flatMap fun a => B.edges.filterMap fun b => polyEdgeCand tiny posA posB a b),
      Sep A.verts B.verts posA posB y := by
    intro y hy
    obtain ⟨a, ha, b, hb, e⟩ := (mem y).mp hy
    exact ((polyEdgeCand_spec hA hB ha hb ht posA posB).1 y e).1
  obtain ⟨f1, f2⟩ := foldl_keepBest _ _ none all (by simp)
  constructor
  · constructor
    · intro h
      have hne : (A.edges.flatMap fun a => B.edges.filterMap fun b => polyEdgeCand tiny posA posB a b) ≠ [] := by
        intro h0
        have := f1.mpr ⟨h0, rfl⟩
        unfold edgeBest at h
        rw [this] at h; simp at h
      obtain ⟨y, hy⟩ := List.exists_mem_of_ne_nil _ hne
      obtain ⟨a, ha, b, hb, e⟩ := (mem y).mp hy
      obtain ⟨s1, s2, -⟩ := (polyEdgeCand_spec hA hB ha hb ht posA posB).1 y e
      refine ⟨a, ha, b, hb, -y.dir, s2, neg_unit s1.unit, ?_⟩
      unfold polyEdgeCand at e
      simp only at e
      split at e
      · rename_i hm
        rw [shift, shift] at hm
        split at e
        · rename_i hl
          rw [shift, shift] at hl
          unfold minkowskiFace at hm
          simp only at hm
          refine ⟨?_, ?_, hl⟩
          · intro h0; rw [h0] at hm; nlinarith [hm.2.1, mul_self_nonneg (dot a.n1 (b.v0 - b.v1))]
          · intro h0; rw [h0] at hm; nlinarith [hm.1, mul_self_nonneg (-dot b.n1 (a.v0 - a.v1))]
        · simp at e
      · simp at e
    · rintro ⟨a, ha, b, hb, d, h1, h2, h3, h4, h5⟩
      obtain ⟨x, hx⟩ := (polyEdgeCand_spec hA hB ha hb ht posA posB).2 d h1 h3 h4 h5
      rw [Option.isSome_iff_ne_none]
      intro h0
      have := (f1.mp h0).1
      exact List.ne_nil_of_mem ((mem x).mpr ⟨a, ha, b, hb, hx⟩) this
  · intro x hx
    obtain ⟨g1, g2, -⟩ := f2 x hx
    refine ⟨g1, ?_⟩
    rintro a ha b hb d ⟨h1, h2, h3, h4, h5⟩
    obtain ⟨y, hy⟩ := (polyEdgeCand_spec hA hB ha hb ht posA posB).2 d h1 h3 h4 h5
    obtain ⟨s1, s2, -⟩ := (polyEdgeCand_spec hA hB ha hb ht posA posB).1 y hy
    refine ⟨y, s1, ?_, g2 y ((mem y).mpr ⟨a, ha, b, hb, hy⟩)⟩
    obtain ⟨ka, hka, ea⟩ := (hA.edge_dir a ha).resolve_left h3
    obtain ⟨kb, hkb, eb⟩ := (hB.edge_dir b hb).resolve_left h4
    have hne : cross (a.v0 - a.v1) (b.v0 - b.v1) ≠ 0 := by
      intro h; rw [h] at h5; simp [lengthSqr, dot] at h5; linarith
    have := faces_dir_unique hka hkb ea eb hne s2 h1 (neg_unit s1.unit) h2 a.v0 (s2.outward hA ha) (h1.outward hA ha)
    rw [← this]; ext <;> simp

/-- The direction chosen: it separates the shapes as far as any normal of a face of the two shapes and any pair of
edges which has to be considered. -/
theorem polyAxis_spec {A B : PMesh} (hA : PolySolid A) (hB : PolySolid B) {k : ℕ} (kA : A.verts.length ≤ k) (kB : B.verts.length ≤ k)
    {tiny : ℝ} (ht : 0 ≤ tiny) (posA posB : V3 ℝ) :
    ((polyAxis k tiny A B posA posB).isSome ↔ ∃ a ∈ A.edges, ∃ b ∈ B.edges, ∃ d, Relevant tiny a b d) ∧
    ∀ x, polyAxis k tiny A B posA posB = some x → Sep A.verts B.verts posA posB x ∧
      (∀ f ∈ A.faces, ∃ y, Sep A.verts B.verts posA posB y ∧ y.dir = -f.1 ∧ y.dist ≤ x.dist) ∧
      (∀ f ∈ B.faces, ∃ y, Sep A.verts B.verts posA posB y ∧ y.dir = f.1 ∧ y.dist ≤ x.dist) ∧
      ∀ a ∈ A.edges, ∀ b ∈ B.edges, ∀ d, Relevant tiny a b d →
        ∃ y, Sep A.verts B.verts posA posB y ∧ y.dir = -d ∧ y.dist ≤ x.dist := by
  obtain ⟨x, x1, x2, x3⟩ := maxSupport_spec hA hB kB posA posB
  obtain ⟨y, y1, y2, y3⟩ := maxSupport_spec hB hA kA posB posA
  obtain ⟨e1, e2⟩ := edgeBest_spec hA hB ht posA posB
  unfold polyAxis
  simp only [x1, y1, Option.bind_some]
  refine ⟨by rw [Option.isSome_map]; exact e1, fun w hw => ?_⟩
  obtain ⟨e, he, hw⟩ := Option.map_eq_some_iff.mp hw
  obtain ⟨g1, g2⟩ := e2 e he
  set z := if x.dist < y.dist then y.flip else x with hz
  have hzs : Sep A.verts B.verts posA posB z ∧ x.dist ≤ z.dist ∧ y.dist ≤ z.dist := by
    rw [hz]
    split
    · rename_i h; exact ⟨y2.flip, h.le, le_rfl⟩
    · rename_i h; exact ⟨x2, le_rfl, not_lt.mp h⟩
  have hws : Sep A.verts B.verts posA posB w ∧ z.dist ≤ w.dist ∧ e.dist ≤ w.dist := by
    rw [← hw, ← g1.dist]
    split
    · rename_i h
      exact ⟨g1, h.le, le_rfl⟩
    · rename_i h; exact ⟨hzs.1, le_rfl, not_lt.mp h⟩
  refine ⟨hws.1, fun f hf => ?_, fun f hf => ?_, fun a ha b hb d hd => ?_⟩
  · obtain ⟨u, u1, u2, u3⟩ := x3 f hf
    exact ⟨u, u1, u2, by linarith [hzs.2.1, hws.2.1]⟩
  · obtain ⟨u, u1, u2, u3⟩ := y3 f hf
    refine ⟨u.flip, u1.flip, by simp only [Axis4.flip, u2]; ext <;> simp, ?_⟩
    show u.dist ≤ w.dist
    linarith [hzs.2.2, hws.2.1]
  · obtain ⟨u, u1, u2, u3⟩ := g2 a ha b hb d hd
    exact ⟨u, u1, u2, by linarith [hws.2.2]⟩

end Edyn.Collide
