import Verif.Collide.PolyPoly

/-!
# Contacts between two polyhedra: the direction of separation (C94)
-/

namespace Edyn.Collide

open Edyn.Math hiding lengthSqr_nonneg
open V3 Edyn.Geom Edyn.Geom.Poly Edyn.Contact

/-! ## What a mesh has to be -/

/-- The mesh of a convex polyhedron around the origin: faces with outward unit normals, every edge with the normals of
its two faces, directed along the border of the first one, and all edges listed in the adjacency.  `solid_of_mesh` shows
that `convex_mesh::initialize` makes such a mesh of the vertices and faces of a convex polyhedron. -/
structure PolySolid (m : PMesh) : Prop where
  some_vertex : m.verts ≠ []
  some_face : m.faces ≠ []
  face_unit : ∀ f ∈ m.faces, lengthSqr f.1 = 1
  face_on : ∀ f ∈ m.faces, f.2 ∈ m.verts
  face_behind : ∀ f ∈ m.faces, ∀ v ∈ m.verts, dot (v - f.2) f.1 ≤ 0
  edge_on : ∀ e ∈ m.edges, e.v0 ∈ m.verts
  edge_behind : ∀ e ∈ m.edges, ∀ v ∈ m.verts, dot (v - e.v0) e.n0 ≤ 0 ∧ dot (v - e.v0) e.n1 ≤ 0
  edge_around : ∀ e ∈ m.edges, 0 < dot e.v0 e.n0 ∧ 0 < dot e.v0 e.n1
  edge_dir : ∀ e ∈ m.edges, e.n0 = e.n1 ∨ ∃ k, 0 < k ∧ e.v0 - e.v1 = smul k (cross e.n1 e.n0)
  adjacent : ∃ es : List (ℕ × ℕ), (∀ e ∈ es, e.1 < m.verts.length ∧ e.2 < m.verts.length) ∧ EdgeCone m.verts es ∧
    m.start = (calcNeighbors m.verts.length es).1 ∧ m.idx = (calcNeighbors m.verts.length es).2

theorem cone_map {G H : V3 ℝ → Prop} {f : V3 ℝ → V3 ℝ} (f0 : f 0 = 0) (fa : ∀ u v, f (u + v) = f u + f v)
    (fs : ∀ s u, f (smul s u) = smul s (f u)) (h : ∀ g, G g → H (f g)) {x : V3 ℝ} (hx : Cone G x) : Cone H (f x) := by
  induction hx with
  | zero => rw [f0]; exact .zero
  | add s _ hg hs ih => rw [fa, fs]; exact .add s ih (h _ hg) hs

theorem edgeCone_turn {vs : List (V3 ℝ)} {es : List (ℕ × ℕ)} (h : EdgeCone vs es) (q : Quat ℝ) :
    EdgeCone (vs.map (Quat.rotate q)) es := by
  intro v p hp w hw
  rw [List.getElem?_map, Option.map_eq_some_iff] at hp
  obtain ⟨p0, hp0, rfl⟩ := hp
  obtain ⟨w0, hw0, rfl⟩ := List.mem_map.mp hw
  rw [← rotate_sub]
  refine cone_map (by ext <;> simp [Quat.rotate]) (rotate_add q) (rotate_smul q) ?_ (h v p0 hp0 w0 hw0)
  rintro _ ⟨u, r, ⟨hu, hr⟩, rfl⟩
  exact ⟨u, Quat.rotate q r, ⟨hu, by rw [List.getElem?_map, hr]; rfl⟩, rotate_sub q r p0⟩

theorem PolySolid.turn {m : PMesh} (h : PolySolid m) {q : Quat ℝ} (hq : q.lengthSqr = 1) : PolySolid (m.turn q) := by
  have d : ∀ u v, dot (Quat.rotate q u) (Quat.rotate q v) = dot u v := rotate_dot q hq
  refine ⟨by simpa [PMesh.turn] using h.some_vertex, by simpa [PMesh.turn] using h.some_face, ?_, ?_, ?_, ?_, ?_, ?_, ?_, ?_⟩
  · intro f hf
    obtain ⟨g, hg, rfl⟩ := List.mem_map.mp hf
    exact rotate_unit hq (h.face_unit g hg)
  · intro f hf
    obtain ⟨g, hg, rfl⟩ := List.mem_map.mp hf
    exact List.mem_map_of_mem (h.face_on g hg)
  · intro f hf v hv
    obtain ⟨g, hg, rfl⟩ := List.mem_map.mp hf
    obtain ⟨w, hw, rfl⟩ := List.mem_map.mp hv
    simp only
    rw [← rotate_sub, d]; exact h.face_behind g hg w hw
  · intro f hf
    obtain ⟨g, hg, rfl⟩ := List.mem_map.mp hf
    exact List.mem_map_of_mem (h.edge_on g hg)
  · intro f hf v hv
    obtain ⟨g, hg, rfl⟩ := List.mem_map.mp hf
    obtain ⟨w, hw, rfl⟩ := List.mem_map.mp hv
    simp only
    rw [← rotate_sub, d, d]; exact h.edge_behind g hg w hw
  · intro f hf
    obtain ⟨g, hg, rfl⟩ := List.mem_map.mp hf
    simp only
    rw [d, d]; exact h.edge_around g hg
  · intro f hf
    obtain ⟨g, hg, rfl⟩ := List.mem_map.mp hf
    simp only
    rcases h.edge_dir g hg with e | ⟨k, hk, e⟩
    · exact .inl (by rw [e])
    · exact .inr ⟨k, hk, by rw [← rotate_cross q hq, ← rotate_sub, ← rotate_smul, e]⟩
  · obtain ⟨es, h1, h2, h3, h4⟩ := h.adjacent
    have hl : (m.turn q).verts.length = m.verts.length := by simp [PMesh.turn]
    rw [hl]
    exact ⟨es, h1, edgeCone_turn h2 q, h3, h4⟩

/-! ## Directions with the projections of the shapes -/

/-- The direction is a unit vector and the projections are those of the vertices of the two shapes: the first one is
ahead of its projection, the second one behind its own. -/
structure Sep (A B : List (V3 ℝ)) (posA posB : V3 ℝ) (x : Axis4) : Prop where
  unit : lengthSqr x.dir = 1
  dist : x.dist = x.projA - x.projB
  hitA : ∃ v ∈ A, dot (v + posA) x.dir = x.projA
  onA : ∀ v ∈ A, x.projA ≤ dot (v + posA) x.dir
  hitB : ∃ v ∈ B, dot (v + posB) x.dir = x.projB
  onB : ∀ v ∈ B, dot (v + posB) x.dir ≤ x.projB

theorem Sep.flip {A B : List (V3 ℝ)} {posA posB : V3 ℝ} {x : Axis4} (h : Sep B A posB posA x) : Sep A B posA posB x.flip := by
  obtain ⟨h1, h2, ⟨v, hv, h3⟩, h4, ⟨w, hw, h5⟩, h6⟩ := h
  refine ⟨neg_unit h1, ?_, ⟨w, hw, ?_⟩, fun u hu => ?_, ⟨v, hv, ?_⟩, fun u hu => ?_⟩ <;>
    simp only [Axis4.flip, dot_neg_right]
  · linarith
  · rw [h5]
  · linarith [h6 u hu]
  · rw [h3]
  · linarith [h4 u hu]

theorem solid_projection {m : PMesh} (h : PolySolid m) {k : ℕ} (hk : m.verts.length ≤ k) (d : V3 ℝ) :
    ∃ x, polyProjection k m.verts m.start m.idx d = some x ∧ (∃ v ∈ m.verts, dot v d = x) ∧ ∀ v ∈ m.verts, dot v d ≤ x := by
  obtain ⟨es, h1, h2, h3, h4⟩ := h.adjacent
  obtain ⟨u, q, e1, e2, -⟩ := climb_terminates m.verts es h.some_vertex h1 d k hk
  obtain ⟨x, f1, f2⟩ := polyhedron_projection_spec m.verts es h.some_vertex h1 h2 d k hk
  rw [e1, Option.some.injEq] at f1
  rw [h3, h4]
  exact ⟨_, e1, ⟨q, List.mem_of_getElem? e2, rfl⟩, fun v hv => by rw [f1]; exact f2.2 v (.vertex hv)⟩

theorem faceCand_sep {A B : PMesh} (hA : PolySolid A) (hB : PolySolid B) {k : ℕ} (hk : B.verts.length ≤ k) (posA posB : V3 ℝ)
    {f : V3 ℝ × V3 ℝ} (hf : f ∈ A.faces) :
    ∃ y, faceCand k B posA posB f = some y ∧ Sep A.verts B.verts posA posB y ∧ y.dir = -f.1 := by
  obtain ⟨m, h1, ⟨v, hv, h2⟩, h3⟩ := solid_projection hB hk (-f.1)
  refine ⟨⟨dot (f.2 + posA) (-f.1) - (m + dot posB (-f.1)), dot (f.2 + posA) (-f.1), m + dot posB (-f.1), -f.1⟩, ?_, ?_, rfl⟩
  · unfold faceCand; simp only [h1, Option.map_some]
  · refine ⟨neg_unit (hA.face_unit f hf), rfl, ⟨f.2, hA.face_on f hf, rfl⟩, fun w hw => ?_, ⟨v, hv, ?_⟩, fun w hw => ?_⟩
    · have := hA.face_behind f hf w hw
      rw [dot_sub_left] at this
      simp only [dot_add_left, dot_neg_right]; linarith
    · simp only [dot_add_left, h2]
    · simp only [dot_add_left]; linarith [h3 w hw]

theorem keepBest_cases (b : Option Axis4) (x : Axis4) :
    ∃ y, keepBest b x = some y ∧ x.dist ≤ y.dist ∧ (∀ z, b = some z → z.dist ≤ y.dist) ∧ (y = x ∨ b = some y) := by
  unfold keepBest
  cases b with
  | none => exact ⟨x, rfl, le_rfl, by simp, .inl rfl⟩
  | some z =>
    simp only
    split
    · rename_i h; exact ⟨x, rfl, le_rfl, by rintro _ ⟨⟩; exact h.le, .inl rfl⟩
    · rename_i h; exact ⟨z, rfl, not_lt.mp h, by rintro _ ⟨⟩; exact le_rfl, .inr rfl⟩

theorem maxSupport_spec {A B : PMesh} (hA : PolySolid A) (hB : PolySolid B) {k : ℕ} (hk : B.verts.length ≤ k) (posA posB : V3 ℝ) :
    ∃ x, maxSupport k A B posA posB = some x ∧ Sep A.verts B.verts posA posB x ∧
      ∀ f ∈ A.faces, ∃ y, Sep A.verts B.verts posA posB y ∧ y.dir = -f.1 ∧ y.dist ≤ x.dist := by
  have main : ∀ (l : List (V3 ℝ × V3 ℝ)) (b : Option Axis4), (∀ f ∈ l, f ∈ A.faces) →
      (∀ y, b = some y → Sep A.verts B.verts posA posB y) → ∃ b', l.foldlM (fun b f => (faceCand k B posA posB f).map (keepBest b)) b = some b' ∧
      (∀ y, b' = some y → Sep A.verts B.verts posA posB y) ∧ (∀ y, b = some y → ∃ z, b' = some z ∧ y.dist ≤ z.dist) ∧
      ∀ f ∈ l, ∃ y z, b' = some z ∧ Sep A.verts B.verts posA posB y ∧ y.dir = -f.1 ∧ y.dist ≤ z.dist := by
    intro l
    induction l with
    | nil => intro b _ hb; exact ⟨b, rfl, hb, fun y hy => ⟨y, hy, le_rfl⟩, by simp⟩
    | cons f l ih =>
      intro b hl hb
      obtain ⟨y, h1, h2, h3⟩ := faceCand_sep hA hB hk posA posB (hl f List.mem_cons_self)
      obtain ⟨z, k1, k2, k3, k4⟩ := keepBest_cases b y
      have hz : Sep A.verts B.verts posA posB z := by
        rcases k4 with rfl | k4
        · exact h2
        · exact hb z k4
      obtain ⟨b', e1, e2, e3, e4⟩ := ih (some z) (fun g hg => hl g (List.mem_cons_of_mem _ hg)) (by rintro _ ⟨⟩; exact hz)
      obtain ⟨w, w1, w2⟩ := e3 z rfl
      refine ⟨b', ?_, e2, ?_, ?_⟩
      · rw [List.foldlM_cons, h1, Option.map_some, k1]; exact e1
      · intro y' hy'
        exact ⟨w, w1, (k3 y' hy').trans w2⟩
      · intro g hg
        rcases List.mem_cons.mp hg with rfl | hg
        · exact ⟨y, w, w1, h2, h3, k2.trans w2⟩
        · exact e4 g hg
  obtain ⟨b', h1, h2, -, h4⟩ := main A.faces none (fun _ h => h) (by simp)
  obtain ⟨f, hf⟩ := List.exists_mem_of_ne_nil _ hA.some_face
  obtain ⟨_, x, rfl, _⟩ := h4 f hf
  refine ⟨x, by unfold maxSupport; rw [h1]; rfl, h2 x rfl, ?_⟩
  intro g hg
  obtain ⟨y, z, hz, h5, h6, h7⟩ := h4 g hg
  cases hz
  exact ⟨y, h5, h6, h7⟩

/-! ## Edges -/

/-- The direction is strictly between the outward normals of the two faces at an edge of the first shape, and its
opposite strictly between those at an edge of the second one: the two edges make a face of the Minkowski difference. -/
def Faces2 (a b : PEdge) (d : V3 ℝ) : Prop :=
  (∃ s t, 0 < s ∧ 0 < t ∧ d = smul s a.n0 + smul t a.n1) ∧ ∃ s t, 0 < s ∧ 0 < t ∧ -d = smul s b.n0 + smul t b.n1

theorem cross_span (k : ℝ) (m n e : V3 ℝ) :
    cross (smul k (cross m n)) e = smul (k * dot m e) n - smul (k * dot n e) m := by
  ext <;> simp [cross, dot] <;> ring

theorem cross_anti (u v : V3 ℝ) : cross u v = -cross v u := by ext <;> simp <;> ring

/-- If the test holds, the cross product of the edges or its opposite is a direction of that kind. -/
theorem minkowski_faces {a b : PEdge} {ka kb : ℝ} (hka : 0 < ka) (hkb : 0 < kb) {ea eb : V3 ℝ}
    (ha : ea = smul ka (cross a.n1 a.n0)) (hb : eb = smul kb (cross b.n1 b.n0))
    (h : minkowskiFace a.n0 a.n1 b.n0 b.n1 ea eb) : Faces2 a b (cross ea eb) ∨ Faces2 a b (-cross ea eb) := by
  have e1 : cross ea eb = smul (ka * dot a.n1 eb) a.n0 - smul (ka * dot a.n0 eb) a.n1 := by
    rw [ha]; exact cross_span ka a.n1 a.n0 eb
  have e2 : -cross ea eb = smul (kb * dot b.n1 ea) b.n0 - smul (kb * dot b.n0 ea) b.n1 := by
    rw [cross_anti ea eb, hb]
    have := cross_span kb b.n1 b.n0 ea
    rw [this]; ext <;> simp
  unfold minkowskiFace at h
  simp only at h
  obtain ⟨h1, h2, h3⟩ := h
  generalize dot b.n0 ea = C at *
  generalize dot b.n1 ea = D at *
  generalize dot a.n0 eb = A at *
  generalize dot a.n1 eb = B at *
  rcases lt_trichotomy B 0 with hB | hB | hB
  · right
    have hC : 0 < C := by nlinarith
    have hD : D < 0 := by nlinarith
    have hA : 0 < A := by nlinarith
    refine ⟨⟨-(ka * B), ka * A, by nlinarith, by positivity, ?_⟩, ⟨-(kb * D), kb * C, by nlinarith, by positivity, ?_⟩⟩
    · rw [e1]; ext <;> simp <;> ring
    · rw [e2]; ext <;> simp <;> ring
  · rw [hB] at h2; simp at h2
  · left
    have hC : C < 0 := by nlinarith
    have hD : 0 < D := by nlinarith
    have hA : A < 0 := by nlinarith
    refine ⟨⟨ka * B, -(ka * A), by positivity, by nlinarith, ?_⟩, ⟨kb * D, -(kb * C), by positivity, by nlinarith, ?_⟩⟩
    · rw [e1]; ext <;> simp <;> ring
    · rw [e2]; ext <;> simp <;> ring

/-- The test holds if there is a direction of that kind and the edges are not parallel. -/
theorem faces_minkowski {a b : PEdge} {ka kb : ℝ} (hka : 0 < ka) (hkb : 0 < kb) {ea eb : V3 ℝ}
    (ha : ea = smul ka (cross a.n1 a.n0)) (hb : eb = smul kb (cross b.n1 b.n0)) (hx : cross ea eb ≠ 0) {d : V3 ℝ}
    (h : Faces2 a b d) : minkowskiFace a.n0 a.n1 b.n0 b.n1 ea eb := by
  obtain ⟨⟨s, t, hs, ht, hd⟩, u, v, hu, hv, hd'⟩ := h
  have e1 : cross ea eb = smul (ka * dot a.n1 eb) a.n0 - smul (ka * dot a.n0 eb) a.n1 := by
    rw [ha]; exact cross_span ka a.n1 a.n0 eb
  have p1 : s * dot a.n0 ea = 0 ∧ t * dot a.n1 ea = 0 := by
    rw [ha]; constructor <;> simp [dot, cross] <;> ring_nf <;> simp
  have p2 : dot b.n0 eb = 0 ∧ dot b.n1 eb = 0 := by
    rw [hb]; constructor <;> simp [dot, cross] <;> ring
  -- `d` is perpendicular to both edges
  have q1 : dot d ea = 0 := by rw [hd, dot_add_left, dot_smul_left, dot_smul_left]; linarith [p1.1, p1.2]
  have q2 : dot d eb = 0 := by
    have : dot (-d) eb = 0 := by rw [hd', dot_add_left, dot_smul_left, dot_smul_left, p2.1, p2.2]; ring
    rw [dot_neg_left] at this; linarith
  have r1 : u * dot b.n0 ea + v * dot b.n1 ea = 0 := by
    have : dot (-d) ea = 0 := by rw [dot_neg_left, q1, neg_zero]
    rw [hd', dot_add_left, dot_smul_left, dot_smul_left] at this; exact this
  have r2 : s * dot a.n0 eb + t * dot a.n1 eb = 0 := by
    rw [hd, dot_add_left, dot_smul_left, dot_smul_left] at q2; exact q2
  have hB : dot a.n1 eb ≠ 0 := by
    intro h0
    have hA : dot a.n0 eb = 0 := by
      rw [h0] at r2
      have : s * dot a.n0 eb = 0 := by linarith
      rcases mul_eq_zero.mp this with h | h
      · exact absurd h hs.ne'
      · exact h
    apply hx
    rw [e1, h0, hA]; ext <;> simp
  -- the triple product of the two edges and `d`
  have t1 : dot (cross ea eb) d = ka * (dot a.n1 eb * dot a.n0 d - dot a.n0 eb * dot a.n1 d) := by
    rw [e1, dot_sub_left, dot_smul_left, dot_smul_left]; ring
  have e2 : cross ea eb = smul (kb * dot b.n0 ea) b.n1 - smul (kb * dot b.n1 ea) b.n0 := by
    rw [cross_anti ea eb, hb]
    rw [cross_span kb b.n1 b.n0 ea]; ext <;> simp
  -- `cross ea eb` is a multiple of `d`
  have hC : dot b.n0 ea * dot a.n1 eb < 0 := by
    -- compare both expressions with `d`
    have c1 : smul s (cross ea eb) = smul (ka * dot a.n1 eb) d := by
      have hA : s * dot a.n0 eb = -(t * dot a.n1 eb) := by linarith
      rw [e1, hd]
      have hx' : s * (ka * dot a.n0 eb) = -(ka * dot a.n1 eb * t) := by
        have : s * (ka * dot a.n0 eb) = ka * (s * dot a.n0 eb) := by ring
        rw [this, hA]; ring
      ext <;> simp only [smul_x, smul_y, smul_z, sub_x, sub_y, sub_z, add_x, add_y, add_z, mul_sub, ← mul_assoc] at hx' ⊢ <;>
        rw [hx'] <;> ring
    have c2 : smul v (cross ea eb) = smul (-(kb * dot b.n0 ea)) d := by
      have hD : v * dot b.n1 ea = -(u * dot b.n0 ea) := by linarith
      have hd2 : d = -(smul u b.n0 + smul v b.n1) := by rw [← hd']; ext <;> simp
      rw [e2, hd2]
      have hx' : v * (kb * dot b.n1 ea) = -(kb * dot b.n0 ea * u) := by
        have : v * (kb * dot b.n1 ea) = kb * (v * dot b.n1 ea) := by ring
        rw [this, hD]; ring
      ext <;> simp only [smul_x, smul_y, smul_z, sub_x, sub_y, sub_z, add_x, add_y, add_z, neg_x, neg_y, neg_z, mul_sub, ← mul_assoc] at hx' ⊢ <;>
        rw [hx'] <;> ring
    have dd : d ≠ 0 := by
      intro h0
      apply hx
      rw [h0] at c1
      have z : smul (ka * dot a.n1 eb) (0 : V3 ℝ) = 0 := by ext <;> simp
      rw [z] at c1
      have e := congrArg (smul (1 / s)) c1
      have l : smul (1 / s) (smul s (cross ea eb)) = cross ea eb := by
        ext <;> simp only [smul_x, smul_y, smul_z] <;> field_simp
      rw [l] at e; rw [e]; ext <;> simp
    have dd2 : 0 < dot d d := lt_of_le_of_ne (lengthSqr_nonneg d) (Ne.symm (lengthSqr_ne dd))
    have m1 : s * dot (cross ea eb) d = ka * dot a.n1 eb * dot d d := by
      rw [← dot_smul_left, c1, dot_smul_left]
    have m2 : v * dot (cross ea eb) d = -(kb * dot b.n0 ea) * dot d d := by
      rw [← dot_smul_left, c2, dot_smul_left]
    have hB2 : 0 < dot a.n1 eb * dot a.n1 eb := mul_self_pos.mpr hB
    have m3 : s * (kb * dot b.n0 ea) * dot d d = -(v * (ka * dot a.n1 eb) * dot d d) := by
      have : s * (v * dot (cross ea eb) d) = v * (s * dot (cross ea eb) d) := by ring
      rw [m1, m2] at this; linarith
    have m4 : s * kb * dot b.n0 ea = -(v * ka * dot a.n1 eb) := by
      have : (s * kb * dot b.n0 ea + v * ka * dot a.n1 eb) * dot d d = 0 := by linarith
      rcases mul_eq_zero.mp this with h | h
      · linarith
      · exact absurd h dd2.ne'
    have m5 : (s * kb) * (dot b.n0 ea * dot a.n1 eb) = -(v * ka * (dot a.n1 eb * dot a.n1 eb)) := by
      have : (s * kb) * (dot b.n0 ea * dot a.n1 eb) = (s * kb * dot b.n0 ea) * dot a.n1 eb := by ring
      rw [this, m4]; ring
    have m6 : 0 < v * ka * (dot a.n1 eb * dot a.n1 eb) := by positivity
    have m7 : 0 < s * kb := by positivity
    by_contra hcon
    nlinarith [not_lt.mp hcon]
  unfold minkowskiFace
  simp only
  generalize dot b.n0 ea = C at *
  generalize dot b.n1 ea = D at *
  generalize dot a.n0 eb = A at *
  generalize dot a.n1 eb = B at *
  have hC0 : C ≠ 0 := by rintro rfl; simp at hC
  refine ⟨?_, ?_, by linarith⟩
  · have h1 : v * (C * D) = -(u * (C * C)) := by
      have : v * (C * D) = C * (v * D) := by ring
      rw [this, show v * D = -(u * C) by linarith]; ring
    have h2 : 0 < C * C := mul_self_pos.mpr hC0
    have h3 : 0 < u * (C * C) := by positivity
    show -C * -D < 0
    have : -C * -D = C * D := by ring
    rw [this]
    by_contra hcon
    nlinarith [not_lt.mp hcon]
  · have h1 : s * (A * B) = -(t * (B * B)) := by
      have : s * (A * B) = (s * A) * B := by ring
      rw [this, show s * A = -(t * B) by linarith]; ring
    have h2 : 0 < B * B := mul_self_pos.mpr hB
    have h3 : 0 < t * (B * B) := by positivity
    by_contra hcon
    nlinarith [not_lt.mp hcon]

end Edyn.Collide
