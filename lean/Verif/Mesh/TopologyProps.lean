import Verif.Mesh.Topology

/-!
# The derived topology is the topology of the triangles
-/

namespace Edyn.Mesh.Topo

/-- Edge `e` of a list of edges joins the vertices `x` and `y`. -/
def Joins (edges : List (Nat × Nat)) (e x y : Nat) : Prop :=
  edges[e]? = some (x, y) ∨ edges[e]? = some (y, x)

theorem joins_of_same {edges : List (Nat × Nat)} {e x y : Nat}
    (h : ∃ p, edges[e]? = some p ∧ samePair p (x, y)) : Joins edges e x y := by
  obtain ⟨⟨a, b⟩, hp, hs⟩ := h
  rcases hs with ⟨rfl, rfl⟩ | ⟨rfl, rfl⟩
  · exact Or.inl hp
  · exact Or.inr hp

theorem joins_prefix {l l' : List (Nat × Nat)} (h : l <+: l') {e x y : Nat} (hj : Joins l e x y) :
    Joins l' e x y := by
  obtain ⟨m, rfl⟩ := h
  rcases hj with hj | hj
  · exact Or.inl (by rw [List.getElem?_append_left (List.getElem?_eq_some_iff.mp hj).1]; exact hj)
  · exact Or.inr (by rw [List.getElem?_append_left (List.getElem?_eq_some_iff.mp hj).1]; exact hj)

/-- The corners of the faces of `ts`, the first of which has index `f`. -/
def cornersFrom (f : Nat) : List Tri → Corners
  | [] => []
  | t :: ts => (f, t.a, t.b) :: (f, t.b, t.c) :: (f, t.c, t.a) :: cornersFrom (f + 1) ts

theorem mem_cornersFrom (ts : List Tri) (f g : Nat) (q : Nat × Nat) :
    (g, q) ∈ cornersFrom f ts ↔ ∃ (i : Nat) (t : Tri), ts[i]? = some t ∧ g = f + i ∧ Side t q := by
  induction ts generalizing f with
  | nil => simp [cornersFrom]
  | cons t ts ih =>
    simp only [cornersFrom, List.mem_cons, ih, Prod.mk.injEq]
    constructor
    · rintro (⟨h, h2⟩ | ⟨h, h2⟩ | ⟨h, h2⟩ | ⟨i, t', h1, h2, h3⟩)
      · exact ⟨0, t, by simp, by omega, Or.inl h2⟩
      · exact ⟨0, t, by simp, by omega, Or.inr (Or.inl h2)⟩
      · exact ⟨0, t, by simp, by omega, Or.inr (Or.inr h2)⟩
      · exact ⟨i + 1, t', by simpa using h1, by omega, h3⟩
    · rintro ⟨i, t', h1, h2, h3⟩
      cases i with
      | zero =>
        simp only [List.getElem?_cons_zero, Option.some.injEq] at h1
        subst h1
        rcases h3 with h3 | h3 | h3
        · exact Or.inl ⟨by omega, h3⟩
        · exact Or.inr (Or.inl ⟨by omega, h3⟩)
        · exact Or.inr (Or.inr (Or.inl ⟨by omega, h3⟩))
      | succ i =>
        exact Or.inr (Or.inr (Or.inr ⟨i, t', by simpa using h1, by omega, h3⟩))

theorem face_inv {n f : Nat} {cs : Corners} {w w' : Work} {t : Tri} (h : Inv n cs w)
    (hg : ∀ g r, (g, r) ∈ cs → g ≤ f) (he : face w f t = some w') :
    Inv n (cs ++ [(f, t.a, t.b), (f, t.b, t.c), (f, t.c, t.a)]) w' ∧ w.edgeVerts <+: w'.edgeVerts ∧
      ∃ e0 e1 e2, w'.faceEdges = w.faceEdges ++ [(e0, e1, e2)] ∧ Joins w'.edgeVerts e0 t.a t.b ∧
        Joins w'.edgeVerts e1 t.b t.c ∧ Joins w'.edgeVerts e2 t.c t.a := by
  unfold face at he
  cases h0 : corner w f t.a t.b with
  | none => rw [h0] at he; simp at he
  | some r0 =>
    obtain ⟨w0, e0⟩ := r0
    rw [h0] at he
    simp only [Option.bind_some] at he
    obtain ⟨i0, j0, p0, f0⟩ := corner_inv h hg h0
    have hg0 : ∀ g r, (g, r) ∈ cs ++ [(f, t.a, t.b)] → g ≤ f := by
      intro g r hr
      rcases List.mem_append.mp hr with hr | hr
      · exact hg g r hr
      · simp only [List.mem_singleton, Prod.mk.injEq] at hr; exact le_of_eq hr.1
    cases h1 : corner w0 f t.b t.c with
    | none => rw [h1] at he; simp at he
    | some r1 =>
      obtain ⟨w1, e1⟩ := r1
      rw [h1] at he
      simp only [Option.bind_some] at he
      obtain ⟨i1, j1, p1, f1⟩ := corner_inv i0 hg0 h1
      have hg1 : ∀ g r, (g, r) ∈ cs ++ [(f, t.a, t.b)] ++ [(f, t.b, t.c)] → g ≤ f := by
        intro g r hr
        rcases List.mem_append.mp hr with hr | hr
        · exact hg0 g r hr
        · simp only [List.mem_singleton, Prod.mk.injEq] at hr; exact le_of_eq hr.1
      cases h2 : corner w1 f t.c t.a with
      | none => rw [h2] at he; simp at he
      | some r2 =>
        obtain ⟨w2, e2⟩ := r2
        rw [h2] at he
        simp only [Option.bind_some, Option.some.injEq] at he
        obtain ⟨i2, j2, p2, f2⟩ := corner_inv i1 hg1 h2
        subst he
        refine ⟨?_, p0.trans (p1.trans p2), e0, e1, e2, ?_, ?_, ?_, ?_⟩
        · have : cs ++ [(f, t.a, t.b), (f, t.b, t.c), (f, t.c, t.a)]
              = cs ++ [(f, t.a, t.b)] ++ [(f, t.b, t.c)] ++ [(f, t.c, t.a)] := by simp
          rw [this]
          exact ⟨i2.len, i2.verts, i2.distinct, i2.used, i2.covers, i2.inRange, i2.faces, i2.sorted,
            i2.atVertex⟩
        · simp only [f2, f1, f0]
        · exact joins_prefix (p1.trans p2) (joins_of_same j0)
        · exact joins_prefix p2 (joins_of_same j1)
        · exact joins_of_same j2

theorem faces_inv {n : Nat} (ts : List Tri) : ∀ {f : Nat} {cs : Corners} {w w' : Work},
    Inv n cs w → (∀ g r, (g, r) ∈ cs → g < f) → faces w f ts = some w' →
    Inv n (cs ++ cornersFrom f ts) w' ∧ w.edgeVerts <+: w'.edgeVerts ∧
      ∃ fe, w'.faceEdges = w.faceEdges ++ fe ∧ fe.length = ts.length ∧
        ∀ (i : Nat) t, ts[i]? = some t → ∃ e0 e1 e2, fe[i]? = some (e0, e1, e2) ∧
          Joins w'.edgeVerts e0 t.a t.b ∧ Joins w'.edgeVerts e1 t.b t.c ∧
          Joins w'.edgeVerts e2 t.c t.a := by
  induction ts with
  | nil =>
    intro f cs w w' h hg e
    simp only [faces, Option.some.injEq] at e
    subst e
    exact ⟨by simpa [cornersFrom] using h, List.prefix_refl _, [], by simp, rfl, by simp⟩
  | cons t ts ih =>
    intro f cs w w' h hg e
    simp only [faces] at e
    cases hf : face w f t with
    | none => rw [hf] at e; simp at e
    | some w1 =>
      rw [hf] at e
      simp only [Option.bind_some] at e
      obtain ⟨i1, p1, e0, e1, e2, hfe, j0, j1, j2⟩ := face_inv h (fun g r hr => le_of_lt (hg g r hr)) hf
      obtain ⟨i2, p2, fe, hfe2, hlen, hall⟩ := ih (f := f + 1) i1 (by
        intro g r hr
        rcases List.mem_append.mp hr with hr | hr
        · have := hg g r hr; omega
        · simp only [List.mem_cons, Prod.mk.injEq, List.not_mem_nil, or_false] at hr
          omega) e
      refine ⟨?_, p1.trans p2, (e0, e1, e2) :: fe, ?_, by simp [hlen], ?_⟩
      · have : cs ++ cornersFrom f (t :: ts)
            = cs ++ [(f, t.a, t.b), (f, t.b, t.c), (f, t.c, t.a)] ++ cornersFrom (f + 1) ts := by
          simp [cornersFrom]
        rw [this]; exact i2
      · rw [hfe2, hfe]; simp
      · intro i t' ht'
        cases i with
        | zero =>
          simp only [List.getElem?_cons_zero, Option.some.injEq] at ht'
          subst ht'
          exact ⟨e0, e1, e2, by simp, joins_prefix p2 j0, joins_prefix p2 j1, joins_prefix p2 j2⟩
        | succ i => simpa using hall i t' (by simpa using ht')

theorem inv_start (n : Nat) : Inv n [] ⟨[], [], [], List.replicate n []⟩ where
  len := rfl
  verts := by simp
  distinct := by simp
  used := by simp
  covers := by simp
  inRange := by simp
  faces := by simp
  sorted := by
    intro v l hl
    have := List.mem_of_getElem? hl
    simp only [List.mem_replicate] at this
    rw [this.2]; simp
  atVertex := by
    intro v l e hl
    have := List.mem_of_getElem? hl
    simp only [List.mem_replicate] at this
    rw [this.2]; simp

theorem closeEdges_spec (l : List (Option Nat × Option Nat)) (ps : List (Nat × Nat)) (bs : List Bool)
    (h : closeEdges l = some (ps, bs)) : ps.length = l.length ∧ bs.length = l.length ∧
      ∀ (e : Nat) f g, l[e]? = some (some f, g) → ps[e]? = some (f, g.getD f) ∧ bs[e]? = some g.isNone := by
  induction l generalizing ps bs with
  | nil => simp only [closeEdges, Option.some.injEq, Prod.mk.injEq] at h; obtain ⟨rfl, rfl⟩ := h; simp
  | cons x l ih =>
    obtain ⟨x1, x2⟩ := x
    cases x1 with
    | none => simp [closeEdges] at h
    | some x1 =>
      simp only [closeEdges] at h
      cases hc : closeEdges l with
      | none => rw [hc] at h; simp at h
      | some r =>
        obtain ⟨ps', bs'⟩ := r
        rw [hc] at h
        simp only [Option.map_some, Option.some.injEq, Prod.mk.injEq] at h
        obtain ⟨rfl, rfl⟩ := h
        obtain ⟨h1, h2, h3⟩ := ih ps' bs' hc
        refine ⟨by simp [h1], by simp [h2], ?_⟩
        intro e f g he
        cases e with
        | zero =>
          simp only [List.getElem?_cons_zero, Option.some.injEq, Prod.mk.injEq] at he
          obtain ⟨rfl, rfl⟩ := he
          simp
        | succ e => simpa using h3 e f g (by simpa using he)

theorem closeEdges_some (l : List (Option Nat × Option Nat))
    (h : ∀ (e : Nat) p, l[e]? = some p → p.1.isSome = true) : (closeEdges l).isSome = true := by
  induction l with
  | nil => rfl
  | cons x l ih =>
    obtain ⟨x1, x2⟩ := x
    have h0 := h 0 (x1, x2) (by simp)
    cases x1 with
    | none => simp at h0
    | some x1 =>
      have := ih (fun e p hp => h (e + 1) p (by simpa using hp))
      simpa [closeEdges] using this

theorem findEdge_verts (w : Work) (i0 i1 : Nat) :
    (findEdge w i0 i1).1.vertexEdges = w.vertexEdges := by
  unfold findEdge; split <;> rfl

theorem corner_some {w : Work} {f i0 i1 : Nat} (h0 : i0 < w.vertexEdges.length)
    (h1 : i1 < w.vertexEdges.length) :
    ∃ w' e, corner w f i0 i1 = some (w', e) ∧ w'.vertexEdges.length = w.vertexEdges.length := by
  unfold corner
  have hv := findEdge_verts w i0 i1
  simp only
  rw [hv, if_pos ⟨h0, h1⟩]
  exact ⟨_, _, rfl, by simp⟩

theorem faces_some (ts : List Tri) : ∀ (w : Work) (f : Nat),
    (∀ t ∈ ts, t.a < w.vertexEdges.length ∧ t.b < w.vertexEdges.length ∧ t.c < w.vertexEdges.length) →
    (faces w f ts).isSome = true := by
  induction ts with
  | nil => intros; rfl
  | cons t ts ih =>
    intro w f h
    obtain ⟨ha, hb, hc⟩ := h t (by simp)
    obtain ⟨w0, e0, h0, l0⟩ := corner_some (f := f) ha hb
    obtain ⟨w1, e1, h1, l1⟩ := corner_some (f := f) (w := w0) (by rw [l0]; exact hb) (by rw [l0]; exact hc)
    obtain ⟨w2, e2, h2, l2⟩ := corner_some (f := f) (w := w1) (by rw [l1, l0]; exact hc) (by rw [l1, l0]; exact ha)
    simp only [faces, face, h0, h1, h2, Option.bind_some]
    refine ih _ _ ?_
    intro t' ht'
    simp only [l2, l1, l0]
    exact h t' (by simp [ht'])

theorem used_iff (ts : List Tri) (f : Nat) (p : Nat × Nat) :
    Used (cornersFrom 0 ts) f p ↔ Uses ts f p := by
  unfold Used Uses
  constructor
  · rintro ⟨q, hq, hs⟩
    obtain ⟨i, t, h1, h2, h3⟩ := (mem_cornersFrom _ _ _ _).mp hq
    rw [Nat.zero_add] at h2
    subst h2
    refine ⟨t, h1, ?_⟩
    obtain ⟨a, b⟩ := p
    obtain ⟨c, d⟩ := q
    rcases hs with ⟨rfl, rfl⟩ | ⟨rfl, rfl⟩
    · exact Or.inl h3
    · exact Or.inr h3
  · rintro ⟨t, h1, h2⟩
    rcases h2 with h2 | h2
    · exact ⟨p, (mem_cornersFrom _ _ _ _).mpr ⟨f, t, h1, by omega, h2⟩, samePair_refl _⟩
    · exact ⟨(p.2, p.1), (mem_cornersFrom _ _ _ _).mpr ⟨f, t, h1, by omega, h2⟩, Or.inr ⟨rfl, rfl⟩⟩

/-- What is known of the result. -/
theorem initEdges_spec {n : Nat} {ts : List Tri} {T : Topology} (h : initEdges n ts = some T) :
    ∃ w, Inv n (cornersFrom 0 ts) w ∧ T.edgeVerts = w.edgeVerts ∧ T.vertexEdges = w.vertexEdges ∧
      closeEdges w.edgeFaces = some (T.edgeFaces, T.boundary) ∧ T.faceEdges.length = ts.length ∧
      ∀ (i : Nat) t, ts[i]? = some t → ∃ e0 e1 e2, T.faceEdges[i]? = some (e0, e1, e2) ∧
          Joins T.edgeVerts e0 t.a t.b ∧ Joins T.edgeVerts e1 t.b t.c ∧ Joins T.edgeVerts e2 t.c t.a := by
  unfold initEdges at h
  cases hf : faces ⟨[], [], [], List.replicate n []⟩ 0 ts with
  | none => rw [hf] at h; simp at h
  | some w =>
    rw [hf] at h
    simp only [Option.bind_some] at h
    cases hc : closeEdges w.edgeFaces with
    | none => rw [hc] at h; simp at h
    | some r =>
      obtain ⟨ps, bs⟩ := r
      rw [hc] at h
      simp only [Option.map_some, Option.some.injEq] at h
      subst h
      obtain ⟨hi, _, fe, hfe, hlen, hall⟩ := faces_inv ts (inv_start n) (by simp) hf
      simp only [List.nil_append] at hi hfe
      subst hfe
      exact ⟨w, hi, rfl, rfl, hc, hlen, hall⟩

/-! ## The theorems -/

/-- **Meshes with indices in range can be initialized.** -/
theorem init_succeeds (n : Nat) (ts : List Tri) (h : ∀ t ∈ ts, t.a < n ∧ t.b < n ∧ t.c < n) :
    ∃ T, initEdges n ts = some T := by
  have hs := faces_some ts ⟨[], [], [], List.replicate n []⟩ 0 (by simpa using h)
  obtain ⟨w, hw⟩ := Option.isSome_iff_exists.mp hs
  obtain ⟨hi, -⟩ := faces_inv ts (inv_start n) (by simp) hw
  simp only [List.nil_append] at hi
  have hc := closeEdges_some w.edgeFaces (by
    intro e p hp
    have hlt := (List.getElem?_eq_some_iff.mp hp).1
    rw [hi.len] at hlt
    obtain ⟨f0, h1, -⟩ := hi.faces e _ p (List.getElem?_eq_getElem hlt) hp
    rw [h1]; rfl)
  obtain ⟨⟨ps, bs⟩, hr⟩ := Option.isSome_iff_exists.mp hc
  exact ⟨⟨w.edgeVerts, ps, bs, w.faceEdges, w.vertexEdges⟩, by simp [initEdges, hw, hr]⟩

/-- **The edges of a face** join its consecutive vertices. -/
theorem face_edges (n : Nat) (ts : List Tri) (T : Topology) (h : initEdges n ts = some T)
    (f : Nat) (t : Tri) (ht : ts[f]? = some t) :
    ∃ e0 e1 e2, T.faceEdges[f]? = some (e0, e1, e2) ∧ Joins T.edgeVerts e0 t.a t.b ∧
      Joins T.edgeVerts e1 t.b t.c ∧ Joins T.edgeVerts e2 t.c t.a := by
  obtain ⟨w, _, _, _, _, _, hall⟩ := initEdges_spec h
  exact hall f t ht

/-- Every face has its three edges, no others are listed. -/
theorem face_edges_length (n : Nat) (ts : List Tri) (T : Topology) (h : initEdges n ts = some T) :
    T.faceEdges.length = ts.length := by
  obtain ⟨w, _, _, _, _, hlen, _⟩ := initEdges_spec h
  exact hlen

/-- **One edge per pair of vertices.**  Two edges never join the same vertices, an edge joins two
vertices exactly when they are the ends of a side of some triangle, and all arrays indexed by edges
have one entry per edge. -/
theorem edges_unique (n : Nat) (ts : List Tri) (T : Topology) (h : initEdges n ts = some T) :
    (∀ e e' x y, Joins T.edgeVerts e x y → Joins T.edgeVerts e' x y → e = e')
      ∧ (∀ x y, (∃ e, Joins T.edgeVerts e x y) ↔ ∃ f, Uses ts f (x, y))
      ∧ T.edgeFaces.length = T.edgeVerts.length ∧ T.boundary.length = T.edgeVerts.length := by
  obtain ⟨w, hi, hv, _, hc, _, _⟩ := initEdges_spec h
  have hcl := closeEdges_spec _ _ _ hc
  rw [hv]
  refine ⟨?_, ?_, by rw [hcl.1, hi.len], by rw [hcl.2.1, hi.len]⟩
  · intro e e' x y h1 h2
    rcases h1 with h1 | h1 <;> rcases h2 with h2 | h2
    · exact distinct_index hi.distinct h1 h2 (samePair_refl _)
    · exact distinct_index hi.distinct h1 h2 (Or.inr ⟨rfl, rfl⟩)
    · exact distinct_index hi.distinct h1 h2 (Or.inr ⟨rfl, rfl⟩)
    · exact distinct_index hi.distinct h1 h2 (samePair_refl _)
  · intro x y
    constructor
    · rintro ⟨e, he | he⟩
      · obtain ⟨f, hf⟩ := hi.used e _ he
        exact ⟨f, (used_iff ts f _).mp ⟨_, hf, samePair_refl _⟩⟩
      · obtain ⟨f, hf⟩ := hi.used e _ he
        exact ⟨f, (used_iff ts f _).mp ⟨_, hf, Or.inr ⟨rfl, rfl⟩⟩⟩
    · rintro ⟨f, hf⟩
      obtain ⟨q, hq, hs⟩ := (used_iff ts f _).mpr hf
      obtain ⟨e, p, hp, hs'⟩ := hi.covers f q hq
      exact ⟨e, joins_of_same ⟨p, hp, samePair_trans hs' (samePair_symm hs)⟩⟩

/-- **The faces of an edge.**  The two entries are the first and the last face that has the edge as
a side, and the edge is marked as boundary exactly when only one face has it. -/
theorem edge_faces (n : Nat) (ts : List Tri) (T : Topology) (h : initEdges n ts = some T)
    (e : Nat) (p : Nat × Nat) (he : T.edgeVerts[e]? = some p) :
    ∃ f0 f1, T.edgeFaces[e]? = some (f0, f1) ∧ Uses ts f0 p ∧ Uses ts f1 p ∧
      (∀ f, Uses ts f p → f0 ≤ f ∧ f ≤ f1) ∧
      (T.boundary[e]? = some true ∨ T.boundary[e]? = some false) ∧
      (T.boundary[e]? = some true ↔ ∃ f, Uses ts f p ∧ ∀ g, Uses ts g p → g = f) := by
  obtain ⟨w, hi, hv, _, hc, _, _⟩ := initEdges_spec h
  obtain ⟨hl, _, hcl⟩ := closeEdges_spec _ _ _ hc
  rw [hv] at he
  have hlt : e < w.edgeFaces.length := by
    rw [hi.len]; exact (List.getElem?_eq_some_iff.mp he).1
  obtain ⟨⟨g0, g1⟩, hg⟩ : ∃ ef, w.edgeFaces[e]? = some ef := ⟨_, List.getElem?_eq_getElem hlt⟩
  obtain ⟨f0, h1, h2, h3, h4, h5⟩ := hi.faces e p _ he hg
  simp only at h1 h4 h5
  subst h1
  obtain ⟨c1, c2⟩ := hcl e f0 g1 hg
  simp only [used_iff] at h2 h3 h4 h5
  cases g1 with
  | none =>
    have h6 := h4 rfl
    refine ⟨f0, f0, by simpa using c1, h2, h2, ?_, Or.inl (by simpa using c2), ?_⟩
    · intro f hf; rw [h6 f hf]; simp
    · rw [c2]; simp only [Option.isNone_none, true_iff]
      exact ⟨f0, h2, h6⟩
  | some f1 =>
    obtain ⟨a, b, c⟩ := h5 f1 rfl
    refine ⟨f0, f1, by simpa using c1, h2, b, fun f hf => ⟨h3 f hf, c f hf⟩,
      Or.inr (by simpa using c2), ?_⟩
    rw [c2]
    simp only [Option.isNone_some, Option.some.injEq, Bool.false_eq_true, false_iff]
    rintro ⟨f, hf, hu⟩
    have := hu f0 h2
    have := hu f1 b
    omega

/-- **Manifold edges.**  If at most two faces have the edge, the two entries are exactly the faces
that have it. -/
theorem manifold_edge_faces (n : Nat) (ts : List Tri) (T : Topology) (h : initEdges n ts = some T)
    (e : Nat) (p : Nat × Nat) (he : T.edgeVerts[e]? = some p)
    (hm : ∃ a b, ∀ f, Uses ts f p → f = a ∨ f = b) :
    ∃ f0 f1, T.edgeFaces[e]? = some (f0, f1) ∧ ∀ f, Uses ts f p ↔ f = f0 ∨ f = f1 := by
  obtain ⟨f0, f1, h1, h2, h3, h4, -⟩ := edge_faces n ts T h e p he
  refine ⟨f0, f1, h1, ?_⟩
  obtain ⟨a, b, hab⟩ := hm
  intro f
  constructor
  · intro hf
    have := h4 f hf
    have := hab f hf
    have := hab f0 h2
    have := hab f1 h3
    have h01 := h4 f0 h2
    omega
  · rintro (rfl | rfl)
    · exact h2
    · exact h3

/-- **The face on the other side** of an edge shared by exactly the faces `f` and `g`, as used for
adjacent normals, is the other one of the two; for a boundary edge it is the face itself. -/
theorem neighbour (n : Nat) (ts : List Tri) (T : Topology) (h : initEdges n ts = some T)
    (e f g : Nat) (p : Nat × Nat) (he : T.edgeVerts[e]? = some p)
    (hm : ∀ k, Uses ts k p ↔ k = f ∨ k = g) :
    (T.edgeFaces[e]?).map (fun q => otherFace q f) = some g := by
  obtain ⟨f0, f1, h1, h2, h3, h4, -⟩ := edge_faces n ts T h e p he
  have hf := h4 f ((hm f).mpr (Or.inl rfl))
  have hg := h4 g ((hm g).mpr (Or.inr rfl))
  have h5 := (hm f0).mp h2
  have h6 := (hm f1).mp h3
  rw [h1]
  simp only [Option.map_some, otherFace, Option.some.injEq]
  by_cases hh : f0 = f
  · rw [if_pos hh]; omega
  · rw [if_neg hh]; omega

/-- **The edges of a vertex** are listed in ascending order, each once, and are exactly the edges
that have the vertex as an end. -/
theorem vertex_edges (n : Nat) (ts : List Tri) (T : Topology) (h : initEdges n ts = some T) :
    T.vertexEdges.length = n ∧ ∀ (v : Nat) l, T.vertexEdges[v]? = some l → l.Pairwise (· < ·) ∧
      ∀ e, e ∈ l ↔ ∃ y, Joins T.edgeVerts e v y := by
  obtain ⟨w, hi, hv, hve, _, _, _⟩ := initEdges_spec h
  rw [hve, hv]
  refine ⟨hi.verts, ?_⟩
  intro v l hl
  refine ⟨hi.sorted v l hl, ?_⟩
  intro e
  rw [hi.atVertex v l e hl]
  constructor
  · rintro ⟨⟨x, y⟩, hp, rfl | rfl⟩
    · exact ⟨y, Or.inl hp⟩
    · exact ⟨x, Or.inr hp⟩
  · rintro ⟨y, hj | hj⟩
    · exact ⟨_, hj, Or.inl rfl⟩
    · exact ⟨_, hj, Or.inr rfl⟩

/-! ## Examples, and meshes that are not manifold -/

/-- A square of two triangles and a third triangle attached to one side. -/
def strip : List Tri := [⟨0, 1, 2⟩, ⟨0, 2, 3⟩, ⟨3, 2, 4⟩]

example : initEdges 5 strip = some
    { edgeVerts := [(0, 1), (1, 2), (2, 0), (2, 3), (3, 0), (2, 4), (4, 3)]
      edgeFaces := [(0, 0), (0, 0), (0, 1), (1, 2), (1, 1), (2, 2), (2, 2)]
      boundary := [true, true, false, false, true, true, true]
      faceEdges := [(0, 1, 2), (2, 3, 4), (3, 5, 6)]
      vertexEdges := [[0, 2, 4], [0, 1], [1, 2, 3, 5], [3, 4, 6], [5, 6]] } := by decide +kernel

/-- The hypothesis of `init_succeeds`. -/
example : ∀ t ∈ strip, t.a < 5 ∧ t.b < 5 ∧ t.c < 5 := by decide

/-- The hypothesis of `neighbour` and `manifold_edge_faces` for the diagonal of the square. -/
example : ∀ k, Uses strip k (2, 0) ↔ k = 0 ∨ k = 1 := by
  intro k
  constructor
  · rintro ⟨t, ht, hs⟩
    have hk : k < 3 := (List.getElem?_eq_some_iff.mp ht).1
    have : k = 0 ∨ k = 1 ∨ k = 2 := by omega
    rcases this with rfl | rfl | rfl
    · exact Or.inl rfl
    · exact Or.inr rfl
    · simp only [strip, List.getElem?_cons_succ, List.getElem?_cons_zero, Option.some.injEq] at ht
      subst ht
      simp [Side] at hs
  · rintro (rfl | rfl)
    · exact ⟨⟨0, 1, 2⟩, rfl, Or.inl (by simp [Side])⟩
    · exact ⟨⟨0, 2, 3⟩, rfl, Or.inr (by simp [Side])⟩

/-- Every edge lists all the faces that use it. -/
def edgeFacesFull : Prop :=
  ∀ (n : Nat) (ts : List Tri) (T : Topology), initEdges n ts = some T →
    ∀ (e : Nat) p, T.edgeVerts[e]? = some p → ∀ f, Uses ts f p →
      ∃ f0 f1, T.edgeFaces[e]? = some (f0, f1) ∧ (f = f0 ∨ f = f1)

/-- Three triangles that share an edge. -/
def fan : List Tri := [⟨0, 1, 2⟩, ⟨1, 0, 3⟩, ⟨0, 1, 4⟩]

/-- Where three faces meet, the second one is forgotten. -/
theorem edge_faces_refuted : ¬ edgeFacesFull := by
  intro h
  obtain ⟨T, hT⟩ := init_succeeds 5 fan (by decide)
  have h2 : (initEdges 5 fan).map (fun T => (T.edgeVerts[0]?, T.edgeFaces[0]?))
      = some (some (0, 1), some (0, 2)) := by decide +kernel
  rw [hT] at h2
  simp only [Option.map_some, Option.some.injEq, Prod.mk.injEq] at h2
  obtain ⟨f0, f1, h3, h4⟩ := h 5 fan T hT 0 (0, 1) h2.1 1 ⟨⟨1, 0, 3⟩, rfl, Or.inr (by simp [Side])⟩
  rw [h2.2] at h3
  simp only [Option.some.injEq, Prod.mk.injEq] at h3
  omega

/-- Neighbours are mutual: the face across an edge has the first face across the same edge. -/
def neighboursMutualFull : Prop :=
  ∀ (n : Nat) (ts : List Tri) (T : Topology), initEdges n ts = some T →
    ∀ (e : Nat) q f, T.edgeFaces[e]? = some q → (∃ p, T.edgeVerts[e]? = some p ∧ Uses ts f p) →
      otherFace q (otherFace q f) = f

/-- The face that is forgotten has a neighbour of which it is not a neighbour. -/
theorem neighbours_mutual_refuted : ¬ neighboursMutualFull := by
  intro h
  obtain ⟨T, hT⟩ := init_succeeds 5 fan (by decide)
  have h2 : (initEdges 5 fan).map (fun T => (T.edgeVerts[0]?, T.edgeFaces[0]?))
      = some (some (0, 1), some (0, 2)) := by decide +kernel
  rw [hT] at h2
  simp only [Option.map_some, Option.some.injEq, Prod.mk.injEq] at h2
  have := h 5 fan T hT 0 (0, 2) 1 h2.2 ⟨(0, 1), h2.1, ⟨1, 0, 3⟩, rfl, Or.inr (by simp [Side])⟩
  simp [otherFace] at this

end Edyn.Mesh.Topo
