import Verif.Mesh.TopologyProps
import Verif.Mesh.Interp

/-!
# Neighbour normals and convexity flags of a mesh

`triangle_mesh::calculate_adjacent_normals` (src/edyn/shapes/triangle_mesh.cpp 97-128), as a loop over
the faces that fills in the arrays.  Scalars are elements of an ordered field; `normalize` is any
function `nrm`.  `none` stands for an index out of range.
-/

namespace Edyn.Mesh.Convex

open Edyn.Math V3 Topo Interp

variable {T : Type} [Field T] [LinearOrder T]

/-- One side of face `f`, from vertex `v0` to vertex `v1`, with edge `e`: the normal stored for it and
the flags of the edges (src/edyn/shapes/triangle_mesh.cpp 103-126). -/
def side (nrm : V3 T → V3 T) (eps : T) (verts normals : List (V3 T)) (edgeFaces : List (Nat × Nat))
    (f e v0 v1 : Nat) (flags : List Bool) : Option (V3 T × List Bool) :=
  (edgeFaces[e]?).bind fun q => (verts[v0]?).bind fun p0 => (verts[v1]?).bind fun p1 =>
  (normals[f]?).bind fun nf =>
  if otherFace q f = f then
    some (-(nrm (nf + smul (1 / 10) (cross nf (p1 - p0)))), flags.set e true)
  else (normals[otherFace q f]?).map fun ng =>
    (ng, flags.set e (decide (dot ng (cross nf (p1 - p0)) < -eps)))

/-- One face (src/edyn/shapes/triangle_mesh.cpp 102-127). -/
def face (nrm : V3 T → V3 T) (eps : T) (verts normals : List (V3 T)) (topo : Topology) (f : Nat) (t : Tri)
    (flags : List Bool) : Option ((V3 T × V3 T × V3 T) × List Bool) :=
  (topo.faceEdges[f]?).bind fun es =>
  (side nrm eps verts normals topo.edgeFaces f es.1 t.a t.b flags).bind fun r0 =>
  (side nrm eps verts normals topo.edgeFaces f es.2.1 t.b t.c r0.2).bind fun r1 =>
  (side nrm eps verts normals topo.edgeFaces f es.2.2 t.c t.a r1.2).map fun r2 =>
    ((r0.1, r1.1, r2.1), r2.2)

/-- The loop over the faces, from face `f` on (src/edyn/shapes/triangle_mesh.cpp 101-128). -/
def loop (nrm : V3 T → V3 T) (eps : T) (verts normals : List (V3 T)) (topo : Topology) :
    Nat → List Tri → List Bool → Option (List (V3 T × V3 T × V3 T) × List Bool)
  | _, [], flags => some ([], flags)
  | f, t :: ts, flags =>
    (face nrm eps verts normals topo f t flags).bind fun r =>
    (loop nrm eps verts normals topo (f + 1) ts r.2).map fun rs => (r.1 :: rs.1, rs.2)

/-- `calculate_adjacent_normals`: the normals beyond each side of each face, and the convexity flag of
each edge (src/edyn/shapes/triangle_mesh.cpp 97-128). -/
def adjacentNormals (nrm : V3 T → V3 T) (eps : T) (verts normals : List (V3 T)) (topo : Topology)
    (ts : List Tri) : Option (List (V3 T × V3 T × V3 T) × List Bool) :=
  loop nrm eps verts normals topo 0 ts (List.replicate topo.edgeVerts.length false)

/-! ## Specification -/

/-- What is stored for the side of face `f` from `v0` to `v1`, which is edge `e`: `n` is the normal of
the face beyond it and `b` says whether it bends down, or, at the boundary, `n` is a downward normal
tilted outwards and `b` is true. -/
def Beyond (nrm : V3 T → V3 T) (eps : T) (verts normals : List (V3 T)) (topo : Topology) (f e v0 v1 : Nat)
    (n : V3 T) (b : Bool) : Prop :=
  ∃ q p0 p1 nf, topo.edgeFaces[e]? = some q ∧ verts[v0]? = some p0 ∧ verts[v1]? = some p1 ∧
    normals[f]? = some nf ∧
    ((otherFace q f = f ∧ n = -(nrm (nf + smul (1 / 10) (cross nf (p1 - p0)))) ∧ b = true) ∨
     (otherFace q f ≠ f ∧ normals[otherFace q f]? = some n ∧
       (b = true ↔ convexEdge eps nf (p1 - p0) n)))

/-! ## Lemmas -/

theorem side_spec {nrm : V3 T → V3 T} {eps : T} {verts normals : List (V3 T)} {topo : Topology}
    {f e v0 v1 : Nat} {flags : List Bool} {r : V3 T × List Bool}
    (h : side nrm eps verts normals topo.edgeFaces f e v0 v1 flags = some r) :
    ∃ b, Beyond nrm eps verts normals topo f e v0 v1 r.1 b ∧ r.2 = flags.set e b := by
  unfold side at h
  cases hq : topo.edgeFaces[e]? with
  | none => rw [hq] at h; simp at h
  | some q =>
    cases h0 : verts[v0]? with
    | none => rw [hq, h0] at h; simp at h
    | some p0 =>
      cases h1 : verts[v1]? with
      | none => rw [hq, h0, h1] at h; simp at h
      | some p1 =>
        cases hn : normals[f]? with
        | none => rw [hq, h0, h1, hn] at h; simp at h
        | some nf =>
          rw [hq, h0, h1, hn] at h
          simp only [Option.bind_some] at h
          by_cases ho : otherFace q f = f
          · rw [if_pos ho] at h
            simp only [Option.some.injEq] at h
            subst h
            exact ⟨true, ⟨q, p0, p1, nf, hq, h0, h1, hn, Or.inl ⟨ho, rfl, rfl⟩⟩, rfl⟩
          · rw [if_neg ho] at h
            cases hg : normals[otherFace q f]? with
            | none => rw [hg] at h; simp at h
            | some ng =>
              rw [hg] at h
              simp only [Option.map_some, Option.some.injEq] at h
              subst h
              refine ⟨_, ⟨q, p0, p1, nf, hq, h0, h1, hn, Or.inr ⟨ho, hg, ?_⟩⟩, rfl⟩
              simp [convexEdge]

/-- Every flag is either an old one or has been written for some side. -/
def Written (nrm : V3 T → V3 T) (eps : T) (verts normals : List (V3 T)) (topo : Topology) (ts : List Tri)
    (e : Nat) (b : Bool) : Prop :=
  ∃ (f : Nat) (t : Tri) (e0 e1 e2 : Nat) (n : V3 T), ts[f]? = some t ∧
    topo.faceEdges[f]? = some (e0, e1, e2) ∧
    ((e = e0 ∧ Beyond nrm eps verts normals topo f e t.a t.b n b) ∨
     (e = e1 ∧ Beyond nrm eps verts normals topo f e t.b t.c n b) ∨
     (e = e2 ∧ Beyond nrm eps verts normals topo f e t.c t.a n b))

theorem get_set_cases {l : List Bool} {i j : Nat} {b c : Bool} (h : (l.set i b)[j]? = some c) :
    (j = i ∧ c = b) ∨ (j ≠ i ∧ l[j]? = some c) := by
  by_cases hij : j = i
  · subst hij
    left
    rw [List.getElem?_set] at h
    simp only [if_true] at h
    split at h
    · simp only [Option.some.injEq] at h; exact ⟨rfl, h.symm⟩
    · simp at h
  · right
    rw [List.getElem?_set_ne (fun h => hij h.symm)] at h
    exact ⟨hij, h⟩

theorem face_spec {nrm : V3 T → V3 T} {eps : T} {verts normals : List (V3 T)} {topo : Topology}
    {f : Nat} {t : Tri} {flags : List Bool} {r : (V3 T × V3 T × V3 T) × List Bool}
    (h : face nrm eps verts normals topo f t flags = some r) :
    ∃ e0 e1 e2 b0 b1 b2, topo.faceEdges[f]? = some (e0, e1, e2) ∧
      Beyond nrm eps verts normals topo f e0 t.a t.b r.1.1 b0 ∧
      Beyond nrm eps verts normals topo f e1 t.b t.c r.1.2.1 b1 ∧
      Beyond nrm eps verts normals topo f e2 t.c t.a r.1.2.2 b2 ∧
      r.2 = ((flags.set e0 b0).set e1 b1).set e2 b2 := by
  unfold face at h
  simp only [Option.bind_eq_some_iff, Option.map_eq_some_iff] at h
  obtain ⟨⟨e0, e1, e2⟩, h1, r0, h2, r1, h3, r2, h4, rfl⟩ := h
  obtain ⟨b0, g0, k0⟩ := side_spec h2
  obtain ⟨b1, g1, k1⟩ := side_spec h3
  obtain ⟨b2, g2, k2⟩ := side_spec h4
  exact ⟨e0, e1, e2, b0, b1, b2, h1, g0, g1, g2, by rw [k2, k1, k0]⟩

theorem loop_spec {nrm : V3 T → V3 T} {eps : T} {verts normals : List (V3 T)} {topo : Topology}
    (all : List Tri) (ts : List Tri) : ∀ (f : Nat) (flags : List Bool) r, all.drop f = ts →
      loop nrm eps verts normals topo f ts flags = some r →
      r.1.length = ts.length ∧ r.2.length = flags.length ∧
      (∀ (i : Nat) t, ts[i]? = some t → ∃ e0 e1 e2 b0 b1 b2 n0 n1 n2,
        topo.faceEdges[f + i]? = some (e0, e1, e2) ∧ r.1[i]? = some (n0, n1, n2) ∧
        Beyond nrm eps verts normals topo (f + i) e0 t.a t.b n0 b0 ∧
        Beyond nrm eps verts normals topo (f + i) e1 t.b t.c n1 b1 ∧
        Beyond nrm eps verts normals topo (f + i) e2 t.c t.a n2 b2) ∧
      (∀ (e : Nat) b, r.2[e]? = some b →
        Written nrm eps verts normals topo all e b ∨
          (flags[e]? = some b ∧ ∀ i, i < ts.length → ∀ es, topo.faceEdges[f + i]? = some es →
            e ≠ es.1 ∧ e ≠ es.2.1 ∧ e ≠ es.2.2)) := by
  induction ts with
  | nil =>
    intro f flags r _ h
    simp only [loop, Option.some.injEq] at h
    subst h
    refine ⟨rfl, rfl, by simp, ?_⟩
    intro e b hb
    exact Or.inr ⟨hb, by simp⟩
  | cons t ts ih =>
    intro f flags r hd h
    simp only [loop, Option.bind_eq_some_iff, Option.map_eq_some_iff] at h
    obtain ⟨r0, h1, rs, h2, rfl⟩ := h
    have hft : all[f]? = some t := by
      have := congrArg (fun l => l[0]?) hd
      simpa using this
    have hd' : all.drop (f + 1) = ts := by
      rw [← List.drop_drop, hd]; rfl
    obtain ⟨a1, a2, a3, a4⟩ := ih (f + 1) r0.2 rs hd' h2
    obtain ⟨e0, e1, e2, b0, b1, b2, c1, c2, c3, c4, c5⟩ := face_spec h1
    refine ⟨by simp [a1], by simp only [a2, c5, List.length_set], ?_, ?_⟩
    · intro i t' ht'
      cases i with
      | zero =>
        simp only [List.getElem?_cons_zero, Option.some.injEq] at ht'
        subst ht'
        exact ⟨e0, e1, e2, b0, b1, b2, r0.1.1, r0.1.2.1, r0.1.2.2, c1, by simp, c2, c3, c4⟩
      | succ i =>
        obtain ⟨x0, x1, x2, y0, y1, y2, z0, z1, z2, w⟩ := a3 i t' (by simpa using ht')
        refine ⟨x0, x1, x2, y0, y1, y2, z0, z1, z2, ?_⟩
        have : f + 1 + i = f + (i + 1) := by omega
        rw [this] at w
        simpa using w
    · intro e b hb
      rcases a4 e b hb with hw | ⟨hw, hno⟩
      · exact Or.inl hw
      · rw [c5] at hw
        rcases get_set_cases hw with ⟨rfl, rfl⟩ | ⟨n2, hw⟩
        · exact Or.inl ⟨f, t, e0, e1, e, _, hft, c1, Or.inr (Or.inr ⟨rfl, c4⟩)⟩
        · rcases get_set_cases hw with ⟨rfl, rfl⟩ | ⟨n1, hw⟩
          · exact Or.inl ⟨f, t, e0, e, e2, _, hft, c1, Or.inr (Or.inl ⟨rfl, c3⟩)⟩
          · rcases get_set_cases hw with ⟨rfl, rfl⟩ | ⟨n0, hw⟩
            · exact Or.inl ⟨f, t, e, e1, e2, _, hft, c1, Or.inl ⟨rfl, c2⟩⟩
            · refine Or.inr ⟨hw, ?_⟩
              intro i hi es hes
              cases i with
              | zero =>
                simp only [Nat.add_zero] at hes
                rw [c1] at hes
                simp only [Option.some.injEq] at hes
                subst hes
                exact ⟨n0, n1, n2⟩
              | succ i =>
                have : f + (i + 1) = f + 1 + i := by omega
                rw [this] at hes
                exact hno i (by simpa using hi) es hes

theorem joins_unique {vs : List (Nat × Nat)} {e x y x' y' : Nat} (h : Joins vs e x y) (h' : Joins vs e x' y') :
    (x' = x ∧ y' = y) ∨ (x' = y ∧ y' = x) := by
  rcases h with h | h <;> rcases h' with h' | h' <;> rw [h] at h' <;>
    simp only [Option.some.injEq, Prod.mk.injEq] at h' <;> obtain ⟨rfl, rfl⟩ := h'
  · exact Or.inl ⟨rfl, rfl⟩
  · exact Or.inr ⟨rfl, rfl⟩
  · exact Or.inr ⟨rfl, rfl⟩
  · exact Or.inl ⟨rfl, rfl⟩

/-- A flag comes from a side with the vertices of the edge. -/
theorem flag_from_side {nrm : V3 T → V3 T} {eps : T} {verts normals : List (V3 T)} {topo : Topology}
    {ts : List Tri} {n : Nat} (htopo : initEdges n ts = some topo) {adj : List (V3 T × V3 T × V3 T)}
    {flags : List Bool} (h : adjacentNormals nrm eps verts normals topo ts = some (adj, flags))
    {e x y : Nat} {b : Bool} (hj : Joins topo.edgeVerts e x y) (hb : flags[e]? = some b) :
    ∃ f t n', ts[f]? = some t ∧
      ((Side t (x, y) ∧ Beyond nrm eps verts normals topo f e x y n' b) ∨
       (Side t (y, x) ∧ Beyond nrm eps verts normals topo f e y x n' b)) := by
  obtain ⟨-, -, -, hw⟩ := loop_spec ts ts 0 _ _ (by simp) h
  rcases hw e b hb with hw | ⟨-, hno⟩
  · obtain ⟨f, t, e0, e1, e2, n', ht, hes, hc⟩ := hw
    obtain ⟨e0', e1', e2', hes', j0, j1, j2⟩ := face_edges n ts topo htopo f t ht
    rw [hes] at hes'
    simp only [Option.some.injEq, Prod.mk.injEq] at hes'
    obtain ⟨rfl, rfl, rfl⟩ := hes'
    refine ⟨f, t, n', ht, ?_⟩
    rcases hc with ⟨rfl, hc⟩ | ⟨rfl, hc⟩ | ⟨rfl, hc⟩
    · rcases joins_unique hj j0 with ⟨e1, e2⟩ | ⟨e1, e2⟩
      · exact Or.inl ⟨Or.inl (by rw [e1, e2]), by rw [← e1, ← e2]; exact hc⟩
      · exact Or.inr ⟨Or.inl (by rw [e1, e2]), by rw [← e1, ← e2]; exact hc⟩
    · rcases joins_unique hj j1 with ⟨e1, e2⟩ | ⟨e1, e2⟩
      · exact Or.inl ⟨Or.inr (Or.inl (by rw [e1, e2])), by rw [← e1, ← e2]; exact hc⟩
      · exact Or.inr ⟨Or.inr (Or.inl (by rw [e1, e2])), by rw [← e1, ← e2]; exact hc⟩
    · rcases joins_unique hj j2 with ⟨e1, e2⟩ | ⟨e1, e2⟩
      · exact Or.inl ⟨Or.inr (Or.inr (by rw [e1, e2])), by rw [← e1, ← e2]; exact hc⟩
      · exact Or.inr ⟨Or.inr (Or.inr (by rw [e1, e2])), by rw [← e1, ← e2]; exact hc⟩
  · exfalso
    obtain ⟨f, t, ht, hs⟩ := ((edges_unique n ts topo htopo).2.1 x y).mp ⟨e, hj⟩
    obtain ⟨e0, e1, e2, hes, j0, j1, j2⟩ := face_edges n ts topo htopo f t ht
    have := hno f (List.getElem?_eq_some_iff.mp ht).1 (e0, e1, e2) (by simpa using hes)
    simp only at this
    have huniq := (edges_unique n ts topo htopo).1
    have hj' : Joins topo.edgeVerts e y x := by rcases hj with h | h; exacts [Or.inr h, Or.inl h]
    rcases hs with (hs | hs | hs) | (hs | hs | hs) <;> simp only [Prod.mk.injEq] at hs <;>
      obtain ⟨rfl, rfl⟩ := hs
    · exact this.1 (huniq _ _ _ _ hj j0)
    · exact this.2.1 (huniq _ _ _ _ hj j1)
    · exact this.2.2 (huniq _ _ _ _ hj j2)
    · exact this.1 (huniq _ _ _ _ hj' j0)
    · exact this.2.1 (huniq _ _ _ _ hj' j1)
    · exact this.2.2 (huniq _ _ _ _ hj' j2)

/-! ## The theorems -/

variable (nrm : V3 T → V3 T) (eps : T) (verts normals : List (V3 T)) (ts : List Tri) (topo : Topology)

/-- **It succeeds** on every mesh with indices in range and a normal for each face. -/
theorem succeeds (htopo : initEdges verts.length ts = some topo)
    (hr : ∀ t ∈ ts, t.a < verts.length ∧ t.b < verts.length ∧ t.c < verts.length)
    (hn : normals.length = ts.length) :
    ∃ adj flags, adjacentNormals nrm eps verts normals topo ts = some (adj, flags) ∧
      adj.length = ts.length ∧ flags.length = topo.edgeVerts.length := by
  have hside : ∀ (f e v0 v1 : Nat) (flags : List Bool), f < ts.length → v0 < verts.length →
      v1 < verts.length → Joins topo.edgeVerts e v0 v1 →
      ∃ r, side nrm eps verts normals topo.edgeFaces f e v0 v1 flags = some r := by
    intro f e v0 v1 flags hf h0 h1 hj
    obtain ⟨p, hp⟩ : ∃ p, topo.edgeVerts[e]? = some p := by
      rcases hj with h | h <;> exact ⟨_, h⟩
    obtain ⟨f0, f1, q1, q2, q3, -⟩ := edge_faces _ _ _ htopo e p hp
    have l0 : f0 < normals.length := by
      obtain ⟨t, ht, -⟩ := q2; rw [hn]; exact (List.getElem?_eq_some_iff.mp ht).1
    have l1 : f1 < normals.length := by
      obtain ⟨t, ht, -⟩ := q3; rw [hn]; exact (List.getElem?_eq_some_iff.mp ht).1
    have lo : otherFace (f0, f1) f < normals.length := by
      unfold otherFace; split <;> assumption
    have lf : f < normals.length := by omega
    unfold side
    simp only [q1, List.getElem?_eq_getElem h0, List.getElem?_eq_getElem h1, List.getElem?_eq_getElem lf,
      List.getElem?_eq_getElem lo, Option.bind_some, Option.map_some]
    split <;> exact ⟨_, rfl⟩
  have key : ∀ (us : List Tri) (f : Nat) (flags : List Bool), ts.drop f = us →
      ∃ r, loop nrm eps verts normals topo f us flags = some r := by
    intro us
    induction us with
    | nil => intro f flags _; exact ⟨_, rfl⟩
    | cons t us ih =>
      intro f flags hd
      have hft : ts[f]? = some t := by
        have := congrArg (fun l => l[0]?) hd
        simpa using this
      have hd' : ts.drop (f + 1) = us := by
        rw [← List.drop_drop, hd]; rfl
      have hf := (List.getElem?_eq_some_iff.mp hft).1
      have hrt := hr t (List.mem_of_getElem? hft)
      obtain ⟨e0, e1, e2, hes, j0, j1, j2⟩ := face_edges _ ts topo htopo f t hft
      obtain ⟨r0, s0⟩ := hside f e0 t.a t.b flags hf hrt.1 hrt.2.1 j0
      obtain ⟨r1, s1⟩ := hside f e1 t.b t.c r0.2 hf hrt.2.1 hrt.2.2 j1
      obtain ⟨r2, s2⟩ := hside f e2 t.c t.a r1.2 hf hrt.2.2 hrt.1 j2
      obtain ⟨rs, hrs⟩ := ih (f + 1) r2.2 hd'
      refine ⟨((r0.1, r1.1, r2.1) :: rs.1, rs.2), ?_⟩
      simp only [loop, face, hes, s0, s1, s2, hrs, Option.bind_some, Option.map_some]
  obtain ⟨r, hr'⟩ := key ts 0 (List.replicate topo.edgeVerts.length false) (by simp)
  obtain ⟨h1, h2, -⟩ := loop_spec ts ts 0 _ _ (by simp) hr'
  exact ⟨r.1, r.2, hr', h1, by simpa using h2⟩

variable {adj : List (V3 T × V3 T × V3 T)} {flags : List Bool}

/-- **Neighbour normals.**  If a side of face `f` is shared with exactly one other face `g`, the normal
stored for it is the normal of `g`. -/
theorem neighbour_normal (htopo : initEdges verts.length ts = some topo)
    (h : adjacentNormals nrm eps verts normals topo ts = some (adj, flags)) (f g : Nat) (t : Tri)
    (ht : ts[f]? = some t) (hfg : g ≠ f) : ∃ n0 n1 n2, adj[f]? = some (n0, n1, n2) ∧
      ((∀ k, Uses ts k (t.a, t.b) ↔ k = f ∨ k = g) → normals[g]? = some n0) ∧
      ((∀ k, Uses ts k (t.b, t.c) ↔ k = f ∨ k = g) → normals[g]? = some n1) ∧
      ((∀ k, Uses ts k (t.c, t.a) ↔ k = f ∨ k = g) → normals[g]? = some n2) := by
  obtain ⟨-, -, hs, -⟩ := loop_spec ts ts 0 _ _ (by simp) h
  obtain ⟨e0, e1, e2, b0, b1, b2, n0, n1, n2, hes, ha, c0, c1, c2⟩ := hs f t ht
  rw [Nat.zero_add] at hes c0 c1 c2
  obtain ⟨e0', e1', e2', hes', j0, j1, j2⟩ := face_edges _ ts topo htopo f t ht
  rw [hes] at hes'
  simp only [Option.some.injEq, Prod.mk.injEq] at hes'
  obtain ⟨rfl, rfl, rfl⟩ := hes'
  have key : ∀ (e x y : Nat) n b, Joins topo.edgeVerts e x y →
      Beyond nrm eps verts normals topo f e x y n b →
      (∀ k, Uses ts k (x, y) ↔ k = f ∨ k = g) → normals[g]? = some n := by
    intro e x y n b hj hb hu
    have hflip : ∀ k, Uses ts k (y, x) ↔ Uses ts k (x, y) := by
      intro k
      unfold Uses
      simp only [or_comm]
    have ho : (topo.edgeFaces[e]?).map (fun q => otherFace q f) = some g := by
      rcases hj with hj | hj
      · exact neighbour _ ts topo htopo e f g _ hj hu
      · exact neighbour _ ts topo htopo e f g _ hj (fun k => (hflip k).trans (hu k))
    obtain ⟨q, p0, p1, nf, q1, -, -, -, hc⟩ := hb
    rw [q1] at ho
    simp only [Option.map_some, Option.some.injEq] at ho
    rw [ho] at hc
    rcases hc with ⟨h1, -⟩ | ⟨-, h2, -⟩
    · exact absurd h1 hfg
    · exact h2
  exact ⟨n0, n1, n2, ha, key _ _ _ _ _ j0 c0, key _ _ _ _ _ j1 c1, key _ _ _ _ _ j2 c2⟩

/-- **Boundary edges are convex**: an edge used by a single face is flagged as convex. -/
theorem boundary_convex (htopo : initEdges verts.length ts = some topo)
    (h : adjacentNormals nrm eps verts normals topo ts = some (adj, flags)) (e x y f : Nat)
    (hj : Joins topo.edgeVerts e x y) (hu : ∀ k, Uses ts k (x, y) ↔ k = f) : flags[e]? = some true := by
  obtain ⟨-, hl, -, -⟩ := loop_spec ts ts 0 _ _ (by simp) h
  simp only [List.length_replicate] at hl
  have hlt : e < flags.length := by
    rw [hl]; rcases hj with h | h <;> exact (List.getElem?_eq_some_iff.mp h).1
  rw [List.getElem?_eq_getElem hlt]
  obtain ⟨k, t, n', ht, hc⟩ := flag_from_side htopo h hj (List.getElem?_eq_getElem hlt)
  have hflip : ∀ k, Uses ts k (y, x) ↔ Uses ts k (x, y) := by
    intro k
    unfold Uses
    simp only [or_comm]
  have ho : (topo.edgeFaces[e]?).map (fun q => otherFace q f) = some f := by
    rcases hj with hj | hj
    · exact neighbour _ ts topo htopo e f f _ hj (by simpa using hu)
    · exact neighbour _ ts topo htopo e f f _ hj (fun k => (hflip k).trans (by simpa using hu k))
  have hk : k = f := by
    rw [← hu]
    rcases hc with ⟨hs, -⟩ | ⟨hs, -⟩
    · exact ⟨t, ht, Or.inl hs⟩
    · exact ⟨t, ht, Or.inr hs⟩
  subst hk
  have fin : ∀ v0 v1, Beyond nrm eps verts normals topo k e v0 v1 n' flags[e] → flags[e] = true := by
    rintro v0 v1 ⟨q, p0, p1, nf, q1, -, -, -, hc⟩
    rw [q1] at ho
    simp only [Option.map_some, Option.some.injEq] at ho
    rcases hc with ⟨-, -, hb⟩ | ⟨hne, -⟩
    · exact hb
    · exact absurd ho hne
  rcases hc with ⟨-, hb⟩ | ⟨-, hb⟩
  · rw [fin _ _ hb]
  · rw [fin _ _ hb]

/-- **Inner edges are convex exactly if the other face bends down.**  Face `f` has the side from vertex
`x` to vertex `y`; the face `g` beyond it has the same side in the other direction and the third
vertex `z`; its normal is its `cross` product scaled by `sg`.  The edge is flagged as convex exactly
if the depth of `z` below the plane of `f`, scaled by the length of the edge and the normalization,
exceeds the tolerance.  It does not matter which of the faces comes last in the mesh. -/
theorem edge_convex [IsStrictOrderedRing T] (htopo : initEdges verts.length ts = some topo)
    (h : adjacentNormals nrm eps verts normals topo ts = some (adj, flags)) (e x y z f g : Nat)
    (tf tg : Tri) (pa pb w nf : V3 T) (sg : T) (hfg : g ≠ f)
    (hj : Joins topo.edgeVerts e x y) (hu : ∀ k, Uses ts k (x, y) ↔ k = f ∨ k = g)
    (htf : ts[f]? = some tf) (htg : ts[g]? = some tg)
    (hsf : Side tf (x, y) ∧ ¬ Side tf (y, x)) (hsg : Side tg (y, x) ∧ Side tg (x, z) ∧ ¬ Side tg (x, y))
    (hx : verts[x]? = some pa) (hy : verts[y]? = some pb) (hz : verts[z]? = some w)
    (hnf : normals[f]? = some nf) (hperp : dot nf (pb - pa) = 0)
    (hng : normals[g]? = some (smul sg (cross (pa - pb) (w - pa)))) :
    ∃ b, flags[e]? = some b ∧
      (b = true ↔ eps < -(dot nf (w - pa)) * (sg * lengthSqr (pb - pa))) := by
  obtain ⟨-, hl, -, -⟩ := loop_spec ts ts 0 _ _ (by simp) h
  simp only [List.length_replicate] at hl
  have hlt : e < flags.length := by
    rw [hl]; rcases hj with h | h <;> exact (List.getElem?_eq_some_iff.mp h).1
  refine ⟨flags[e], List.getElem?_eq_getElem hlt, ?_⟩
  rw [← convex_below eps sg pa pb w nf hperp]
  obtain ⟨k, t, n', ht, hc⟩ := flag_from_side htopo h hj (List.getElem?_eq_getElem hlt)
  have hflip : ∀ k, Uses ts k (y, x) ↔ Uses ts k (x, y) := by
    intro k
    unfold Uses
    simp only [or_comm]
  have hof : (topo.edgeFaces[e]?).map (fun q => otherFace q f) = some g := by
    rcases hj with hj | hj
    · exact neighbour _ ts topo htopo e f g _ hj hu
    · exact neighbour _ ts topo htopo e f g _ hj (fun k => (hflip k).trans (hu k))
  have hog : (topo.edgeFaces[e]?).map (fun q => otherFace q g) = some f := by
    rcases hj with hj | hj
    · exact neighbour _ ts topo htopo e g f _ hj (fun k => (hu k).trans or_comm)
    · exact neighbour _ ts topo htopo e g f _ hj (fun k => ((hflip k).trans (hu k)).trans or_comm)
  have hk : k = f ∨ k = g := by
    rw [← hu]
    rcases hc with ⟨hs, -⟩ | ⟨hs, -⟩
    · exact ⟨t, ht, Or.inl hs⟩
    · exact ⟨t, ht, Or.inr hs⟩
  rcases hk with rfl | rfl
  · rw [htf] at ht
    simp only [Option.some.injEq] at ht
    subst ht
    rcases hc with ⟨-, q, p0, p1, m, q1, a0, a1, a2, hc⟩ | ⟨hs, -⟩
    · rw [q1] at hof
      simp only [Option.map_some, Option.some.injEq] at hof
      rw [hx] at a0; rw [hy] at a1; rw [hnf] at a2
      simp only [Option.some.injEq] at a0 a1 a2
      subst a0 a1 a2
      rw [hof] at hc
      rcases hc with ⟨h1, -⟩ | ⟨-, h2, h3⟩
      · exact absurd h1 hfg
      · rw [hng] at h2
        simp only [Option.some.injEq] at h2
        subst h2
        exact h3
    · exact absurd hs hsf.2
  · rw [htg] at ht
    simp only [Option.some.injEq] at ht
    subst ht
    rcases hc with ⟨hs, -⟩ | ⟨-, q, p0, p1, m, q1, a0, a1, a2, hc⟩
    · exact absurd hs hsg.2.2
    · rw [q1] at hog
      simp only [Option.map_some, Option.some.injEq] at hog
      rw [hy] at a0; rw [hx] at a1; rw [hng] at a2
      simp only [Option.some.injEq] at a0 a1 a2
      subst a0 a1 a2
      rw [hog] at hc
      rcases hc with ⟨h1, -⟩ | ⟨-, h2, h3⟩
      · exact absurd h1 (fun h => hfg h.symm)
      · rw [hnf] at h2
        simp only [Option.some.injEq] at h2
        subst h2
        rw [h3, convex_same]
        have : -(pa - pb) = pb - pa := by ext <;> simp
        rw [this]

/-! ## A concrete case -/

/-- A roof of two triangles over the edge from vertex 0 to vertex 1. -/
def roofVerts : List (V3 ℚ) := [⟨0, 0, 0⟩, ⟨1, 0, 0⟩, ⟨0, 1, 0⟩, ⟨0, -1, -1⟩]
def roof : List Tri := [⟨0, 1, 2⟩, ⟨1, 0, 3⟩]

example : (initEdges 4 roof).bind (fun T => (adjacentNormals id (1 / 1000) roofVerts
    [⟨0, 0, 1⟩, ⟨0, -1, 1⟩] T roof).map (fun r => r.2)) = some [true, true, true, true, true] := by
  decide +kernel
/-- A valley. -/
example : (initEdges 4 roof).bind (fun T => (adjacentNormals id (1 / 1000)
    ([⟨0, 0, 0⟩, ⟨1, 0, 0⟩, ⟨0, 1, 0⟩, ⟨0, -1, 1⟩] : List (V3 ℚ))
    [⟨0, 0, 1⟩, ⟨0, 1, 1⟩] T roof).map (fun r => r.2)) = some [false, true, true, true, true] := by
  decide +kernel
example : Side ⟨0, 1, 2⟩ (0, 1) ∧ ¬ Side ⟨0, 1, 2⟩ (1, 0) ∧ Side ⟨1, 0, 3⟩ (1, 0) ∧ Side ⟨1, 0, 3⟩ (0, 3) ∧
    ¬ Side ⟨1, 0, 3⟩ (0, 1) := by simp [Side]
example : (⟨0, -1, 1⟩ : V3 ℚ) = smul 1 (cross (⟨0, 0, 0⟩ - ⟨1, 0, 0⟩) (⟨0, -1, -1⟩ - ⟨0, 0, 0⟩)) := by
  ext <;> norm_num [cross, smul]

end Edyn.Mesh.Convex
