import Mathlib.Data.List.Nodup
import Mathlib.Tactic.Tauto
import Mathlib.Order.Basic
import Mathlib.Algebra.Order.Group.Nat

/-!
# The topology of a triangle mesh

`triangle_mesh::init_edge_indices` derives from the list of triangles the edges, the edges of each
face and of each vertex, the faces of each edge and which edges lie on the boundary.

`none` stands for undefined behaviour or a failed `EDYN_ASSERT`.
-/

namespace Edyn.Mesh.Topo

/-- The vertex indices of a triangle (include/edyn/shapes/triangle_mesh.hpp, `m_indices`). -/
structure Tri where
  a : Nat
  b : Nat
  c : Nat
deriving DecidableEq, Repr

/-- `unordered_pair::operator==` (include/edyn/core/unordered_pair.hpp 27-30). -/
def samePair (p q : Nat × Nat) : Prop := (p.1 = q.1 ∧ p.2 = q.2) ∨ (p.1 = q.2 ∧ p.2 = q.1)

instance (p q : Nat × Nat) : Decidable (samePair p q) := by unfold samePair; infer_instance

/-- `std::set::insert`, the set being the ascending list of its elements. -/
def setInsert (e : Nat) : List Nat → List Nat
  | [] => [e]
  | x :: l => if e < x then e :: x :: l else if e = x then x :: l else x :: setInsert e l

/-- The arrays filled by `init_edge_indices` (src/edyn/shapes/triangle_mesh.cpp 28-95) while it
runs.  A face index equal to `idx_max`, the mark of an empty entry, is `none`: meshes have fewer
than 2^32 - 1 faces.  `faceEdges` is resized first and filled in order by the code; here it grows. -/
structure Work where
  edgeVerts : List (Nat × Nat)
  edgeFaces : List (Option Nat × Option Nat)
  faceEdges : List (Nat × Nat × Nat)
  vertexEdges : List (List Nat)
deriving DecidableEq, Repr

/-- Lines 63-67: a face is entered into the two places of an edge. -/
def addFace (f : Nat) (p : Option Nat × Option Nat) : Option Nat × Option Nat :=
  match p.1 with
  | none => (some f, p.2)
  | some f0 => if f ≠ f0 then (some f0, some f) else p

/-- Lines 40-54: look the pair up among the edges, append it if it is new. -/
def findEdge (w : Work) (i0 i1 : Nat) : Work × Nat :=
  match w.edgeVerts.findIdx? (fun p => decide (samePair p (i0, i1))) with
  | some k => (w, k)
  | none =>
    ({ w with edgeVerts := w.edgeVerts ++ [(i0, i1)], edgeFaces := w.edgeFaces ++ [(none, none)] },
      w.edgeVerts.length)

/-- One turn of the loop over the corners of a face (lines 36-68). -/
def corner (w : Work) (f i0 i1 : Nat) : Option (Work × Nat) :=
  let (w, e) := findEdge w i0 i1
  if i0 < w.vertexEdges.length ∧ i1 < w.vertexEdges.length then
    some ({ w with
      vertexEdges := (w.vertexEdges.modify i0 (setInsert e)).modify i1 (setInsert e)
      edgeFaces := w.edgeFaces.modify e (addFace f) }, e)
  else none

/-- One turn of the loop over the faces (lines 33-69). -/
def face (w : Work) (f : Nat) (t : Tri) : Option Work :=
  (corner w f t.a t.b).bind fun (w0, e0) =>
  (corner w0 f t.b t.c).bind fun (w1, e1) =>
  (corner w1 f t.c t.a).bind fun (w2, e2) =>
  some { w2 with faceEdges := w2.faceEdges ++ [(e0, e1, e2)] }

/-- The loop over the faces (lines 33-69). -/
def faces (w : Work) (f : Nat) : List Tri → Option Work
  | [] => some w
  | t :: ts => (face w f t).bind fun w' => faces w' (f + 1) ts

/-- What `init_edge_indices` leaves behind.  The nested array of the edges of each vertex
(lines 71-77) is the list of its inner arrays, see C42. -/
structure Topology where
  edgeVerts : List (Nat × Nat)
  edgeFaces : List (Nat × Nat)
  boundary : List Bool
  faceEdges : List (Nat × Nat × Nat)
  vertexEdges : List (List Nat)
deriving DecidableEq, Repr

/-- Lines 79-94: boundary edges are marked and get their face twice. -/
def closeEdges : List (Option Nat × Option Nat) → Option (List (Nat × Nat) × List Bool)
  | [] => some ([], [])
  | (none, _) :: _ => none
  | (some f, g) :: l => (closeEdges l).map fun (ps, bs) => ((f, g.getD f) :: ps, g.isNone :: bs)

/-- `triangle_mesh::init_edge_indices` (src/edyn/shapes/triangle_mesh.cpp 28-95) for a mesh with
`n` vertices. -/
def initEdges (n : Nat) (ts : List Tri) : Option Topology :=
  (faces ⟨[], [], [], List.replicate n []⟩ 0 ts).bind fun w =>
  (closeEdges w.edgeFaces).map fun (ps, bs) =>
    ⟨w.edgeVerts, ps, bs, w.faceEdges, w.vertexEdges⟩

/-- The face on the other side of edge `i` of a face (`calculate_adjacent_normals`,
src/edyn/shapes/triangle_mesh.cpp 104-105), given the two faces of the edge. -/
def otherFace (p : Nat × Nat) (f : Nat) : Nat := if p.1 = f then p.2 else p.1

/-! ## Specification -/

/-- The sides of a triangle, in order. -/
def Side (t : Tri) (p : Nat × Nat) : Prop := p = (t.a, t.b) ∨ p = (t.b, t.c) ∨ p = (t.c, t.a)

/-- Face `f` has a side that joins the two vertices of `p`, in either direction. -/
def Uses (ts : List Tri) (f : Nat) (p : Nat × Nat) : Prop :=
  ∃ t, ts[f]? = some t ∧ (Side t p ∨ Side t (p.2, p.1))

/-! ## The proof -/

theorem samePair_refl (p : Nat × Nat) : samePair p p := Or.inl ⟨rfl, rfl⟩

theorem samePair_symm {p q : Nat × Nat} (h : samePair p q) : samePair q p := by
  unfold samePair at *; omega

theorem samePair_trans {p q r : Nat × Nat} (h : samePair p q) (h' : samePair q r) : samePair p r := by
  unfold samePair at *; omega

theorem mem_setInsert (e x : Nat) (l : List Nat) : x ∈ setInsert e l ↔ x = e ∨ x ∈ l := by
  induction l with
  | nil => simp [setInsert]
  | cons y l ih =>
    unfold setInsert
    by_cases h : e < y
    · rw [if_pos h]; simp
    · rw [if_neg h]
      by_cases h2 : e = y
      · rw [if_pos h2]; subst h2; simp
      · rw [if_neg h2]
        simp only [List.mem_cons, ih]
        tauto

theorem sorted_setInsert (e : Nat) (l : List Nat) (h : l.Pairwise (· < ·)) :
    (setInsert e l).Pairwise (· < ·) := by
  induction l with
  | nil => simp [setInsert]
  | cons y l ih =>
    rw [List.pairwise_cons] at h
    unfold setInsert
    by_cases hy : e < y
    · rw [if_pos hy, List.pairwise_cons]
      refine ⟨?_, List.pairwise_cons.mpr h⟩
      intro z hz
      rcases List.mem_cons.mp hz with rfl | hz
      · exact hy
      · exact lt_trans hy (h.1 z hz)
    · rw [if_neg hy]
      by_cases h2 : e = y
      · rw [if_pos h2]; exact List.pairwise_cons.mpr h
      · rw [if_neg h2, List.pairwise_cons]
        refine ⟨?_, ih h.2⟩
        intro z hz
        rcases (mem_setInsert _ _ _).mp hz with rfl | hz
        · omega
        · exact h.1 z hz

/-- The corners processed so far, `(face, i0, i1)`. -/
abbrev Corners := List (Nat × Nat × Nat)

/-- Face `f` has been entered for a side that joins the vertices of `p`. -/
def Used (cs : Corners) (f : Nat) (p : Nat × Nat) : Prop :=
  ∃ q, (f, q) ∈ cs ∧ samePair p q

/-- What the two places of an edge hold: the first face, and the last other one. -/
def FacesOk (cs : Corners) (p : Nat × Nat) (ef : Option Nat × Option Nat) : Prop :=
  ∃ f0, ef.1 = some f0 ∧ Used cs f0 p ∧ (∀ f, Used cs f p → f0 ≤ f) ∧
    (ef.2 = none → ∀ f, Used cs f p → f = f0) ∧
    ∀ f1, ef.2 = some f1 → f0 < f1 ∧ Used cs f1 p ∧ ∀ f, Used cs f p → f ≤ f1

structure Inv (n : Nat) (cs : Corners) (w : Work) : Prop where
  len : w.edgeFaces.length = w.edgeVerts.length
  verts : w.vertexEdges.length = n
  distinct : w.edgeVerts.Pairwise (fun p q => ¬ samePair p q)
  used : ∀ (e : Nat) p, w.edgeVerts[e]? = some p → ∃ f, (f, p) ∈ cs
  covers : ∀ f q, (f, q) ∈ cs → ∃ (e : Nat) (p : Nat × Nat), w.edgeVerts[e]? = some p ∧ samePair p q
  inRange : ∀ f q, (f, q) ∈ cs → q.1 < n ∧ q.2 < n
  faces : ∀ (e : Nat) p ef, w.edgeVerts[e]? = some p → w.edgeFaces[e]? = some ef → FacesOk cs p ef
  sorted : ∀ (v : Nat) l, w.vertexEdges[v]? = some l → l.Pairwise (· < ·)
  atVertex : ∀ (v : Nat) l (e : Nat), w.vertexEdges[v]? = some l →
    (e ∈ l ↔ ∃ p, w.edgeVerts[e]? = some p ∧ (p.1 = v ∨ p.2 = v))

theorem distinct_index {l : List (Nat × Nat)} (h : l.Pairwise (fun p q => ¬ samePair p q))
    {e e' : Nat} {p p' : Nat × Nat} (h1 : l[e]? = some p) (h2 : l[e']? = some p')
    (hs : samePair p p') : e = e' := by
  obtain ⟨l1, g1⟩ := List.getElem?_eq_some_iff.mp h1
  obtain ⟨l2, g2⟩ := List.getElem?_eq_some_iff.mp h2
  rw [List.pairwise_iff_getElem] at h
  rcases lt_trichotomy e e' with hlt | heq | hgt
  · exact absurd (by rw [g1, g2]; exact hs) (h e e' l1 l2 hlt)
  · exact heq
  · exact absurd (by rw [g1, g2]; exact samePair_symm hs) (h e' e l2 l1 hgt)

theorem used_append {cs : Corners} {f g : Nat} {q p : Nat × Nat} :
    Used (cs ++ [(g, q)]) f p ↔ Used cs f p ∨ (f = g ∧ samePair p q) := by
  unfold Used
  constructor
  · rintro ⟨r, hr, hs⟩
    rcases List.mem_append.mp hr with h | h
    · exact Or.inl ⟨r, h, hs⟩
    · simp only [List.mem_singleton, Prod.mk.injEq] at h
      exact Or.inr ⟨h.1, by rw [← h.2]; exact hs⟩
  · rintro (⟨r, hr, hs⟩ | ⟨rfl, hs⟩)
    · exact ⟨r, List.mem_append_left _ hr, hs⟩
    · exact ⟨q, by simp, hs⟩

theorem facesOk_other {cs : Corners} {p q : Nat × Nat} {g : Nat} {ef : Option Nat × Option Nat}
    (h : FacesOk cs p ef) (hn : ¬ samePair p q) : FacesOk (cs ++ [(g, q)]) p ef := by
  have hu : ∀ f, Used (cs ++ [(g, q)]) f p ↔ Used cs f p := by
    intro f
    rw [used_append]
    constructor
    · rintro (h | ⟨_, h⟩)
      · exact h
      · exact absurd h hn
    · exact Or.inl
  obtain ⟨f0, h1, h2, h3, h4, h5⟩ := h
  exact ⟨f0, h1, (hu _).mpr h2, fun f hf => h3 f ((hu f).mp hf),
    fun hn f hf => h4 hn f ((hu f).mp hf),
    fun f1 hf1 => ⟨(h5 f1 hf1).1, (hu _).mpr (h5 f1 hf1).2.1,
      fun f hf => (h5 f1 hf1).2.2 f ((hu f).mp hf)⟩⟩

theorem facesOk_same {cs : Corners} {p q : Nat × Nat} {g : Nat} {ef : Option Nat × Option Nat}
    (h : FacesOk cs p ef) (hs : samePair p q) (hg : ∀ f r, (f, r) ∈ cs → f ≤ g) :
    FacesOk (cs ++ [(g, q)]) p (addFace g ef) := by
  obtain ⟨f0, h1, h2, h3, h4, h5⟩ := h
  have hle : ∀ f, Used cs f p → f ≤ g := by
    rintro f ⟨r, hr, _⟩; exact hg f r hr
  have hu : ∀ f, Used (cs ++ [(g, q)]) f p ↔ Used cs f p ∨ f = g := by
    intro f
    rw [used_append]
    constructor
    · rintro (h | ⟨h, _⟩)
      · exact Or.inl h
      · exact Or.inr h
    · rintro (h | h)
      · exact Or.inl h
      · exact Or.inr ⟨h, hs⟩
  have h0 := hle f0 h2
  obtain ⟨e1, e2⟩ := ef
  simp only at h1 h4 h5
  subst h1
  unfold addFace
  simp only
  by_cases hne : g ≠ f0
  · rw [if_pos hne]
    refine ⟨f0, rfl, (hu _).mpr (Or.inl h2), ?_, by simp, ?_⟩
    · intro f hf
      rcases (hu f).mp hf with h | rfl
      · exact h3 f h
      · exact h0
    · intro f1 hf1
      simp only [Option.some.injEq] at hf1
      subst hf1
      refine ⟨by omega, (hu _).mpr (Or.inr rfl), ?_⟩
      intro f hf
      rcases (hu f).mp hf with h | rfl
      · exact hle f h
      · exact le_refl _
  · rw [if_neg hne]
    simp only [ne_eq, not_not] at hne
    subst hne
    refine ⟨g, rfl, (hu _).mpr (Or.inr rfl), ?_, ?_, ?_⟩
    · intro f hf
      rcases (hu f).mp hf with h | rfl
      · exact h3 f h
      · exact le_refl _
    · intro hn f hf
      rcases (hu f).mp hf with h | rfl
      · exact h4 hn f h
      · rfl
    · intro f1 hf1
      obtain ⟨a, b, c⟩ := h5 f1 hf1
      exact absurd (hle f1 b) (by omega)

theorem facesOk_new {cs : Corners} {p : Nat × Nat} {g : Nat}
    (h : ∀ f, ¬ Used cs f p) : FacesOk (cs ++ [(g, p)]) p (addFace g (none, none)) := by
  have hu : ∀ f, Used (cs ++ [(g, p)]) f p ↔ f = g := by
    intro f
    rw [used_append]
    constructor
    · rintro (h' | ⟨h', _⟩)
      · exact absurd h' (h f)
      · exact h'
    · intro h'; exact Or.inr ⟨h', samePair_refl p⟩
  refine ⟨g, rfl, (hu g).mpr rfl, ?_, ?_, ?_⟩
  · intro f hf; exact le_of_eq ((hu f).mp hf).symm
  · intro _ f hf; exact (hu f).mp hf
  · intro f1 hf1; simp [addFace] at hf1

theorem insert_twice {L : List (List Nat)} {i0 i1 k v : Nat} {l : List Nat}
    (hl : ((L.modify i0 (setInsert k)).modify i1 (setInsert k))[v]? = some l) :
    ∃ l0, L[v]? = some l0 ∧ (l0.Pairwise (· < ·) → l.Pairwise (· < ·)) ∧
      ∀ e, e ∈ l ↔ (e = k ∧ (i0 = v ∨ i1 = v)) ∨ e ∈ l0 := by
  simp only [List.getElem?_modify] at hl
  cases hx : L[v]? with
  | none => rw [hx] at hl; simp at hl
  | some l0 =>
    rw [hx] at hl
    refine ⟨l0, rfl, ?_, ?_⟩
    · intro hs
      by_cases a0 : i0 = v <;> by_cases a1 : i1 = v <;>
        simp only [a0, a1, if_true, if_false, Option.map_eq_map, Option.map_some, id_eq,
          Option.some.injEq] at hl <;> subst hl
      · exact sorted_setInsert _ _ (sorted_setInsert _ _ hs)
      · exact sorted_setInsert _ _ hs
      · exact sorted_setInsert _ _ hs
      · exact hs
    · intro e
      by_cases a0 : i0 = v <;> by_cases a1 : i1 = v <;>
        simp only [a0, a1, if_true, if_false, Option.map_eq_map, Option.map_some, id_eq,
          Option.some.injEq] at hl <;> subst hl <;> simp [mem_setInsert, a0, a1]

theorem corner_inv {n : Nat} {cs : Corners} {w w' : Work} {g i0 i1 e : Nat} (h : Inv n cs w)
    (hg : ∀ f r, (f, r) ∈ cs → f ≤ g) (he : corner w g i0 i1 = some (w', e)) :
    Inv n (cs ++ [(g, i0, i1)]) w' ∧ (∃ p, w'.edgeVerts[e]? = some p ∧ samePair p (i0, i1)) ∧
      w.edgeVerts <+: w'.edgeVerts ∧ w'.faceEdges = w.faceEdges := by
  unfold corner at he
  cases hf : w.edgeVerts.findIdx? (fun p => decide (samePair p (i0, i1))) with
  | some k =>
    have hfe : findEdge w i0 i1 = (w, k) := by unfold findEdge; rw [hf]
    rw [hfe] at he
    simp only at he
    by_cases hr : i0 < w.vertexEdges.length ∧ i1 < w.vertexEdges.length
    · rw [if_pos hr] at he
      simp only [Option.some.injEq, Prod.mk.injEq] at he
      obtain ⟨rfl, rfl⟩ := he
      rw [List.findIdx?_eq_some_iff_getElem] at hf
      obtain ⟨hk, hp, _⟩ := hf
      simp only [decide_eq_true_eq] at hp
      have hpk : w.edgeVerts[k]? = some w.edgeVerts[k] := List.getElem?_eq_getElem hk
      refine ⟨?_, ⟨_, hpk, hp⟩, List.prefix_refl _, rfl⟩
      rw [h.verts] at hr
      have hends : ∀ v, (w.edgeVerts[k].1 = v ∨ w.edgeVerts[k].2 = v) ↔ (i0 = v ∨ i1 = v) := by
        intro v; unfold samePair at hp; simp only at hp; omega
      refine
        { len := by simpa using h.len
          verts := by simpa using h.verts
          distinct := h.distinct
          used := fun e p hp => (h.used e p hp).imp fun f hf => List.mem_append_left _ hf
          covers := ?_
          inRange := ?_
          faces := ?_
          sorted := ?_
          atVertex := ?_ }
      · intro f q hq
        rcases List.mem_append.mp hq with hq | hq
        · exact h.covers f q hq
        · simp only [List.mem_singleton, Prod.mk.injEq] at hq
          obtain ⟨rfl, rfl⟩ := hq
          exact ⟨k, _, hpk, hp⟩
      · intro f q hq
        rcases List.mem_append.mp hq with hq | hq
        · exact h.inRange f q hq
        · simp only [List.mem_singleton, Prod.mk.injEq] at hq
          obtain ⟨rfl, rfl⟩ := hq
          exact hr
      · intro e p ef hp' hef
        simp only [List.getElem?_modify] at hef
        simp only at hp'
        by_cases hke : k = e
        · subst hke
          rw [hpk] at hp'
          simp only [Option.some.injEq] at hp'
          subst hp'
          cases hx : w.edgeFaces[k]? with
          | none => rw [hx] at hef; simp at hef
          | some ef0 =>
            rw [hx] at hef
            simp only [if_true, Option.map_eq_map, Option.map_some, Option.some.injEq] at hef
            subst hef
            exact facesOk_same (h.faces k _ ef0 hpk hx) hp hg
        · cases hx : w.edgeFaces[e]? with
          | none => rw [hx] at hef; simp at hef
          | some ef0 =>
            rw [hx] at hef
            simp only [hke, if_false, Option.map_eq_map, Option.map_some, id_eq, Option.some.injEq] at hef
            subst hef
            refine facesOk_other (h.faces e p ef0 hp' hx) ?_
            intro hs
            exact hke (distinct_index h.distinct hpk hp' (samePair_trans hp (samePair_symm hs)))
      · intro v l hl
        obtain ⟨l0, hx, hsort, _⟩ := insert_twice hl
        exact hsort (h.sorted v l0 hx)
      · intro v l e hl
        obtain ⟨l0, hx, _, hmem⟩ := insert_twice hl
        rw [hmem, h.atVertex v l0 e hx]
        constructor
        · rintro (⟨rfl, hv⟩ | hh)
          · exact ⟨_, hpk, (hends v).mpr hv⟩
          · exact hh
        · exact Or.inr
    · rw [if_neg hr] at he; simp at he
  | none =>
    have hfe : findEdge w i0 i1 = (⟨w.edgeVerts ++ [(i0, i1)], w.edgeFaces ++ [(none, none)],
        w.faceEdges, w.vertexEdges⟩, w.edgeVerts.length) := by
      unfold findEdge; rw [hf]
    rw [hfe] at he
    simp only at he
    by_cases hr : i0 < w.vertexEdges.length ∧ i1 < w.vertexEdges.length
    · rw [if_pos hr] at he
      simp only [Option.some.injEq, Prod.mk.injEq] at he
      obtain ⟨rfl, rfl⟩ := he
      rw [List.findIdx?_eq_none_iff] at hf
      have hnew : ∀ p ∈ w.edgeVerts, ¬ samePair p (i0, i1) := by
        intro p hp; simpa using hf p hp
      have hpk : (w.edgeVerts ++ [(i0, i1)])[w.edgeVerts.length]? = some (i0, i1) := by simp
      have hold : ∀ (e : Nat) p, w.edgeVerts[e]? = some p → (w.edgeVerts ++ [(i0, i1)])[e]? = some p := by
        intro e p hp
        rw [List.getElem?_append_left (List.getElem?_eq_some_iff.mp hp).1]; exact hp
      have hget : ∀ (e : Nat) p, (w.edgeVerts ++ [(i0, i1)])[e]? = some p →
          w.edgeVerts[e]? = some p ∨ (e = w.edgeVerts.length ∧ p = (i0, i1)) := by
        intro e p hp
        by_cases hlt : e < w.edgeVerts.length
        · rw [List.getElem?_append_left hlt] at hp; exact Or.inl hp
        · have := (List.getElem?_eq_some_iff.mp hp).1
          simp only [List.length_append, List.length_singleton] at this
          have he' : e = w.edgeVerts.length := by omega
          subst he'
          rw [hpk] at hp
          simp only [Option.some.injEq] at hp
          exact Or.inr ⟨rfl, hp.symm⟩
      refine ⟨?_, ⟨_, hpk, samePair_refl _⟩, List.prefix_append _ _, rfl⟩
      rw [h.verts] at hr
      refine
        { len := by simp [h.len]
          verts := by simpa using h.verts
          distinct := ?_
          used := ?_
          covers := ?_
          inRange := ?_
          faces := ?_
          sorted := ?_
          atVertex := ?_ }
      · simp only
        rw [List.pairwise_append]
        refine ⟨h.distinct, by simp, ?_⟩
        intro p hp q hq
        simp only [List.mem_singleton] at hq
        subst hq
        exact hnew p hp
      · intro e p hp
        rcases hget e p hp with hp | ⟨_, rfl⟩
        · exact (h.used e p hp).imp fun f hf => List.mem_append_left _ hf
        · exact ⟨g, by simp⟩
      · intro f q hq
        rcases List.mem_append.mp hq with hq | hq
        · obtain ⟨e, p, hp, hs⟩ := h.covers f q hq
          exact ⟨e, p, hold e p hp, hs⟩
        · simp only [List.mem_singleton, Prod.mk.injEq] at hq
          obtain ⟨rfl, rfl⟩ := hq
          exact ⟨_, _, hpk, samePair_refl _⟩
      · intro f q hq
        rcases List.mem_append.mp hq with hq | hq
        · exact h.inRange f q hq
        · simp only [List.mem_singleton, Prod.mk.injEq] at hq
          obtain ⟨rfl, rfl⟩ := hq
          exact hr
      · intro e p ef hp' hef
        simp only [List.getElem?_modify] at hef
        rcases hget e p hp' with hp | ⟨rfl, rfl⟩
        · have hlt := (List.getElem?_eq_some_iff.mp hp).1
          have hne : ¬ w.edgeVerts.length = e := by omega
          rw [List.getElem?_append_left (by rw [h.len]; exact hlt)] at hef
          cases hx : w.edgeFaces[e]? with
          | none => rw [hx] at hef; simp at hef
          | some ef0 =>
            rw [hx] at hef
            simp only [hne, if_false, Option.map_eq_map, Option.map_some, id_eq, Option.some.injEq] at hef
            subst hef
            exact facesOk_other (h.faces e p ef0 hp hx) (hnew p (List.mem_of_getElem? hp))
        · rw [← h.len] at hef
          simp only [if_true, List.getElem?_concat_length, Option.map_eq_map, Option.map_some,
            Option.some.injEq] at hef
          subst hef
          refine facesOk_new ?_
          rintro f ⟨q, hq, hs⟩
          obtain ⟨e, p, hp, hs'⟩ := h.covers f q hq
          exact hnew p (List.mem_of_getElem? hp) (samePair_trans hs' (samePair_symm hs))
      · intro v l hl
        obtain ⟨l0, hx, hsort, _⟩ := insert_twice hl
        exact hsort (h.sorted v l0 hx)
      · intro v l e hl
        obtain ⟨l0, hx, _, hmem⟩ := insert_twice hl
        rw [hmem, h.atVertex v l0 e hx]
        constructor
        · rintro (⟨rfl, hv⟩ | ⟨p, hp, hv⟩)
          · exact ⟨_, hpk, hv⟩
          · exact ⟨p, hold e p hp, hv⟩
        · rintro ⟨p, hp, hv⟩
          rcases hget e p hp with hp | ⟨rfl, rfl⟩
          · exact Or.inr ⟨p, hp, hv⟩
          · exact Or.inl ⟨rfl, hv⟩
    · rw [if_neg hr] at he; simp at he

end Edyn.Mesh.Topo
