import Verif.Geom.Polyhedron

/-!
# Edges of convex meshes (C74)

`convex_mesh::calculate_edges`, `convex_mesh.cpp` 122-172.  A face is the list of its vertex indices
(`indices[first]` to `indices[first + count - 1]` for the pair `first`, `count` of `faces`).
-/

namespace Edyn.Geom.Poly

/-! ## Model -/

/-- An edge with its two vertices (`edges`) and its faces (`edge_faces`; `none` is the marker
`UINT32_MAX`). -/
structure Edge where
  v0 : ℕ
  v1 : ℕ
  f0 : ℕ
  f1 : Option ℕ
deriving DecidableEq, Repr

/-- The pairs `vertex_idx0`, `vertex_idx1` of a face, `convex_mesh.cpp` 132-134. -/
def sides (f : List ℕ) : List (ℕ × ℕ) :=
  (List.range f.length).filterMap fun i =>
    (f[i]?).bind fun a => (f[(i + 1) % f.length]?).map fun b => (a, b)

/-- The comparison of `convex_mesh.cpp` 140-141. -/
def same (e : Edge) (s : ℕ × ℕ) : Bool :=
  (decide (e.v0 = s.1) && decide (e.v1 = s.2)) || (decide (e.v0 = s.2) && decide (e.v1 = s.1))

/-- One side of the face `fi`, `convex_mesh.cpp` 135-169.  `none`: the assertion that the edge has no second
face fails. -/
def addSide (fi : ℕ) : List Edge → ℕ × ℕ → Option (List Edge)
  | [], s => some [⟨s.1, s.2, fi, none⟩]
  | e :: es, s =>
    if same e s then
      match e.f1 with
      | none => some (⟨e.v0, e.v1, e.f0, some fi⟩ :: es)
      | some _ => none
    else (addSide fi es s).map (e :: ·)

/-- All sides of all faces with the index of the face, in the order in which `calculate_edges` visits
them, `convex_mesh.cpp` 128-134. -/
def visits (faces : List (List ℕ)) : List (ℕ × (ℕ × ℕ)) :=
  faces.zipIdx.flatMap fun fi => (sides fi.1).map fun s => (fi.2, s)

/-- `calculate_edges`, `convex_mesh.cpp` 122-172. -/
def calcEdges (faces : List (List ℕ)) : Option (List Edge) :=
  (visits faces).foldlM (fun es v => addSide v.1 es v.2) []

/-! ## Specification -/

/-- The side number `i` of the face goes from `a` to `b`. -/
def SideOf (f : List ℕ) (i a b : ℕ) : Prop := f[i]? = some a ∧ f[(i + 1) % f.length]? = some b

instance (f : List ℕ) (i a b : ℕ) : Decidable (SideOf f i a b) := by unfold SideOf; infer_instance

/-- How many sides of the face join `a` and `b`, in either direction. -/
def uses (f : List ℕ) (a b : ℕ) : ℕ :=
  ((List.range f.length).filter fun i => decide (SideOf f i a b ∨ SideOf f i b a)).length

/-- The faces with a side between `a` and `b`, in order, one entry for each such side. -/
def facesAt (faces : List (List ℕ)) (a b : ℕ) : List ℕ :=
  faces.zipIdx.flatMap fun fi => List.replicate (uses fi.1 a b) fi.2

/-! ## Proof -/

def joins (a b : ℕ) (s : ℕ × ℕ) : Bool := decide (s = (a, b)) || decide (s = (b, a))

theorem joins_iff {a b : ℕ} {s : ℕ × ℕ} : joins a b s = true ↔ s = (a, b) ∨ s = (b, a) := by simp [joins]

theorem same_iff {e : Edge} {s : ℕ × ℕ} : same e s = true ↔ joins e.v0 e.v1 s = true := by
  obtain ⟨x, y⟩ := s
  simp only [same, joins, Bool.or_eq_true, Bool.and_eq_true, decide_eq_true_eq, Prod.mk.injEq]
  constructor
  · rintro (⟨h, h'⟩ | ⟨h, h'⟩)
    · exact .inl ⟨h.symm, h'.symm⟩
    · exact .inr ⟨h'.symm, h.symm⟩
  · rintro (⟨h, h'⟩ | ⟨h, h'⟩)
    · exact .inl ⟨h.symm, h'.symm⟩
    · exact .inr ⟨h'.symm, h.symm⟩

theorem joins_symm {a b : ℕ} {s : ℕ × ℕ} : joins a b s = joins b a s := by simp [joins, Bool.or_comm]

/-- The faces of the visited sides between `a` and `b`. -/
def occ (vis : List (ℕ × (ℕ × ℕ))) (a b : ℕ) : List ℕ := (vis.filter fun v => joins a b v.2).map (·.1)

theorem occ_append (v w : List (ℕ × (ℕ × ℕ))) (a b : ℕ) : occ (v ++ w) a b = occ v a b ++ occ w a b := by
  simp [occ]

theorem occ_symm (v : List (ℕ × (ℕ × ℕ))) (a b : ℕ) : occ v a b = occ v b a := by
  unfold occ
  congr 1
  apply List.filter_congr
  intro x _
  exact joins_symm

theorem sides_get {f : List ℕ} {s : ℕ × ℕ} : s ∈ sides f ↔ ∃ i, SideOf f i s.1 s.2 := by
  unfold sides SideOf
  rw [List.mem_filterMap]
  constructor
  · rintro ⟨i, hi, h⟩
    simp only [Option.bind_eq_some_iff, Option.map_eq_some_iff] at h
    obtain ⟨a, ha, b, hb, rfl⟩ := h
    exact ⟨i, ha, hb⟩
  · rintro ⟨i, h1, h2⟩
    refine ⟨i, List.mem_range.mpr (List.getElem?_eq_some_iff.mp h1).1, ?_⟩
    rw [h1, h2]; rfl

theorem side_total {f : List ℕ} {i : ℕ} (hi : i < f.length) : ∃ a b, SideOf f i a b := by
  have h2 : (i + 1) % f.length < f.length := Nat.mod_lt _ (by omega)
  exact ⟨f[i], f[(i + 1) % f.length], List.getElem?_eq_getElem hi, List.getElem?_eq_getElem h2⟩

theorem sides_count (f : List ℕ) (a b : ℕ) : ((sides f).filter (joins a b)).length = uses f a b := by
  have key : ∀ l : List ℕ, (∀ i ∈ l, i < f.length) →
      ((l.filterMap fun i => (f[i]?).bind fun a => (f[(i + 1) % f.length]?).map fun b => (a, b)).filter
        (joins a b)).length = (l.filter fun i => decide (SideOf f i a b ∨ SideOf f i b a)).length := by
    intro l hl
    induction l with
    | nil => rfl
    | cons i l ih =>
      have ih' := ih (fun j hj => hl j (by simp [hj]))
      obtain ⟨x, y, hx, hy⟩ := side_total (hl i (by simp))
      have hj : joins a b (x, y) = decide (SideOf f i a b ∨ SideOf f i b a) := by
        rw [Bool.eq_iff_iff, joins_iff, decide_eq_true_eq]
        unfold SideOf
        rw [hx, hy]
        simp only [Prod.mk.injEq, Option.some.injEq]
      rw [List.filterMap_cons, hx, hy]
      simp only [Option.bind_some, Option.map_some]
      rw [List.filter_cons, List.filter_cons, hj]
      by_cases hd : SideOf f i a b ∨ SideOf f i b a
      · simp only [hd, decide_true, if_true, List.length_cons]
        rw [ih']
      · simp only [hd, decide_false, Bool.false_eq_true, if_false]
        rw [ih']
  exact key _ (fun i hi => List.mem_range.mp hi)

theorem occ_visits (faces : List (List ℕ)) (a b : ℕ) : occ (visits faces) a b = facesAt faces a b := by
  have key : ∀ l : List (List ℕ × ℕ),
      occ (l.flatMap fun fi => (sides fi.1).map fun s => (fi.2, s)) a b =
        l.flatMap fun fi => List.replicate (uses fi.1 a b) fi.2 := by
    intro l
    induction l with
    | nil => rfl
    | cons x l ih =>
      rw [List.flatMap_cons, List.flatMap_cons, occ_append, ih]
      congr 1
      unfold occ
      rw [List.filter_map, List.map_map, ← sides_count]
      have hf : ((fun v : ℕ × ℕ × ℕ => joins a b v.2) ∘ fun s => (x.2, s)) = joins a b := rfl
      rw [hf]
      generalize (sides x.1).filter (joins a b) = m
      induction m with
      | nil => rfl
      | cons y m ihm => simp only [List.map_cons, List.length_cons, List.replicate_succ, ihm]; rfl
  exact key _

/-- What holds after the sides `vis` have been visited. -/
structure Inv (vis : List (ℕ × (ℕ × ℕ))) (es : List Edge) : Prop where
  faces : ∀ e ∈ es, occ vis e.v0 e.v1 = e.f0 :: e.f1.toList
  first : ∀ e ∈ es, (e.f0, (e.v0, e.v1)) ∈ vis
  cover : ∀ v ∈ vis, ∃ e ∈ es, same e v.2 = true
  apart : es.Pairwise fun e e' => same e (e'.v0, e'.v1) = false

theorem addSide_some {fi : ℕ} {s : ℕ × ℕ} {es es' : List Edge} (h : addSide fi es s = some es') :
    ((∀ e ∈ es, same e s = false) ∧ es' = es ++ [⟨s.1, s.2, fi, none⟩]) ∨
    ∃ l e r, es = l ++ e :: r ∧ (∀ e ∈ l, same e s = false) ∧ same e s = true ∧ e.f1 = none ∧
      es' = l ++ ⟨e.v0, e.v1, e.f0, some fi⟩ :: r := by
  induction es generalizing es' with
  | nil => left; unfold addSide at h; cases h; exact ⟨by simp, rfl⟩
  | cons e es ih =>
    unfold addSide at h
    by_cases hs : same e s = true
    · rw [if_pos hs] at h
      right
      cases hf : e.f1 with
      | none =>
        rw [hf] at h
        simp only [Option.some.injEq] at h
        exact ⟨[], e, es, rfl, by simp, hs, hf, h.symm⟩
      | some x => rw [hf] at h; simp at h
    · rw [if_neg hs] at h
      rw [Option.map_eq_some_iff] at h
      obtain ⟨t, ht, rfl⟩ := h
      have hs' : same e s = false := by simpa using hs
      rcases ih ht with ⟨h1, rfl⟩ | ⟨l, e', r, rfl, h1, h2, h3, rfl⟩
      · left
        refine ⟨?_, rfl⟩
        intro x hx
        rcases List.mem_cons.mp hx with rfl | hx
        · exact hs'
        · exact h1 x hx
      · right
        refine ⟨e :: l, e', r, rfl, ?_, h2, h3, rfl⟩
        intro x hx
        rcases List.mem_cons.mp hx with rfl | hx
        · exact hs'
        · exact h1 x hx

theorem occ_snoc (vis : List (ℕ × (ℕ × ℕ))) (v : ℕ × (ℕ × ℕ)) (a b : ℕ) :
    occ (vis ++ [v]) a b = occ vis a b ++ if joins a b v.2 then [v.1] else [] := by
  rw [occ_append]
  congr 1
  unfold occ
  rw [List.filter_singleton]
  cases joins a b v.2 <;> rfl

theorem joins_trans {a b c d : ℕ} {s : ℕ × ℕ} (h : joins a b s = true) (h' : joins c d s = true) :
    joins a b (c, d) = true := by
  rw [joins_iff] at *
  rcases h with rfl | rfl <;> rcases h' with h' | h' <;> simp only [Prod.mk.injEq] at * <;> omega

theorem occ_joins {vis : List (ℕ × (ℕ × ℕ))} {a b c d : ℕ} (h : joins a b (c, d) = true) :
    occ vis c d = occ vis a b := by
  rw [joins_iff] at h
  simp only [Prod.mk.injEq] at h
  rcases h with ⟨rfl, rfl⟩ | ⟨rfl, rfl⟩
  · rfl
  · exact occ_symm _ _ _

theorem step_inv {vis : List (ℕ × (ℕ × ℕ))} {es es' : List Edge} {v : ℕ × (ℕ × ℕ)} (hi : Inv vis es)
    (h : addSide v.1 es v.2 = some es') : Inv (vis ++ [v]) es' := by
  have self : ∀ a b : ℕ, joins a b (a, b) = true := fun a b => joins_iff.mpr (.inl rfl)
  rcases addSide_some h with ⟨h1, rfl⟩ | ⟨l, e, r, rfl, h1, h2, h3, rfl⟩
  · have hnone : occ vis v.2.1 v.2.2 = [] := by
      unfold occ
      rw [List.map_eq_nil_iff, List.filter_eq_nil_iff]
      intro w hw hj
      obtain ⟨e, he, hse⟩ := hi.cover w hw
      rw [same_iff] at hse
      have := h1 e he
      have h' : joins e.v0 e.v1 v.2 = true := joins_trans hse (by rw [joins_iff] at hj ⊢; exact hj)
      rw [← same_iff, this] at h'
      exact absurd h' (by simp)
    constructor
    · intro e he
      rcases List.mem_append.mp he with he | he
      · rw [occ_snoc, hi.faces e he]
        have := h1 e he
        have hn : ¬ joins e.v0 e.v1 v.2 = true := by
          rw [← same_iff, this]; simp
        rw [if_neg hn, List.append_nil]
      · rw [List.mem_singleton] at he
        subst he
        rw [occ_snoc, hnone, if_pos (self _ _)]; rfl
    · intro e he
      rcases List.mem_append.mp he with he | he
      · exact List.mem_append_left _ (hi.first e he)
      · rw [List.mem_singleton] at he
        subst he; simp
    · intro w hw
      rcases List.mem_append.mp hw with hw | hw
      · obtain ⟨e, he, hs⟩ := hi.cover w hw
        exact ⟨e, List.mem_append_left _ he, hs⟩
      · rw [List.mem_singleton] at hw
        subst hw
        exact ⟨_, List.mem_append_right _ (List.mem_singleton_self _), same_iff.mpr (self _ _)⟩
    · rw [List.pairwise_append]
      refine ⟨hi.apart, List.pairwise_singleton _ _, ?_⟩
      intro e he x hx
      rw [List.mem_singleton] at hx
      subst hx
      exact h1 e he
  · have hsv := same_iff.mp h2
    have hap := hi.apart
    rw [List.pairwise_append, List.pairwise_cons] at hap
    obtain ⟨ap1, ⟨ap2, ap3⟩, ap4⟩ := hap
    have hoth : ∀ x, x ∈ l ∨ x ∈ r → ¬ joins x.v0 x.v1 v.2 = true := by
      rintro x (hx | hx) hj
      · have := ap4 x hx e (by simp)
        have hj' := joins_trans hj hsv
        have : ¬ joins x.v0 x.v1 (e.v0, e.v1) = true := by
          rw [← same_iff, this]; simp
        exact this hj'
      · have := ap2 x hx
        have hj' := joins_trans hsv hj
        have : ¬ joins e.v0 e.v1 (x.v0, x.v1) = true := by
          rw [← same_iff, this]; simp
        exact this hj'
    constructor
    · intro x hx
      rw [occ_snoc]
      rcases List.mem_append.mp hx with hx | hx
      · rw [if_neg (hoth x (.inl hx)), List.append_nil]; exact hi.faces x (by simp [hx])
      · rcases List.mem_cons.mp hx with rfl | hx
        · simp only
          rw [if_pos hsv, hi.faces e (by simp), h3]; rfl
        · rw [if_neg (hoth x (.inr hx)), List.append_nil]; exact hi.faces x (by simp [hx])
    · intro x hx
      rcases List.mem_append.mp hx with hx | hx
      · exact List.mem_append_left _ (hi.first x (by simp [hx]))
      · rcases List.mem_cons.mp hx with rfl | hx
        · exact List.mem_append_left _ (hi.first e (by simp))
        · exact List.mem_append_left _ (hi.first x (by simp [hx]))
    · intro w hw
      rcases List.mem_append.mp hw with hw | hw
      · obtain ⟨x, hx, hs⟩ := hi.cover w hw
        rcases List.mem_append.mp hx with hx | hx
        · exact ⟨x, by simp [hx], hs⟩
        · rcases List.mem_cons.mp hx with rfl | hx
          · exact ⟨_, List.mem_append_right _ (List.mem_cons_self), hs⟩
          · exact ⟨x, by simp [hx], hs⟩
      · rw [List.mem_singleton] at hw
        subst hw
        exact ⟨_, List.mem_append_right _ (List.mem_cons_self), h2⟩
    · rw [List.pairwise_append, List.pairwise_cons]
      refine ⟨ap1, ⟨ap2, ap3⟩, ?_⟩
      intro x hx y hy
      rcases List.mem_cons.mp hy with rfl | hy
      · exact ap4 x hx e (by simp)
      · exact ap4 x hx y (by simp [hy])

theorem fold_inv {vis done : List (ℕ × (ℕ × ℕ))} {es es' : List Edge} (hi : Inv done es)
    (h : vis.foldlM (fun es v => addSide v.1 es v.2) es = some es') : Inv (done ++ vis) es' := by
  induction vis generalizing done es with
  | nil => simp only [List.foldlM_nil] at h; cases h; simpa using hi
  | cons v vis ih =>
    rw [List.foldlM_cons] at h
    simp only [Option.bind_eq_bind, Option.bind_eq_some_iff] at h
    obtain ⟨t, ht, h⟩ := h
    have := ih (step_inv hi ht) h
    rwa [List.append_assoc] at this

theorem inv_nil : Inv [] [] := by
  constructor <;> simp

theorem addSide_none {fi : ℕ} {s : ℕ × ℕ} {es : List Edge} (h : addSide fi es s = none) :
    ∃ e ∈ es, same e s = true ∧ ∃ g, e.f1 = some g := by
  induction es with
  | nil => simp [addSide] at h
  | cons e es ih =>
    unfold addSide at h
    by_cases hs : same e s = true
    · rw [if_pos hs] at h
      cases hf : e.f1 with
      | none => rw [hf] at h; simp at h
      | some g => exact ⟨e, by simp, hs, g, hf⟩
    · rw [if_neg hs, Option.map_eq_none_iff] at h
      obtain ⟨x, hx, h1, h2⟩ := ih h
      exact ⟨x, by simp [hx], h1, h2⟩

theorem fold_some {vis done : List (ℕ × (ℕ × ℕ))} {es : List Edge} (hi : Inv done es)
    (h : ∀ a b, (occ (done ++ vis) a b).length ≤ 2) :
    ∃ es', vis.foldlM (fun es v => addSide v.1 es v.2) es = some es' := by
  induction vis generalizing done es with
  | nil => exact ⟨es, rfl⟩
  | cons v vis ih =>
    rw [List.foldlM_cons]
    cases hc : addSide v.1 es v.2 with
    | none =>
      exfalso
      obtain ⟨e, he, hs, g, hg⟩ := addSide_none hc
      have h1 := hi.faces e he
      have h2 := h e.v0 e.v1
      have : occ (done ++ v :: vis) e.v0 e.v1 =
          occ done e.v0 e.v1 ++ ([v.1] ++ occ vis e.v0 e.v1) := by
        rw [show done ++ v :: vis = (done ++ [v]) ++ vis by simp, occ_append, occ_snoc,
          if_pos (same_iff.mp hs), List.append_assoc]
      rw [this, h1, hg] at h2
      simp at h2
    | some t =>
      have := ih (step_inv hi hc) (by
        intro a b
        rw [List.append_assoc]
        exact h a b)
      obtain ⟨es', hes⟩ := this
      exact ⟨es', by simpa using hes⟩

/-- **C74, edges.** When the edges of a mesh are calculated: two vertices are joined by exactly one edge if
some face has a side between them and by none otherwise; the edge lists the faces with such a side, the
first one first; and it runs along a side of its first face. -/
theorem edges_exact (faces : List (List ℕ)) (es : List Edge) (h : calcEdges faces = some es) :
    (∀ e ∈ es, facesAt faces e.v0 e.v1 = e.f0 :: e.f1.toList) ∧
    (∀ e ∈ es, ∃ f i, faces[e.f0]? = some f ∧ SideOf f i e.v0 e.v1) ∧
    (∀ a b f, f ∈ faces → (∃ i, SideOf f i a b) →
      ∃ e ∈ es, (e.v0 = a ∧ e.v1 = b) ∨ (e.v0 = b ∧ e.v1 = a)) ∧
    es.Pairwise (fun e e' => ¬ ((e.v0 = e'.v0 ∧ e.v1 = e'.v1) ∨ (e.v0 = e'.v1 ∧ e.v1 = e'.v0))) := by
  have hi := fold_inv inv_nil h
  rw [List.nil_append] at hi
  refine ⟨?_, ?_, ?_, ?_⟩
  · intro e he
    rw [← occ_visits]; exact hi.faces e he
  · intro e he
    have := hi.first e he
    unfold visits at this
    rw [List.mem_flatMap] at this
    obtain ⟨⟨f, i⟩, hf, hm⟩ := this
    rw [List.mem_map] at hm
    obtain ⟨s, hs, heq⟩ := hm
    simp only [Prod.mk.injEq] at heq
    obtain ⟨rfl, rfl⟩ := heq
    obtain ⟨k, hk⟩ := sides_get.mp hs
    exact ⟨f, k, List.mem_zipIdx_iff_getElem?.mp hf, hk⟩
  · rintro a b f hf ⟨i, hsd⟩
    obtain ⟨j, hj⟩ := List.mem_iff_getElem?.mp hf
    have hv : (j, (a, b)) ∈ visits faces := by
      unfold visits
      rw [List.mem_flatMap]
      exact ⟨(f, j), List.mem_zipIdx_iff_getElem?.mpr hj, List.mem_map.mpr ⟨(a, b), sides_get.mpr ⟨i, hsd⟩, rfl⟩⟩
    obtain ⟨e, he, hs⟩ := hi.cover _ hv
    refine ⟨e, he, ?_⟩
    simpa [same] using hs
  · refine hi.apart.imp ?_
    intro e e' hne hc
    have : same e (e'.v0, e'.v1) = true := by simpa [same] using hc
    rw [hne] at this
    exact absurd this (by simp)

/-- The calculation fails exactly when three sides join the same two vertices. -/
theorem edges_succeed (faces : List (List ℕ)) :
    (calcEdges faces).isSome ↔ ∀ a b, (facesAt faces a b).length ≤ 2 := by
  constructor
  · intro h a b
    obtain ⟨es, hes⟩ := Option.isSome_iff_exists.mp h
    have hi := fold_inv inv_nil hes
    rw [List.nil_append] at hi
    rw [← occ_visits]
    by_cases hn : occ (visits faces) a b = []
    · rw [hn]; simp
    · obtain ⟨x, hx⟩ := List.exists_mem_of_ne_nil _ hn
      unfold occ at hx
      rw [List.mem_map] at hx
      obtain ⟨v, hv, rfl⟩ := hx
      rw [List.mem_filter] at hv
      obtain ⟨e, he, hs⟩ := hi.cover v hv.1
      have hj := joins_trans (same_iff.mp hs) (by simpa using hv.2)
      rw [occ_joins hj, hi.faces e he]
      cases e.f1 <;> simp
  · intro h
    obtain ⟨es, hes⟩ := fold_some (vis := visits faces) inv_nil (by
      intro a b
      rw [List.nil_append, occ_visits]; exact h a b)
    exact Option.isSome_iff_exists.mpr ⟨es, hes⟩

/-- On a closed mesh (any two vertices joined by a side are joined by exactly two) every edge has its second
face. -/
theorem closed_edges (faces : List (List ℕ))
    (hc : ∀ a b, facesAt faces a b = [] ∨ (facesAt faces a b).length = 2) :
    ∃ es, calcEdges faces = some es ∧ ∀ e ∈ es, ∃ g, e.f1 = some g ∧ facesAt faces e.v0 e.v1 = [e.f0, g] := by
  have hs := (edges_succeed faces).mpr (by
    intro a b
    rcases hc a b with h | h
    · rw [h]; simp
    · omega)
  obtain ⟨es, hes⟩ := Option.isSome_iff_exists.mp hs
  refine ⟨es, hes, ?_⟩
  intro e he
  have h1 := (edges_exact faces es hes).1 e he
  rcases hc e.v0 e.v1 with h | h
  · rw [h] at h1; simp at h1
  · rw [h1] at h
    cases hf : e.f1 with
    | none => rw [hf] at h; simp at h
    | some g => rw [hf] at h1; exact ⟨g, rfl, by rw [h1]; rfl⟩

/-- The edges of a mesh have vertices of the mesh, as the hill climbing needs. -/
theorem edges_in_range (faces : List (List ℕ)) (n : ℕ) (hn : ∀ f ∈ faces, ∀ v ∈ f, v < n) (es : List Edge)
    (h : calcEdges faces = some es) : ∀ e ∈ es, e.v0 < n ∧ e.v1 < n := by
  intro e he
  obtain ⟨f, i, hf, h1, h2⟩ := (edges_exact faces es h).2.1 e he
  have hm := List.mem_of_getElem? hf
  exact ⟨hn f hm _ (List.mem_of_getElem? h1), hn f hm _ (List.mem_of_getElem? h2)⟩

/-- The faces of a tetrahedron: a closed mesh. -/
example : calcEdges [[0, 1, 2], [0, 3, 1], [1, 3, 2], [2, 3, 0]] =
    some [⟨0, 1, 0, some 1⟩, ⟨1, 2, 0, some 2⟩, ⟨2, 0, 0, some 3⟩, ⟨0, 3, 1, some 3⟩, ⟨3, 1, 1, some 2⟩,
      ⟨3, 2, 2, some 3⟩] := by decide

/-- Three triangles at one edge: an assertion fails. -/
example : calcEdges [[0, 1, 2], [0, 3, 1], [0, 1, 4]] = none := by decide

/-- An open mesh: the edges of the border have one face. -/
example : calcEdges [[0, 1, 2, 3], [0, 4, 1]] = some [⟨0, 1, 0, some 1⟩, ⟨1, 2, 0, none⟩, ⟨2, 3, 0, none⟩,
    ⟨3, 0, 0, none⟩, ⟨0, 4, 1, none⟩, ⟨4, 1, 1, none⟩] := by decide

end Edyn.Geom.Poly
