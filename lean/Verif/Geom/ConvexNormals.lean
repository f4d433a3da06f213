import Verif.Geom.ConvexEdges

/-!
# Normals, relevant directions and validation of convex meshes (C74)

`convex_mesh::calculate_normals`, `calculate_relevant_faces`, `calculate_relevant_edges` and `validate`,
`convex_mesh.cpp` 85-120 and 195-265.  Scalars are real numbers.
-/

namespace Edyn.Geom.Poly

open Edyn.Math V3 Edyn.Geom

/-! ## Model -/

/-- The loop of `calculate_normals`, `convex_mesh.cpp` 99-110, over the pairs `v2`, `v3`; `e0` is
`v1 - v0` and `eps` the constant `1e-18` of `try_normalize` (`vector3.hpp` 239-248). -/
noncomputable def findNormal (eps : ℝ) (e0 : V3 ℝ) : List (V3 ℝ × V3 ℝ) → Option (V3 ℝ)
  | [] => none
  | p :: rest =>
    let n := cross e0 (p.2 - p.1)
    if eps < lengthSqr n then some (smul (1 / Real.sqrt (lengthSqr n)) n) else findNormal eps e0 rest

/-- The normal of a face with the given vertices, `convex_mesh.cpp` 89-116.  `none`: fewer than two
vertices, and `indices[first + 1]` belongs to another face or is out of range. -/
noncomputable def faceNormal (eps : ℝ) : List (V3 ℝ) → Option (V3 ℝ)
  | v0 :: v1 :: rest => some ((findNormal eps (v1 - v0) ((v1 :: rest).zip (rest ++ [v0]))).getD ey)
  | _ => none

/-- `calculate_relevant_faces`, `convex_mesh.cpp` 195-209, and `calculate_relevant_edges`,
`convex_mesh.cpp` 211-227: the indices for which no index already taken is similar. -/
def relevant (similar : ℕ → ℕ → Bool) (n : ℕ) : List ℕ :=
  (List.range n).foldl (fun taken i => if taken.any (similar i) then taken else taken ++ [i]) []

open Classical in
/-- The comparison of two normals, `convex_mesh.cpp` 199-202. -/
noncomputable def similarNormals (tol : ℝ) (normals : ℕ → V3 ℝ) (i j : ℕ) : Bool :=
  !decide (dot (normals i) (normals j) < 1 - tol)

open Classical in
/-- The comparison of two edges, `convex_mesh.cpp` 216-221; `edges` are their directions, not normalised. -/
noncomputable def similarEdges (tol : ℝ) (edges : ℕ → V3 ℝ) (i j : ℕ) : Bool :=
  let unit := fun v : V3 ℝ => smul (1 / Real.sqrt (lengthSqr v)) v
  !decide (|dot (unit (edges i)) (unit (edges j))| < 1 - tol)

/-- A face as `validate` sees it: its vertices and its normal. -/
structure FaceData where
  verts : List (V3 ℝ)
  normal : V3 ℝ

open Classical in
/-- `validate`, `convex_mesh.cpp` 229-265. -/
noncomputable def validate (tol : ℝ) (vertices : List (V3 ℝ)) (faces : List FaceData) : Bool :=
  faces.all (fun f => match f.verts with
    | [] => true
    | v0 :: rest => rest.all fun v => !decide (tol < |dot (v - v0) f.normal|)) &&
  faces.all (fun f => match f.verts with
    | [] => true
    | v0 :: _ => vertices.all fun v => !decide (tol < dot (v - v0) f.normal))

/-- `calculate_neighbors` on vectors which already have entries: they are not cleared,
`convex_mesh.cpp` 174-176; `neighbor_count` starts at zero. -/
def calcNeighborsFrom (start idx : List ℕ) (n : ℕ) (edges : List (ℕ × ℕ)) : List ℕ × List ℕ :=
  let r := calcNeighbors n edges
  (start ++ r.1, idx ++ r.2)

/-! ## Specification -/

/-- A flat convex polygon, counter-clockwise when seen from the tip of the unit vector `n`: no vertex is on
the right of any side. -/
structure ConvexFace (n : V3 ℝ) (vs : List (V3 ℝ)) : Prop where
  unit : lengthSqr n = 1
  flat : ∀ p ∈ vs, ∀ q ∈ vs, dot (p - q) n = 0
  left : ∀ i a b, vs[i]? = some a → vs[(i + 1) % vs.length]? = some b →
    ∀ c ∈ vs, 0 ≤ dot (cross (b - a) (c - a)) n

/-! ## Normals -/

theorem cross_of_plane {u v n : V3 ℝ} (hn : lengthSqr n = 1) (hu : dot u n = 0) (hv : dot v n = 0) :
    cross u v = smul (dot (cross u v) n) n := by
  have h : cross n (cross u v) = 0 := by
    simp only [dot] at hu hv
    ext <;> simp
    · linear_combination u.x * hv - v.x * hu
    · linear_combination u.y * hv - v.y * hu
    · linear_combination u.z * hv - v.z * hu
  generalize cross u v = w at *
  have hx := congrArg V3.x h
  have hy := congrArg V3.y h
  have hz := congrArg V3.z h
  simp only [cross_x, cross_y, cross_z, zero_x, zero_y, zero_z] at hx hy hz
  simp only [lengthSqr, dot] at hn ⊢
  ext <;> simp
  · linear_combination (-w.x) * hn - n.y * hz + n.z * hy
  · linear_combination (-w.y) * hn - n.z * hx + n.x * hz
  · linear_combination (-w.z) * hn - n.x * hy + n.y * hx

theorem normalize_smul {n : V3 ℝ} (hn : lengthSqr n = 1) {k : ℝ} (hk : 0 < k) :
    smul (1 / Real.sqrt (lengthSqr (smul k n))) (smul k n) = n := by
  have h : lengthSqr (smul k n) = k * k := by
    simp only [lengthSqr, dot, smul_x, smul_y, smul_z] at hn ⊢
    linear_combination k * k * hn
  rw [h, Real.sqrt_mul_self hk.le]
  ext <;> simp <;> field_simp

theorem find_spec {eps : ℝ} (he : 0 ≤ eps) {n v0 v1 : V3 ℝ} (hn : lengthSqr n = 1)
    (rest : List (V3 ℝ)) (a : V3 ℝ) (ha : cross (v1 - v0) (a - v0) = 0)
    (flat0 : dot (v1 - v0) n = 0) (flata : dot (a - v0) n = 0)
    (flat : ∀ b ∈ rest, dot (b - v0) n = 0)
    (left : ∀ b ∈ rest, 0 ≤ dot (cross (v1 - v0) (b - v0)) n)
    (sharp : ∀ b ∈ rest, ∀ c, (c ∈ a :: rest) → cross (v1 - v0) (b - c) = 0 ∨
      eps < lengthSqr (cross (v1 - v0) (b - c)))
    (ex : ∃ b ∈ rest, cross (v1 - v0) (b - v0) ≠ 0) :
    findNormal eps (v1 - v0) ((a :: rest).zip (rest ++ [v0])) = some n := by
  induction rest generalizing a with
  | nil => obtain ⟨b, hb, _⟩ := ex; simp at hb
  | cons b rest ih =>
    rw [List.cons_append, List.zip_cons_cons, findNormal]
    simp only
    have hcr : cross (v1 - v0) (b - a) = cross (v1 - v0) (b - v0) := by
      have h1 := congrArg V3.x ha
      have h2 := congrArg V3.y ha
      have h3 := congrArg V3.z ha
      simp only [cross_x, cross_y, cross_z, sub_x, sub_y, sub_z, zero_x, zero_y, zero_z] at h1 h2 h3
      ext <;> simp
      · linear_combination -h1
      · linear_combination -h2
      · linear_combination -h3
    by_cases hc : eps < lengthSqr (cross (v1 - v0) (b - a))
    · rw [if_pos hc]
      rw [hcr] at hc ⊢
      have hp := cross_of_plane hn flat0 (flat b (by simp))
      have hk0 := left b (by simp)
      have hk : 0 < dot (cross (v1 - v0) (b - v0)) n := by
        rcases hk0.lt_or_eq with h | h
        · exact h
        · exfalso
          rw [← h] at hp
          rw [hp] at hc
          have : lengthSqr (smul 0 n) = 0 := by simp [lengthSqr, dot]
          rw [this] at hc
          linarith
      rw [hp, normalize_smul hn hk]
    · rw [if_neg hc]
      have hz : cross (v1 - v0) (b - v0) = 0 := by
        rw [← hcr]
        rcases sharp b (by simp) a (by simp) with h | h
        · exact h
        · exact absurd h hc
      refine ih b hz (flat b (by simp)) (fun c hc => flat c (by simp [hc])) (fun c hc => left c (by simp [hc]))
        (fun c hc d hd => sharp c (by simp [hc]) d (by
          rcases List.mem_cons.mp hd with rfl | hd
          · simp
          · simp [hd])) ?_
      obtain ⟨c, hc', hne⟩ := ex
      rcases List.mem_cons.mp hc' with rfl | hc'
      · exact absurd hz hne
      · exact ⟨c, hc', hne⟩

/-- **C74, normals.** The normal calculated for a convex polygon is its outward unit normal, whichever of
its first corners are straight.  Hypotheses: the first two vertices differ and the polygon is not a line; the
cross products with the first side are zero or not negligible. -/
theorem face_normal_spec (eps : ℝ) (he : 0 ≤ eps) (n : V3 ℝ) (vs : List (V3 ℝ)) (hf : ConvexFace n vs)
    (sharp : ∀ v0 v1, vs[0]? = some v0 → vs[1]? = some v1 → ∀ b ∈ vs, ∀ c ∈ vs,
      cross (v1 - v0) (b - c) = 0 ∨ eps < lengthSqr (cross (v1 - v0) (b - c)))
    (area : ∃ v0 v1, vs[0]? = some v0 ∧ vs[1]? = some v1 ∧ ∃ b ∈ vs, cross (v1 - v0) (b - v0) ≠ 0) :
    faceNormal eps vs = some n := by
  obtain ⟨v0, v1, h0, h1, b, hb, hne⟩ := area
  match vs, h0, h1 with
  | x :: y :: rest, h0, h1 =>
    simp only [List.getElem?_cons_zero, List.getElem?_cons_succ, Option.some.injEq] at h0 h1
    subst h0 h1
    have hself : cross (y - x) (y - x) = 0 := by ext <;> simp <;> ring
    have hx0 : cross (y - x) (x - x) = 0 := by ext <;> simp
    have hlast := find_spec he hf.unit rest y hself
      (hf.flat y (by simp) x (by simp)) (hf.flat y (by simp) x (by simp))
      (fun c hc => hf.flat c (by simp [hc]) x (by simp))
      (fun c hc => hf.left 0 x y rfl (by
        have : (0 + 1) % (x :: y :: rest).length = 1 := by
          apply Nat.mod_eq_of_lt; simp
        rw [this]; rfl) c (by simp [hc]))
      (fun c hc d hd => sharp x y rfl rfl c (by simp [hc]) d (by
        rcases List.mem_cons.mp hd with rfl | hd
        · simp
        · simp [hd]))
      (by
        rcases List.mem_cons.mp hb with rfl | hb
        · exact absurd hx0 hne
        · rcases List.mem_cons.mp hb with rfl | hb
          · exact absurd hself hne
          · exact ⟨b, hb, hne⟩)
    unfold faceNormal
    simp only
    rw [hlast]; rfl

/-- Normals are always unit vectors, also those of degenerate faces. -/
theorem face_normal_unit (eps : ℝ) (he : 0 ≤ eps) (vs : List (V3 ℝ)) (n : V3 ℝ)
    (h : faceNormal eps vs = some n) : lengthSqr n = 1 := by
  have key : ∀ (e0 : V3 ℝ) (l : List (V3 ℝ × V3 ℝ)) (m : V3 ℝ), findNormal eps e0 l = some m →
      lengthSqr m = 1 := by
    intro e0 l
    induction l with
    | nil => intro m hm; simp [findNormal] at hm
    | cons p l ih =>
      intro m hm
      rw [findNormal] at hm
      by_cases hc : eps < lengthSqr (cross e0 (p.2 - p.1))
      · rw [if_pos hc, Option.some.injEq] at hm
        subst hm
        generalize cross e0 (p.2 - p.1) = w at *
        have hp : 0 < lengthSqr w := by linarith
        have hs := Real.mul_self_sqrt hp.le
        have hs0 := Real.sqrt_pos.mpr hp
        have : lengthSqr (smul (1 / Real.sqrt (lengthSqr w)) w) =
            lengthSqr w / (Real.sqrt (lengthSqr w) * Real.sqrt (lengthSqr w)) := by
          generalize Real.sqrt (lengthSqr w) = t at *
          simp only [lengthSqr, dot, smul_x, smul_y, smul_z]
          field_simp
        rw [this, hs, div_self hp.ne']
      · rw [if_neg hc] at hm; exact ih m hm
  match vs, h with
  | v0 :: v1 :: rest, h =>
    unfold faceNormal at h
    simp only [Option.some.injEq] at h
    cases hk : findNormal eps (v1 - v0) ((v1 :: rest).zip (rest ++ [v0])) with
    | none => rw [hk] at h; simp only [Option.getD_none] at h; subst h; exact ey_unit
    | some m => rw [hk] at h; simp only [Option.getD_some] at h; subst h; exact key _ _ _ hk

/-- A square whose first corner is straight. -/
example : faceNormal (1 / 10 ^ 18) [⟨0, 0, 0⟩, ⟨1, 0, 0⟩, ⟨2, 0, 0⟩, ⟨2, 2, 0⟩, ⟨0, 2, 0⟩] = some ez := by
  have h1 : ¬ ((1 : ℝ) / 10 ^ 18 < 0) := by norm_num
  have h2 : (1 : ℝ) / 10 ^ 18 < 4 := by norm_num
  have h4 : Real.sqrt 4 = 2 := by rw [show (4 : ℝ) = 2 * 2 by norm_num]; exact Real.sqrt_mul_self (by norm_num)
  simp only [faceNormal, findNormal, List.zip_cons_cons, List.cons_append, lengthSqr, dot, cross_x, cross_y, cross_z,
    sub_x, sub_y, sub_z]
  norm_num [h4, smul, ez]

/-- The square meets the hypotheses of `face_normal_spec`. -/
example : ConvexFace ez [⟨0, 0, 0⟩, ⟨1, 0, 0⟩, ⟨2, 0, 0⟩, ⟨2, 2, 0⟩, ⟨0, 2, 0⟩] := by
  constructor
  · exact ez_unit
  · intro p hp q hq
    simp only [List.mem_cons, List.not_mem_nil, or_false] at hp hq
    rcases hp with rfl | rfl | rfl | rfl | rfl <;> rcases hq with rfl | rfl | rfl | rfl | rfl <;> simp [dot, ez]
  · intro i a b ha hb c hc
    have hi := (List.getElem?_eq_some_iff.mp ha).1
    simp only [List.length_cons, List.length_nil] at hi hb
    simp only [List.mem_cons, List.not_mem_nil, or_false] at hc
    obtain rfl | rfl | rfl | rfl | rfl : i = 0 ∨ i = 1 ∨ i = 2 ∨ i = 3 ∨ i = 4 := by omega
    all_goals
      simp at ha hb
      subst ha hb
      rcases hc with rfl | rfl | rfl | rfl | rfl <;> simp [dot, ez] <;> norm_num

/-! ## Relevant directions -/

theorem relevant_inv (similar : ℕ → ℕ → Bool) (n : ℕ) :
    (∀ i ∈ relevant similar n, i < n) ∧
    (∀ i < n, i ∈ relevant similar n ∨ ∃ j ∈ relevant similar n, j < i ∧ similar i j = true) ∧
    (relevant similar n).Pairwise (fun j i => j < i ∧ similar i j = false) := by
  induction n with
  | zero => simp [relevant]
  | succ n ih =>
    obtain ⟨h1, h2, h3⟩ := ih
    have hs : relevant similar (n + 1) = if (relevant similar n).any (similar n) then relevant similar n
        else relevant similar n ++ [n] := by
      unfold relevant
      rw [List.range_succ, List.foldl_append]; rfl
    rw [hs]
    by_cases hc : (relevant similar n).any (similar n) = true
    · rw [if_pos hc]
      refine ⟨fun i hi => by have := h1 i hi; omega, ?_, h3⟩
      intro i hi
      rcases Nat.lt_or_ge i n with hlt | hge
      · exact h2 i hlt
      · obtain rfl : i = n := by omega
        obtain ⟨j, hj, hsim⟩ := List.any_eq_true.mp hc
        exact .inr ⟨j, hj, h1 j hj, hsim⟩
    · rw [if_neg hc]
      refine ⟨?_, ?_, ?_⟩
      · intro i hi
        rcases List.mem_append.mp hi with hi | hi
        · have := h1 i hi; omega
        · rw [List.mem_singleton] at hi; omega
      · intro i hi
        rcases Nat.lt_or_ge i n with hlt | hge
        · rcases h2 i hlt with h | ⟨j, hj, h⟩
          · exact .inl (List.mem_append_left _ h)
          · exact .inr ⟨j, List.mem_append_left _ hj, h⟩
        · obtain rfl : i = n := by omega
          exact .inl (List.mem_append_right _ (List.mem_singleton_self _))
      · rw [List.pairwise_append]
        refine ⟨h3, List.pairwise_singleton _ _, ?_⟩
        intro j hj i hi
        rw [List.mem_singleton] at hi
        subst hi
        refine ⟨h1 j hj, ?_⟩
        by_contra hcon
        exact hc (List.any_eq_true.mpr ⟨j, hj, by simpa using hcon⟩)

/-- **C74, relevant faces.** Every face normal is within the tolerance of the normal of a relevant face, the
relevant faces are faces of the mesh and no two of them are within the tolerance of each other. -/
theorem relevant_faces_spec (tol : ℝ) (ht : 0 ≤ tol) (normals : ℕ → V3 ℝ) (n : ℕ)
    (hu : ∀ i < n, lengthSqr (normals i) = 1) :
    (∀ i < n, ∃ j ∈ relevant (similarNormals tol normals) n, 1 - tol ≤ dot (normals i) (normals j)) ∧
    (∀ i ∈ relevant (similarNormals tol normals) n, i < n) ∧
    (relevant (similarNormals tol normals) n).Pairwise
      (fun j i => j < i ∧ dot (normals i) (normals j) < 1 - tol) := by
  obtain ⟨h1, h2, h3⟩ := relevant_inv (similarNormals tol normals) n
  refine ⟨?_, h1, ?_⟩
  · intro i hi
    rcases h2 i hi with h | ⟨j, hj, _, hs⟩
    · refine ⟨i, h, ?_⟩
      have := hu i hi
      simp only [lengthSqr] at this
      linarith
    · refine ⟨j, hj, ?_⟩
      simpa [similarNormals] using hs
  · refine h3.imp ?_
    rintro j i ⟨hji, hs⟩
    exact ⟨hji, by simpa [similarNormals] using hs⟩

theorem unit_dot {v : V3 ℝ} (hv : v ≠ 0) :
    dot (smul (1 / Real.sqrt (lengthSqr v)) v) (smul (1 / Real.sqrt (lengthSqr v)) v) = 1 := by
  have hp : 0 < lengthSqr v := (lengthSqr_nonneg v).lt_of_ne (fun h => hv (lengthSqr_eq_zero h.symm))
  have hs := Real.mul_self_sqrt hp.le
  rw [dot_smul_left, dot_smul_right, ← mul_assoc, div_mul_div_comm, hs]
  change 1 * 1 / lengthSqr v * lengthSqr v = 1
  field_simp

/-- **C74, relevant edges.** Every edge is within the tolerance of parallel or antiparallel to a relevant
edge, and no two relevant edges are.  `cos` is the cosine of the angle between two edges. -/
theorem relevant_edges_spec (tol : ℝ) (ht : 0 ≤ tol) (edges : ℕ → V3 ℝ) (n : ℕ) (hu : ∀ i < n, edges i ≠ 0)
    (cos : ℕ → ℕ → ℝ) (hcos : ∀ i j, cos i j = dot (edges i) (edges j) /
      (Real.sqrt (lengthSqr (edges i)) * Real.sqrt (lengthSqr (edges j)))) :
    (∀ i < n, ∃ j ∈ relevant (similarEdges tol edges) n, 1 - tol ≤ |cos i j|) ∧
    (∀ i ∈ relevant (similarEdges tol edges) n, i < n) ∧
    (relevant (similarEdges tol edges) n).Pairwise (fun j i => j < i ∧ |cos i j| < 1 - tol) := by
  have hc : ∀ i j, dot (smul (1 / Real.sqrt (lengthSqr (edges i))) (edges i))
      (smul (1 / Real.sqrt (lengthSqr (edges j))) (edges j)) = cos i j := by
    intro i j
    rw [hcos, dot_smul_left, dot_smul_right]
    generalize Real.sqrt (lengthSqr (edges i)) = a
    generalize Real.sqrt (lengthSqr (edges j)) = b
    rw [div_eq_mul_inv, div_eq_mul_inv, div_eq_mul_inv, mul_inv]; ring
  obtain ⟨h1, h2, h3⟩ := relevant_inv (similarEdges tol edges) n
  refine ⟨?_, h1, ?_⟩
  · intro i hi
    rcases h2 i hi with h | ⟨j, hj, _, hs⟩
    · refine ⟨i, h, ?_⟩
      rw [← hc, unit_dot (hu i hi), abs_one]
      linarith
    · refine ⟨j, hj, ?_⟩
      rw [← hc]
      simpa [similarEdges] using hs
  · refine h3.imp ?_
    rintro j i ⟨hji, hs⟩
    refine ⟨hji, ?_⟩
    rw [← hc]
    simpa [similarEdges] using hs

/-- Three normals, two of them equal. -/
example : relevant (fun i j => decide ((i : ℕ) % 2 = j % 2)) 5 = [0, 1] := by decide

/-! ## Validation -/

/-- **C74, validation.** A mesh is accepted exactly when the vertices of each face are in its plane and all
vertices of the mesh are behind it, up to the tolerance. -/
theorem validate_spec (tol : ℝ) (vertices : List (V3 ℝ)) (faces : List FaceData)
    (hne : ∀ f ∈ faces, ∃ v0, f.verts[0]? = some v0) (ht : 0 ≤ tol) :
    (validate tol vertices faces = true ↔
      ∀ f ∈ faces, ∀ v0, f.verts[0]? = some v0 →
        (∀ v ∈ f.verts, |dot (v - v0) f.normal| ≤ tol) ∧ ∀ v ∈ vertices, dot (v - v0) f.normal ≤ tol) := by
  unfold validate
  rw [Bool.and_eq_true, List.all_eq_true, List.all_eq_true]
  constructor
  · rintro ⟨h1, h2⟩ f hf v0 h0
    have h1 := h1 f hf
    have h2 := h2 f hf
    match hv : f.verts with
    | [] => rw [hv] at h0; simp at h0
    | w :: rest =>
      rw [hv] at h0 h1 h2
      simp only [List.getElem?_cons_zero, Option.some.injEq] at h0
      subst h0
      simp only [List.all_eq_true, Bool.not_eq_true', decide_eq_false_iff_not, not_lt] at h1 h2
      refine ⟨?_, h2⟩
      intro v hv
      rcases List.mem_cons.mp hv with rfl | hv
      · have : dot (v - v) f.normal = 0 := by simp [dot]
        rw [this, abs_zero]; exact ht
      · exact h1 v hv
  · intro h
    refine ⟨?_, ?_⟩
    all_goals
      intro f hf
      obtain ⟨v0, h0⟩ := hne f hf
      obtain ⟨h1, h2⟩ := h f hf v0 h0
      match hv : f.verts with
      | [] => rfl
      | w :: rest =>
        rw [hv] at h0 h1
        simp only [List.getElem?_cons_zero, Option.some.injEq] at h0
        subst h0
        simp only [List.all_eq_true, Bool.not_eq_true', decide_eq_false_iff_not, not_lt]
        first
          | exact h2
          | exact fun v hv => h1 v (by simp [hv])

/-- Then all points of the convex hull of the vertices are behind every face. -/
theorem validate_hull (tol : ℝ) (ht : 0 ≤ tol) (vertices : List (V3 ℝ)) (faces : List FaceData)
    (hne : ∀ f ∈ faces, ∃ v0, f.verts[0]? = some v0) (hv : validate tol vertices faces = true)
    (f : FaceData) (hf : f ∈ faces) (v0 : V3 ℝ) (h0 : f.verts[0]? = some v0) (w : V3 ℝ) (hw : Hull vertices w) :
    dot (w - v0) f.normal ≤ tol := by
  have h := ((validate_spec tol vertices faces hne ht).mp hv f hf v0 h0).2
  rw [dot_sub_left]
  have := hull_le (d := f.normal) (x := tol + dot v0 f.normal) (pts := vertices) (by
    intro p hp
    have := h p hp
    rw [dot_sub_left] at this
    linarith) hw
  linarith

/-- **Finding.** A single triangle, an open mesh, is accepted. -/
theorem open_mesh_accepted (tol : ℝ) (ht : 0 ≤ tol) :
    validate tol [⟨0, 0, 0⟩, ⟨1, 0, 0⟩, ⟨0, 1, 0⟩] [⟨[⟨0, 0, 0⟩, ⟨1, 0, 0⟩, ⟨0, 1, 0⟩], ez⟩] = true := by
  rw [validate_spec tol _ _ (by intro f hf; simp at hf; subst hf; exact ⟨_, rfl⟩) ht]
  intro f hf v0 h0
  simp only [List.mem_singleton] at hf
  subst hf
  simp only [List.getElem?_cons_zero, Option.some.injEq] at h0
  subst h0
  constructor
  · intro v hv
    simp only [List.mem_cons, List.not_mem_nil, or_false] at hv
    rcases hv with rfl | rfl | rfl <;> simpa [dot, ez] using ht
  · intro v hv
    simp only [List.mem_cons, List.not_mem_nil, or_false] at hv
    rcases hv with rfl | rfl | rfl <;> simpa [dot, ez] using ht

/-! ## Calculating twice -/

/-- **Finding.** The neighbours are not cleared before they are calculated.  When the properties of a mesh
are calculated a second time, the assertion of the support function fails for every direction. -/
theorem second_update_breaks_support (k : ℕ) (vs : List (V3 ℝ)) (edges : List (ℕ × ℕ)) (dir : V3 ℝ) :
    let once := calcNeighborsFrom [] [] vs.length edges
    let twice := calcNeighborsFrom once.1 once.2 vs.length edges
    polyProjection k vs twice.1 twice.2 dir = none := by
  intro once twice
  have hl : (calcNeighbors vs.length edges).1.length = vs.length + 1 := (calc_inv edges vs.length).2.1
  have : twice.1.length ≠ vs.length + 1 := by
    simp only [twice, once, calcNeighborsFrom, List.nil_append, List.length_append, hl]
    omega
  unfold polyProjection
  cases vs[0]? with
  | none => rfl
  | some p => simp only [Option.bind_some]; rw [if_neg this]

/-- From empty vectors the function is `calcNeighbors`. -/
theorem first_update (n : ℕ) (edges : List (ℕ × ℕ)) : calcNeighborsFrom [] [] n edges = calcNeighbors n edges := by
  simp [calcNeighborsFrom]

/-! ## The whole mesh -/

/-- **C74 and C69.** The neighbours calculated from the edges calculated from the faces of a mesh give the
maximal projection of the mesh, provided that from every vertex all others are seen inside of the cone of the
edges at it. -/
theorem mesh_support_spec (vs : List (V3 ℝ)) (faces : List (List ℕ)) (es : List Edge)
    (hn : ∀ f ∈ faces, ∀ v ∈ f, v < vs.length) (h : calcEdges faces = some es)
    (hne : vs ≠ []) (dir : V3 ℝ) (hcone : EdgeCone vs (es.map fun e => (e.v0, e.v1))) :
    ∃ x, polyProjection vs.length vs (calcNeighbors vs.length (es.map fun e => (e.v0, e.v1))).1
        (calcNeighbors vs.length (es.map fun e => (e.v0, e.v1))).2 dir = some x ∧
      IsProjection (Hull vs) dir x := by
  refine polyhedron_projection_spec vs _ hne ?_ hcone dir _ le_rfl
  intro e he
  rw [List.mem_map] at he
  obtain ⟨x, hx, rfl⟩ := he
  exact edges_in_range faces vs.length hn es h x hx

theorem edge_cone_mono {vs : List (V3 ℝ)} {edges edges' : List (ℕ × ℕ)} (hc : EdgeCone vs edges)
    (h : ∀ e ∈ edges, e ∈ edges' ∨ (e.2, e.1) ∈ edges') : EdgeCone vs edges' := by
  intro v p hv q hq
  have := hc v p hv q hq
  generalize q - p = x at this
  induction this with
  | zero => exact .zero
  | add s _ hg hs ih =>
    refine .add s ih ?_ hs
    obtain ⟨u, r, ⟨he, hr⟩, rfl⟩ := hg
    refine ⟨u, r, ⟨?_, hr⟩, rfl⟩
    rcases he with he | he
    · rcases h _ he with h' | h'
      · exact .inl h'
      · exact .inr h'
    · rcases h _ he with h' | h'
      · exact .inr h'
      · exact .inl h'

/-- The pyramid given by its faces meets the hypotheses. -/
example : ∃ es, calcEdges [[0, 1, 2, 3], [1, 0, 4], [2, 1, 4], [3, 2, 4], [0, 3, 4]] = some es ∧
    EdgeCone pyramid (es.map fun e => (e.v0, e.v1)) :=
  ⟨[⟨0, 1, 0, some 1⟩, ⟨1, 2, 0, some 2⟩, ⟨2, 3, 0, some 3⟩, ⟨3, 0, 0, some 4⟩, ⟨0, 4, 1, some 4⟩,
    ⟨4, 1, 1, some 2⟩, ⟨4, 2, 2, some 3⟩, ⟨4, 3, 3, some 4⟩], by decide, edge_cone_mono pyramid_cone (by decide)⟩

end Edyn.Geom.Poly
