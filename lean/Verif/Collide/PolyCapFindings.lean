import Verif.Collide.PolyCapExact
import Verif.Collide.PolyPolyFindings

/-!
# Contacts between a polyhedron and a capsule: examples (C95)
-/

namespace Edyn.Collide

open Edyn.Math hiding lengthSqr_nonneg
open V3 Edyn.Geom Edyn.Geom.Poly Edyn.Contact

/-- The mesh built by `convex_mesh::initialize` from a convex polyhedron is closed, if its faces make up the polyhedron and
the normals of them are equal or differ by more than the tolerance. -/
theorem closed_of_mesh (eps tol : ℝ) (he : 0 ≤ eps) (vs : List (V3 ℝ)) (faces : List (List ℕ)) (normal : ℕ → V3 ℝ)
    (h : ConvexBody eps vs faces normal)
    (full : ∀ w, (∀ i f, faces[i]? = some f → ∀ p ∈ corners vs f, dot (w - p) (normal i) ≤ 0) → Hull vs w)
    (clear : ∀ i j f g, faces[i]? = some f → faces[j]? = some g → 1 - tol ≤ dot (normal i) (normal j) → normal i = normal j) :
    ∃ m, meshOf eps tol vs faces = some m ∧ m.verts = vs ∧ PolySolid m ∧ PolyClosed m := by
  obtain ⟨m, h1, h2, h3, es, h4, h5, h6, h7⟩ := solid_of_mesh eps tol he vs faces normal h
  have cmem : ∀ f ∈ faces, ∀ p ∈ corners vs f, p ∈ vs := by
    intro f hf p hp
    obtain ⟨v, hv, rfl⟩ := List.mem_map.mp hp
    have := h.in_range f hf v hv
    rw [List.getD_eq_getElem?_getD, List.getElem?_eq_getElem this]
    exact List.getElem_mem this
  refine ⟨m, h1, h2, h3, ?_, ?_, ?_⟩
  · intro w hw
    rw [h2]
    refine full w fun i f hf p hp => ?_
    obtain ⟨x, hx, j, g, g1, g2, g3, g4, g5⟩ := h7 i f hf
    have e : normal i = normal j := g5.elim (fun e => by rw [e]) (clear i j f g hf g1)
    have w1 := hw x hx
    have w2 := h.behind i f hf p hp _ g4
    rw [g2, ← e] at w1
    have : dot (w - p) (normal i) = dot (w - x.2) (normal i) + dot (x.2 - p) (normal i) := by simp [dot]; ring
    rw [this]; linarith
  · intro x hx
    obtain ⟨i, f, a1, a2, a3, -⟩ := h6 x hx
    rw [a2]; exact h.around i f a1 _ a3
  · refine ⟨_, h2 ▸ h.cone es h4, ?_⟩
    intro e he' u v hu hv
    obtain ⟨e0, m0, rfl⟩ := List.mem_map.mp he'
    rw [h2] at hu hv
    refine ⟨_, by rw [h5]; exact List.mem_map_of_mem m0, .inl ⟨?_, ?_⟩⟩
    · simp only [List.getD_eq_getElem?_getD] at hu ⊢; rw [hu]; rfl
    · simp only [List.getD_eq_getElem?_getD] at hv ⊢; rw [hv]; rfl

/-- The tetrahedron is what is behind its faces. -/
theorem tetra_full (w : V3 ℝ) (h : ∀ i f, tetraFaces[i]? = some f → ∀ p ∈ corners tetraVerts f, dot (w - p) (tetraNormal i) ≤ 0) :
    Hull tetraVerts w := by
  have f0 := h 0 [0, 3, 2] rfl ⟨-1, -1, -1⟩ (by simp [corners, tetraVerts])
  have f1 := h 1 [0, 1, 3] rfl ⟨-1, -1, -1⟩ (by simp [corners, tetraVerts])
  have f2 := h 2 [0, 2, 1] rfl ⟨-1, -1, -1⟩ (by simp [corners, tetraVerts])
  have f3 := h 3 [1, 2, 3] rfl ⟨7, -1, -1⟩ (by simp [corners, tetraVerts])
  simp [dot, tetraNormal] at f0 f1 f2 f3
  obtain ⟨x, y, z⟩ := w
  simp only at f0 f1 f2 f3
  have v0 : Hull tetraVerts ⟨-1, -1, -1⟩ := .vertex (by simp [tetraVerts])
  have v1 : Hull tetraVerts ⟨7, -1, -1⟩ := .vertex (by simp [tetraVerts])
  have v2 : Hull tetraVerts ⟨-1, 5, -1⟩ := .vertex (by simp [tetraVerts])
  have v3 : Hull tetraVerts ⟨-1, -1, 1⟩ := .vertex (by simp [tetraVerts])
  -- the weights of the vertices
  have cx := hull_convex tetraVerts
  obtain ⟨α, rfl⟩ : ∃ α, x = 8 * α - 1 := ⟨(x + 1) / 8, by ring⟩
  obtain ⟨β, rfl⟩ : ∃ β, y = 6 * β - 1 := ⟨(y + 1) / 6, by ring⟩
  obtain ⟨γ, rfl⟩ : ∃ γ, z = 2 * γ - 1 := ⟨(z + 1) / 2, by ring⟩
  have a0 : 0 ≤ α := by linarith
  have b0 : 0 ≤ β := by linarith
  have c0 : 0 ≤ γ := by linarith
  have s1 : α + β + γ ≤ 1 := by linarith
  clear h f0 f1 f2 f3
  rcases eq_or_lt_of_le (show 0 ≤ α + β + γ by linarith) with hs | hs
  · have ex : α = 0 := by linarith
    have ey : β = 0 := by linarith
    have ez : γ = 0 := by linarith
    subst ex ey ez; norm_num; exact v0
  · -- the point of the slanted face
    have hq : Hull tetraVerts ⟨8 * (α / (α + β + γ)) - 1, 6 * (β / (α + β + γ)) - 1, 2 * (γ / (α + β + γ)) - 1⟩ := by
      rcases eq_or_lt_of_le (show 0 ≤ α + β by linarith) with hu | hu
      · have ex : α = 0 := by linarith
        have ey : β = 0 := by linarith
        subst ex ey
        have : γ ≠ 0 := by rintro rfl; simp at hs
        simp only [zero_div, add_zero, zero_add, mul_zero, div_self this]
        norm_num; exact v3
      · have e12 := cx _ _ v1 v2 (β / (α + β)) (by positivity) (by rw [div_le_one hu]; linarith)
        have e3 := cx _ _ e12 v3 (γ / (α + β + γ)) (by positivity) (by rw [div_le_one hs]; linarith)
        convert e3 using 1
        have hu' := hu.ne'
        have hs' := hs.ne'
        ext <;> simp <;> field_simp <;> ring
    have := cx _ _ v0 hq _ hs.le s1
    convert this using 1
    have hs' := hs.ne'
    ext <;> simp <;> field_simp <;> ring

/-- The mesh of the tetrahedron is closed. -/
theorem tetra_closed : ∃ m, meshOf (1 / 100) (1 / 100) tetraVerts tetraFaces = some m ∧ m.verts = tetraVerts ∧ PolySolid m ∧ PolyClosed m ∧
    m.edges = tetraEdges.map fun e =>
      ⟨tetraVerts.getD e.v0 0, tetraVerts.getD e.v1 0, tetraNormal e.f0, tetraNormal (e.f1.getD 0)⟩ := by
  obtain ⟨m, h1, h2, h3, h4⟩ := closed_of_mesh _ (1 / 100) (by norm_num) _ _ _ tetra_body tetra_full (by
    intro i j f g hf hg
    have hi : i < 4 := (List.getElem?_eq_some_iff.mp hf).1
    have hj : j < 4 := (List.getElem?_eq_some_iff.mp hg).1
    interval_cases i <;> interval_cases j <;> norm_num [tetraNormal, dot])
  obtain ⟨m', k1, k2, k3, k4⟩ := tetra_mesh (1 / 100)
  rw [h1] at k1; cases k1
  exact ⟨m, h1, h2, h3, h4, k4⟩

/-- A capsule above the slanted face of the tetrahedron, upright: all assumptions are met. -/
example (K : Consts ℝ) (hK : 0 ≤ K.tiny) (hK' : K.tiny < 1) :
    ∃ m l n p q dist, meshOf (1 / 100) (1 / 100) tetraVerts tetraFaces = some m ∧
      polyCapsule K 4 5 (1 / 1000) (1 / 200) m 1 2 .z ⟨0, 1, ⟨0, 0, 5⟩, 1, 1 / 50⟩ = some l ∧ lengthSqr n = 1 ∧
      ClosestPair (Placed (Hull m.verts) 0 1) (segSet (capVertex0 2 .z ⟨0, 0, 5⟩ 1) (capVertex1 2 .z ⟨0, 0, 5⟩ 1)) p q ∧
      p - q = smul (dist + 1) n := by
  obtain ⟨m, h1, h2, h3, h4, h5⟩ := tetra_closed
  have rid : ∀ v : V3 ℝ, Quat.rotate 1 v = v := rotate_one
  have e0 : capVertex0 2 .z ⟨0, 0, 5⟩ 1 = ⟨0, 0, 7⟩ := by simp only [capVertex0, rid]; ext <;> norm_num [Axis.vec, ez]
  have e1 : capVertex1 2 .z ⟨0, 0, 5⟩ 1 = ⟨0, 0, 3⟩ := by simp only [capVertex1, rid]; ext <;> norm_num [Axis.vec, ez]
  obtain ⟨l, n, p, q, dist, a1, a2, a3, -, a5, -⟩ := polyhedron_capsule_distance_partial K hK 4 5 (1 / 1000) (1 / 200) (by norm_num) (by norm_num)
    m h3 h4 (by simp [h2, tetraVerts]) (by simp [h2, tetraVerts]) 1 2 (by norm_num) (by norm_num) (by norm_num) .z
    ⟨0, 1, ⟨0, 0, 5⟩, 1, 1 / 50⟩ ⟨one_unit, one_unit, by norm_num⟩ (by
      unfold CapClear
      rw [h5]
      simp only [rid, e0, e1]
      simp [tetraEdges, tetraVerts, lengthSqr, dot, cross]
      norm_num
      rfl) (by
      rintro _ w ⟨v, hv, rfl⟩ ⟨t, t0, t1, rfl⟩
      rw [h2] at hv
      simp only [rid, e0, e1]
      have hz := hull_high (n := ⟨0, 0, 1⟩) (h := 1) (by intro v hv; simp [tetraVerts] at hv; rcases hv with rfl | rfl | rfl | rfl <;> norm_num [dot]) hv
      simp [dot] at hz
      simp [lengthSqr, dot]
      nlinarith [mul_self_nonneg v.x, mul_self_nonneg v.y])
  exact ⟨m, l, n, p, q, dist, h1, a1, a2, a3, a5⟩

end Edyn.Collide
