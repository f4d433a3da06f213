import Verif.Geom.RaycastWorld
import Verif.Geom.Support
import Verif.Mesh.SplitQuery

/-!
# Casting a segment against meshes, paged meshes and compounds (C70)

Models in `Verif.Geom.RaycastWorld`; here are the trees they use and the theorems.
-/

namespace Edyn.Geom

open Edyn.Math V3

/-! ## Model of the boxes in the trees -/

/-- `get_triangle_aabb`, `triangle.cpp` 130-134. -/
noncomputable def triBox (t : Tri) : Box ℝ :=
  ⟨⟨min (min t.v0.x t.v1.x) t.v2.x, min (min t.v0.y t.v1.y) t.v2.y, min (min t.v0.z t.v1.z) t.v2.z⟩,
   ⟨max (max t.v0.x t.v1.x) t.v2.x, max (max t.v0.y t.v1.y) t.v2.y, max (max t.v0.z t.v1.z) t.v2.z⟩⟩

/-- The tree of a mesh, `triangle_mesh.cpp` 130-144. -/
noncomputable def triTree (env : StaticTree.Env ℝ) (tris : List (Tri × V3 ℝ)) : Option (StaticTree.St ℝ) :=
  StaticTree.build env (tris.map fun tn => triBox tn.1) 1

/-! ## Specification -/

/-- The points of a mesh. -/
def MeshSet (tris : List (Tri × V3 ℝ)) : Shape := fun x => ∃ tn ∈ tris, tn.1.Has x

/-- The full statement about meshes: the first point of the placed mesh, with the normal of its triangle. -/
def MeshRayFull (eps big : ℝ) : Prop :=
  ∀ (env : StaticTree.Env ℝ) (tris : List (Tri × V3 ℝ)) (st : StaticTree.St ℝ) (pos : V3 ℝ) (orn : Quat ℝ) (p0 p1 : V3 ℝ),
    env.Ok → StaticTree.IdIsItem env → tris ≠ [] → triTree env tris = some st → (∀ tn ∈ tris, tn.1.Normal tn.2) →
    orn.lengthSqr = 1 → p0 ≠ p1 →
    ∃ r, meshRay eps big st.nodes tris pos orn p0 p1 = some r ∧
      (∀ h, r = some h → FirstHit (Placed (MeshSet tris) pos orn) p0 p1 h.fraction ∧ ∃ tn ∈ tris,
        Placed tn.1.Has pos orn (along p0 p1 h.fraction) ∧ h.normal = some (Quat.rotate orn tn.2)) ∧
      (r = none → Misses (Placed (MeshSet tris) pos orn) p0 p1)

/-- The triangles of the pages in the cache: page `k` holds the triangles of the `k`-th leaf of the page tree, and
its own tree is that of its triangles. -/
structure PagesOf (env : StaticTree.Env ℝ) (tris : List (Tri × V3 ℝ)) (log : List (Nat × List Nat)) (pages : List Page) :
    Prop where
  length : pages.length = log.length
  page : ∀ (k : Nat) l m, log[k]? = some l → pages[k]? = some (some m) → m.2 = l.2.filterMap (tris[·]?) ∧
    ∃ st, triTree env m.2 = some st ∧ st.nodes = m.1

/-- The triangles which are in the cache. -/
def Loaded (pages : List Page) (tn : Tri × V3 ℝ) : Prop := ∃ m, some m ∈ pages ∧ tn ∈ m.2

/-! ## Triangles -/

theorem triBox_has (t : Tri) (x : V3 ℝ) (h : t.Has x) : (toAabb (triBox t)).Has x := by
  have lo : ∀ (d : V3 ℝ) (c : ℝ), (dot t.v0 d ≤ c ∧ dot t.v1 d ≤ c ∧ dot t.v2 d ≤ c) → dot x d ≤ c := by
    intro d c hc
    refine hull_le (pts := [t.v0, t.v1, t.v2]) ?_ h
    intro p hp
    simp only [List.mem_cons, List.not_mem_nil, or_false] at hp
    rcases hp with rfl | rfl | rfl
    · exact hc.1
    · exact hc.2.1
    · exact hc.2.2
  have x1 := lo ⟨1, 0, 0⟩ (max (max t.v0.x t.v1.x) t.v2.x) (by simp [dot])
  have y1 := lo ⟨0, 1, 0⟩ (max (max t.v0.y t.v1.y) t.v2.y) (by simp [dot])
  have z1 := lo ⟨0, 0, 1⟩ (max (max t.v0.z t.v1.z) t.v2.z) (by simp [dot])
  have x0 := lo ⟨-1, 0, 0⟩ (- min (min t.v0.x t.v1.x) t.v2.x) (by simp [dot])
  have y0 := lo ⟨0, -1, 0⟩ (- min (min t.v0.y t.v1.y) t.v2.y) (by simp [dot])
  have z0 := lo ⟨0, 0, -1⟩ (- min (min t.v0.z t.v1.z) t.v2.z) (by simp [dot])
  have e1 : dot x ⟨1, 0, 0⟩ = x.x := by simp [dot]
  have e2 : dot x ⟨0, 1, 0⟩ = x.y := by simp [dot]
  have e3 : dot x ⟨0, 0, 1⟩ = x.z := by simp [dot]
  have e4 : dot x ⟨-1, 0, 0⟩ = -x.x := by simp [dot]
  have e5 : dot x ⟨0, -1, 0⟩ = -x.y := by simp [dot]
  have e6 : dot x ⟨0, 0, -1⟩ = -x.z := by simp [dot]
  rw [e1] at x1; rw [e2] at y1; rw [e3] at z1; rw [e4] at x0; rw [e5] at y0; rw [e6] at z0
  exact ⟨⟨neg_le_neg_iff.1 x0, x1⟩, ⟨neg_le_neg_iff.1 y0, y1⟩, ⟨neg_le_neg_iff.1 z0, z1⟩⟩

/-- The points of a triangle are in its plane. -/
theorem tri_plane {tr : Tri} {n : V3 ℝ} (hn : tr.Normal n) (x : V3 ℝ) (hx : tr.Has x) : dot x n = dot tr.v0 n := by
  obtain ⟨-, c, hc, hN⟩ := hn
  have orth : ∀ u ∈ [tr.v0, tr.v1, tr.v2], dot (u - tr.v0) n = 0 := by
    intro u hu
    have e : ∀ y, c * dot y n = dot y (cross (tr.v1 - tr.v0) (tr.v2 - tr.v0)) := by
      intro y; rw [hN]; simp [dot]; ring
    have h0 : c * dot (u - tr.v0) n = 0 := by
      rw [e]
      simp only [List.mem_cons, List.not_mem_nil, or_false] at hu
      rcases hu with rfl | rfl | rfl <;> simp [dot] <;> ring
    rcases mul_eq_zero.1 h0 with h | h
    · exact absurd h hc.ne'
    · exact h
  refine le_antisymm (hull_le (pts := [tr.v0, tr.v1, tr.v2]) ?_ hx) ?_
  · intro p hp
    have := orth p hp
    rw [dot_sub_left] at this
    linarith
  · have := hull_le (pts := [tr.v0, tr.v1, tr.v2]) (d := -n) (x := - dot tr.v0 n) ?_ hx
    · rw [dot_neg_right] at this; linarith
    · intro p hp
      have := orth p hp
      rw [dot_sub_left] at this
      rw [dot_neg_right]
      linarith

/-- The result for one triangle which the segment is not parallel to. -/
theorem tri_fair (eps : ℝ) (he : 0 ≤ eps) (p0 p1 : V3 ℝ) (tn : Tri × V3 ℝ) (hn : tn.1.Normal tn.2)
    (hd : eps < |dot (p1 - p0) tn.2|) :
    RayFair tn.1.Has p0 p1 (some ((segmentTriangle eps p0 p1 tn.1 tn.2).map fun t => ⟨t, some tn.2⟩)) := by
  have key := segment_triangle_partial eps he p0 p1 tn.1 tn.2 hn hd
  constructor
  · intro h hh
    cases hc : segmentTriangle eps p0 p1 tn.1 tn.2 with
    | none => rw [hc] at hh; simp at hh
    | some t =>
      rw [hc] at hh
      simp at hh
      subst hh
      exact ((key t).1 hc).1
  · intro h hh _
    cases hc : segmentTriangle eps p0 p1 tn.1 tn.2 with
    | none => rw [hc] at hh; simp at hh
    | some t =>
      rw [hc] at hh
      simp at hh
      subst hh
      exact (key t).1 hc
  · intro h hh hb
    cases hc : segmentTriangle eps p0 p1 tn.1 tn.2 with
    | none => rw [hc] at hh; simp at hh
    | some t =>
      rw [hc] at hh
      simp at hh
      subst hh
      exact absurd ((key t).1 hc).2.1 (not_le.2 hb)
  · intro hh
    cases hc : segmentTriangle eps p0 p1 tn.1 tn.2 with
    | some t => rw [hc] at hh; simp at hh
    | none =>
      intro t h0 h1 ht
      -- the segment crosses the plane once
      have : segmentTriangle eps p0 p1 tn.1 tn.2 = some t := by
        rw [key t]
        refine ⟨h0, h1, ht, ?_⟩
        intro s s0 s1 hs
        have pl : ∀ x, tn.1.Has x → dot x tn.2 = dot tn.1.v0 tn.2 := tri_plane hn
        have a1 := pl _ ht
        have a2 := pl _ hs
        have e : ∀ u, dot (along p0 p1 u) tn.2 = dot p0 tn.2 + u * dot (p1 - p0) tn.2 := by
          intro u; simp [dot, along]; ring
        rw [e] at a1 a2
        have h0 : (t - s) * dot (p1 - p0) tn.2 = 0 := by linarith
        rcases mul_eq_zero.1 h0 with h0 | h0
        · linarith
        · rw [h0, abs_zero] at hd; linarith
      rw [hc] at this
      simp at this
  · simp

/-- The visited triangles of a mesh. -/
theorem mesh_visited (eps : ℝ) (he : 0 ≤ eps) {env : StaticTree.Env ℝ} (hok : env.Ok) (hid : StaticTree.IdIsItem env)
    {tris : List (Tri × V3 ℝ)} {st : StaticTree.St ℝ} (ht : triTree env tris = some st) (p0 p1 : V3 ℝ) :
    ∃ out, StaticTree.queryIds st.nodes (rayTest eps p0 p1) = some out ∧ (∀ i ∈ out, i < tris.length) ∧
      ∀ i tn, tris[i]? = some tn → ¬ Misses tn.1.Has p0 p1 → i ∈ out := by
  have hne : (tris.map fun tn => triBox tn.1) ≠ [] := by
    intro h0
    unfold triTree at ht
    rw [h0] at ht
    simp [StaticTree.build] at ht
  obtain ⟨st', out, h1, h2, -, h4⟩ := StaticTree.query_single_exact hok hid hne
    (test := rayTest eps p0 p1) (rayTest_monotone eps he p0 p1)
  unfold triTree at ht
  rw [ht] at h1
  simp only [Option.some_inj] at h1
  subst h1
  refine ⟨out, h2, ?_, ?_⟩
  · intro i hi
    obtain ⟨b, hb, -⟩ := (h4 i).1 hi
    have := (List.getElem?_eq_some_iff.1 hb).1
    simpa using this
  · intro i tn hi hm
    unfold Misses at hm
    push Not at hm
    obtain ⟨t, t0, t1, hx⟩ := hm
    exact (h4 i).2 ⟨triBox tn.1, by simp [hi], rayTest_of_has he t0 t1 (triBox_has _ _ hx)⟩

/-- **C70, meshes.** Proved: the segment is not parallel to any triangle of the mesh, and the mesh is at the origin.
The first point of the mesh on the segment is found, with the normal of a triangle at this point, and a miss is
reported only if the segment has no point of the mesh.  Missing: other positions, which are ignored
(`mesh_ray_refuted`), and parallel triangles (`segment_triangle_refuted`). -/
theorem mesh_ray_partial (eps big : ℝ) (he : 0 ≤ eps) (hbig : 1 < big) {env : StaticTree.Env ℝ} (hok : env.Ok)
    (hid : StaticTree.IdIsItem env) {tris : List (Tri × V3 ℝ)} {st : StaticTree.St ℝ} (ht : triTree env tris = some st)
    (hn : ∀ tn ∈ tris, tn.1.Normal tn.2) (pos : V3 ℝ) (orn : Quat ℝ) (p0 p1 : V3 ℝ)
    (hd : ∀ tn ∈ tris, eps < |dot (p1 - p0) tn.2|) :
    ∃ r, meshRay eps big st.nodes tris pos orn p0 p1 = some r ∧
      (∀ h, r = some h → FirstHit (MeshSet tris) p0 p1 h.fraction ∧ ∃ tn ∈ tris,
        tn.1.Has (along p0 p1 h.fraction) ∧ h.normal = some tn.2) ∧
      (r = none → Misses (MeshSet tris) p0 p1) := by
  obtain ⟨out, h1, h2, h3⟩ := mesh_visited eps he hok hid ht p0 p1
  have hfair : ∀ i ∈ out, RayFair (fun x => ∃ tn, tris[i]? = some tn ∧ tn.1.Has x) p0 p1 (triCast eps p0 p1 tris i) := by
    intro i hi
    have hlt := h2 i hi
    have hg : tris[i]? = some tris[i] := List.getElem?_eq_getElem hlt
    have hm : tris[i] ∈ tris := List.getElem_mem hlt
    unfold triCast
    rw [hg]
    have := tri_fair eps he p0 p1 tris[i] (hn _ hm) (hd _ hm)
    simpa using this
  obtain ⟨best, g1, g2⟩ := castAll_nearest big (triCast eps p0 p1 tris) out (fun i hi => (hfair i hi).ok)
  obtain ⟨u1, u2⟩ := nearest_union hbig g2 hfair
  refine ⟨best.map (·.2), ?_, ?_, ?_⟩
  · unfold meshRay
    rw [h1, Option.bind_some, g1, Option.map_some]
  · intro h hh
    cases best with
    | none => simp at hh
    | some b =>
      obtain ⟨i, h'⟩ := b
      simp at hh
      subst hh
      obtain ⟨v1, v2, v3, v4⟩ := u1 i h' rfl
      -- the fraction of a triangle is at most 1
      have hlt := h2 i v1
      have hg : tris[i]? = some tris[i] := List.getElem?_eq_getElem hlt
      have hm : tris[i] ∈ tris := List.getElem_mem hlt
      have hc := g2.1
      unfold triCast at hc
      rw [hg] at hc
      simp only [Option.map_some, Option.some_inj] at hc
      cases hs : segmentTriangle eps p0 p1 tris[i].1 tris[i].2 with
      | none => rw [hs] at hc; simp at hc
      | some t =>
        rw [hs] at hc
        simp at hc
        have k := (segment_triangle_partial eps he p0 p1 _ _ (hn _ hm) (hd _ hm) t).1 hs
        subst hc
        obtain ⟨w1, w2⟩ := v3 k.2.1
        refine ⟨⟨k.1, k.2.1, ⟨_, hm, k.2.2.1⟩, ?_⟩, _, hm, k.2.2.1, rfl⟩
        rintro s s0 s1 ⟨tn, htn, hx⟩
        obtain ⟨j, hj⟩ := List.getElem?_of_mem htn
        have := w2 j (h3 j tn hj (fun hmiss => hmiss s s0 (by linarith [k.2.1]) hx)) s s0 (by linarith [k.2.1]) ⟨tn, hj, hx⟩
        simp only at this
        linarith
  · intro hh
    cases best with
    | some b => simp at hh
    | none =>
      rintro t t0 t1 ⟨tn, htn, hx⟩
      obtain ⟨j, hj⟩ := List.getElem?_of_mem htn
      exact u2 rfl j (h3 j tn hj (fun hmiss => hmiss t t0 t1 hx)) t t0 t1 ⟨tn, hj, hx⟩

/-! ## Witnesses for meshes -/

/-- An environment with exact arithmetic. -/
noncomputable def realEnv : StaticTree.Env ℝ := by
  classical exact
    { mid := fun a b => (a + b) / 2
      axis := fun _ => .x
      sort := fun f l => l.insertionSort fun i j => f i ≤ f j
      report := fun _ l => l.headD 0 }

theorem realEnv_ok : realEnv.Ok := by
  classical
  refine ⟨?_, ?_, ?_⟩
  · intro a b c d h1 h2; simp only [realEnv]; linarith
  · intro f l; exact List.perm_insertionSort _ _
  · intro f l
    have : Std.Total (fun i j : Nat => f i ≤ f j) := ⟨fun i j => le_total _ _⟩
    have : IsTrans Nat (fun i j => f i ≤ f j) := ⟨fun a b c h1 h2 => le_trans h1 h2⟩
    exact List.pairwise_insertionSort (fun i j => f i ≤ f j) l

theorem realEnv_item : StaticTree.IdIsItem realEnv := fun _ _ _ => rfl

/-- A triangle in the plane `z = 0` with its normal. -/
def exTri : Tri × V3 ℝ := (⟨⟨0, 0, 0⟩, ⟨1, 0, 0⟩, ⟨0, 1, 0⟩⟩, ⟨0, 0, 1⟩)

theorem exTri_normal : exTri.1.Normal exTri.2 :=
  ⟨by simp [exTri, lengthSqr, dot], 1, by norm_num, by ext <;> simp [exTri, cross]⟩

theorem exTri_has : exTri.1.Has (along ⟨1 / 4, 1 / 4, 1⟩ ⟨1 / 4, 1 / 4, -1⟩ (1 / 2)) := by
  have := Tri.hull_of_weights (v0 := ⟨0, 0, 0⟩) (v1 := ⟨1, 0, 0⟩) (v2 := ⟨0, 1, 0⟩) (a := 1 / 4) (b := 1 / 4)
    (by norm_num) (by norm_num) (by norm_num)
  unfold Tri.Has exTri
  convert this using 1
  ext <;> norm_num [along]

theorem exTri_tree : ∃ st, triTree realEnv [exTri] = some st := by
  obtain ⟨st, h, -⟩ := StaticTree.build_exact realEnv_ok (boxes := [exTri].map fun tn => triBox tn.1) (by simp)
    (Nat.le_refl 1)
  exact ⟨st, h⟩

/-- The hypotheses of `mesh_ray_partial` are met, and a point of the mesh is on the segment. -/
example : ∃ st, triTree realEnv [exTri] = some st ∧ (∀ tn ∈ [exTri], tn.1.Normal tn.2) ∧
    (∀ tn ∈ [exTri], (1 / 100 : ℝ) < |dot ((⟨1 / 4, 1 / 4, -1⟩ : V3 ℝ) - ⟨1 / 4, 1 / 4, 1⟩) tn.2|) ∧
    ¬ Misses (MeshSet [exTri]) ⟨1 / 4, 1 / 4, 1⟩ ⟨1 / 4, 1 / 4, -1⟩ := by
  obtain ⟨st, h⟩ := exTri_tree
  refine ⟨st, h, by simpa using exTri_normal, ?_, fun hm => hm (1 / 2) (by norm_num) (by norm_num) ⟨_, by simp, exTri_has⟩⟩
  simp only [List.mem_singleton, forall_eq]
  norm_num [exTri, dot]

/-- **Finding.** The position of the mesh is ignored: a mesh ten units away is hit. -/
theorem mesh_ray_refuted (eps big : ℝ) (he : 0 ≤ eps) (he2 : eps < 2) (hbig : 1 < big) : ¬ MeshRayFull eps big := by
  intro hfull
  obtain ⟨st, hst⟩ := exTri_tree
  have hd : ∀ tn ∈ [exTri], eps < |dot ((⟨1 / 4, 1 / 4, -1⟩ : V3 ℝ) - ⟨1 / 4, 1 / 4, 1⟩) tn.2| := by
    simp only [List.mem_singleton, forall_eq]
    have : dot ((⟨1 / 4, 1 / 4, -1⟩ : V3 ℝ) - ⟨1 / 4, 1 / 4, 1⟩) exTri.2 = -2 := by norm_num [exTri, dot]
    rw [this]
    norm_num
    exact he2
  have hn : ∀ tn ∈ [exTri], tn.1.Normal tn.2 := by simpa using exTri_normal
  obtain ⟨r, h1, -, h3⟩ := mesh_ray_partial eps big he hbig realEnv_ok realEnv_item hst hn ⟨10, 0, 0⟩ ⟨0, 0, 0, 1⟩ _ _ hd
  obtain ⟨r', h1', h2', -⟩ := hfull realEnv [exTri] st ⟨10, 0, 0⟩ ⟨0, 0, 0, 1⟩ ⟨1 / 4, 1 / 4, 1⟩ ⟨1 / 4, 1 / 4, -1⟩
    realEnv_ok realEnv_item (by simp) hst hn quat_one_unit (by norm_num [V3.ext_iff])
  rw [h1] at h1'
  simp only [Option.some_inj] at h1'
  subst h1'
  cases r with
  | none => exact h3 rfl (1 / 2) (by norm_num) (by norm_num) ⟨_, by simp, exTri_has⟩
  | some h =>
    obtain ⟨⟨-, -, hx, -⟩, -⟩ := h2' h rfl
    rw [placed_iff _ _ quat_one_unit] at hx
    obtain ⟨tn, htn, hx⟩ := hx
    simp only [List.mem_singleton] at htn
    subst htn
    have := (triBox_has _ _ hx).1.1
    norm_num [toAabb, triBox, exTri, toObjectSpace, Quat.rotate, Quat.conjugate, along, cross] at this

/-! ## Casting against a union through a list of candidates -/

/-- If the candidates contain every object that the segment meets, the nearest result of the candidates is the
nearest of all. -/
theorem cover_union {ι : Type} {big : ℝ} (hbig : 1 < big) {cast : ι → RayRes} {l : List ι} {I : ι → Prop}
    {S : ι → V3 ℝ → Prop} {p0 p1 : V3 ℝ} (hI : ∀ i ∈ l, I i) (hcov : ∀ i, I i → ¬ Misses (S i) p0 p1 → i ∈ l)
    (hf : ∀ i, I i → RayFair (S i) p0 p1 (cast i)) :
    ∃ best, castAll big cast l = some best ∧
      (∀ i h, best = some (i, h) → I i ∧ cast i = some (some h) ∧ 0 ≤ h.fraction ∧
        (h.fraction ≤ 1 → S i (along p0 p1 h.fraction) ∧ FirstHit (fun x => ∃ j, I j ∧ S j x) p0 p1 h.fraction) ∧
        (1 < h.fraction → Misses (fun x => ∃ j, I j ∧ S j x) p0 p1)) ∧
      (best = none → Misses (fun x => ∃ j, I j ∧ S j x) p0 p1) := by
  obtain ⟨best, g1, g2⟩ := castAll_nearest big cast l (fun i hi => (hf i (hI i hi)).ok)
  obtain ⟨u1, u2⟩ := nearest_union hbig g2 (fun i hi => hf i (hI i hi))
  refine ⟨best, g1, ?_, ?_⟩
  · intro i h hb
    obtain ⟨v1, v2, v3, v4⟩ := u1 i h hb
    subst hb
    refine ⟨hI i v1, g2.1, v2, ?_, ?_⟩
    · intro hle
      obtain ⟨w1, w2⟩ := v3 hle
      refine ⟨w1.2.2.1, v2, hle, ⟨i, hI i v1, w1.2.2.1⟩, ?_⟩
      rintro s s0 s1 ⟨j, hj, hx⟩
      have := w2 j (hcov j hj fun hm => hm s s0 (by linarith) hx) s s0 (by linarith) hx
      linarith
    · rintro hlt t t0 t1 ⟨j, hj, hx⟩
      exact v4 hlt j (hcov j hj fun hm => hm t t0 t1 hx) t t0 t1 hx
  · rintro hb t t0 t1 ⟨j, hj, hx⟩
    exact u2 hb j (hcov j hj fun hm => hm t t0 t1 hx) t t0 t1 hx

/-! ## Paged meshes -/

theorem pageCast_of {eps : ℝ} {p0 p1 : V3 ℝ} {pages : List Page} {k i : Nat} {m : List (StaticTree.TNode ℝ) × List (Tri × V3 ℝ)}
    {tn : Tri × V3 ℝ} (hm : pages[k]? = some (some m)) (hi : m.2[i]? = some tn) :
    pageCast eps p0 p1 pages (k, i) = some ((segmentTriangle eps p0 p1 tn.1 tn.2).map fun t => ⟨t, some tn.2⟩) := by
  unfold pageCast triCast
  simp [hm, hi]

/-- **C70, paged meshes.** Proved: the segment is not parallel to any triangle.  The first point of the triangles in the
cache is found, with the normal of a triangle at this point, and a miss is reported only if the segment has no point
of the triangles in the cache.  Missing: positions and parallel triangles, as for meshes, and pages which are not in
the cache. -/
theorem paged_ray_partial (eps big : ℝ) (he : 0 ≤ eps) (hbig : 1 < big) {envP envT : StaticTree.Env ℝ} (hP : envP.Ok)
    (hidP : Mesh.Split.IdIsPosition envP) (hT : envT.Ok) (hidT : StaticTree.IdIsItem envT) {tris : List (Tri × V3 ℝ)}
    (hne : tris ≠ []) {maxTri : Nat} (hmax : 1 ≤ maxTri) {st : StaticTree.St ℝ}
    (hst : StaticTree.build envP (tris.map fun tn => triBox tn.1) maxTri = some st) {pages : List Page}
    (hpages : PagesOf envT tris st.log pages) (hn : ∀ tn ∈ tris, tn.1.Normal tn.2) (p0 p1 : V3 ℝ)
    (hd : ∀ tn ∈ tris, eps < |dot (p1 - p0) tn.2|) :
    ∃ r, pagedRay eps big st.nodes pages p0 p1 = some r ∧
      (∀ h, r = some h → FirstHit (fun x => ∃ tn, Loaded pages tn ∧ tn.1.Has x) p0 p1 h.fraction ∧
        ∃ tn, Loaded pages tn ∧ tn.1.Has (along p0 p1 h.fraction) ∧ h.normal = some tn.2) ∧
      (r = none → Misses (fun x => ∃ tn, Loaded pages tn ∧ tn.1.Has x) p0 p1) := by
  obtain ⟨out, q1, -, q3, q4⟩ := Mesh.Split.page_query hP hidP (boxes := tris.map fun tn => triBox tn.1) (by simpa using hne)
    hmax hst (test := rayTest eps p0 p1) (rayTest_monotone eps he p0 p1)
  -- the triangles of a page are triangles of the mesh
  have hsub : ∀ (k : Nat) m, pages[k]? = some (some m) → ∃ l, st.log[k]? = some l ∧ m.2 = l.2.filterMap (tris[·]?) ∧
      ∃ st', triTree envT m.2 = some st' ∧ st'.nodes = m.1 := by
    intro k m hm
    have hk := (List.getElem?_eq_some_iff.1 hm).1
    rw [hpages.length] at hk
    exact ⟨_, List.getElem?_eq_getElem hk, hpages.page k _ m (List.getElem?_eq_getElem hk) hm⟩
  have hmem : ∀ (k : Nat) m, pages[k]? = some (some m) → ∀ tn ∈ m.2, tn ∈ tris := by
    intro k m hm tn htn
    obtain ⟨l, -, e, -⟩ := hsub k m hm
    rw [e, List.mem_filterMap] at htn
    obtain ⟨i, -, hi⟩ := htn
    exact List.mem_of_getElem? hi
  -- the triangles visited in a page
  have hvis : ∀ k, k < pages.length → ∃ js, pageVisit eps p0 p1 pages k = some js ∧
      (∀ ij ∈ js, ij.1 = k ∧ ∃ m, pages[k]? = some (some m) ∧ ij.2 < m.2.length) ∧
      ∀ m i tn, pages[k]? = some (some m) → m.2[i]? = some tn → ¬ Misses tn.1.Has p0 p1 → (k, i) ∈ js := by
    intro k hk
    unfold pageVisit
    have hg : pages[k]? = some pages[k] := List.getElem?_eq_getElem hk
    rw [hg, Option.bind_some]
    cases hp : pages[k] with
    | none => exact ⟨[], rfl, by simp, by simp⟩
    | some m =>
      obtain ⟨l, -, -, st', t1, t2⟩ := hsub k m (by rw [hg, hp])
      obtain ⟨js, v1, v2, v3⟩ := mesh_visited eps he hT hidT t1 p0 p1
      rw [t2] at v1
      simp only [v1, Option.map_some]
      refine ⟨_, rfl, ?_, ?_⟩
      · intro ij hij
        rw [List.mem_map] at hij
        obtain ⟨j, hj, rfl⟩ := hij
        exact ⟨rfl, m, rfl, v2 j hj⟩
      · intro m' i tn hm' hi hmiss
        simp only [Option.some_inj] at hm'
        subst hm'
        exact List.mem_map.2 ⟨i, v3 i tn hi hmiss, rfl⟩
  choose! g hg1 hg2 hg3 using hvis
  have hlen : ∀ k ∈ out, k < pages.length := fun k hk => by rw [hpages.length]; exact q3 k hk
  have hmapM : out.mapM (pageVisit eps p0 p1 pages) = some (out.map g) :=
    StaticTree.mapM_eq_map _ _ _ fun k hk => hg1 k (hlen k hk)
  -- the nearest of the visited triangles
  obtain ⟨best, c1, c2, c3⟩ := cover_union hbig (cast := pageCast eps p0 p1 pages) (l := (out.map g).flatten) (p0 := p0)
    (p1 := p1) (I := fun ij => ∃ m tn, pages[ij.1]? = some (some m) ∧ m.2[ij.2]? = some tn)
    (S := fun ij x => ∃ m tn, pages[ij.1]? = some (some m) ∧ m.2[ij.2]? = some tn ∧ tn.1.Has x)
    (by
      intro ij hij
      rw [List.mem_flatten] at hij
      obtain ⟨js, hjs, hij⟩ := hij
      rw [List.mem_map] at hjs
      obtain ⟨k, hk, rfl⟩ := hjs
      obtain ⟨e1, m, e2, e3⟩ := hg2 k (hlen k hk) ij hij
      exact ⟨m, _, by rw [e1, e2], List.getElem?_eq_getElem e3⟩)
    (by
      rintro ⟨k, i⟩ ⟨m, tn, h1, h2⟩ hmiss
      have hmiss' : ¬ Misses tn.1.Has p0 p1 := by
        intro hm
        apply hmiss
        rintro t t0 t1 ⟨m', tn', h1', h2', hx⟩
        simp only at h1 h2 h1' h2'
        rw [h1] at h1'
        simp only [Option.some_inj] at h1'
        subst h1'
        rw [h2] at h2'
        simp only [Option.some_inj] at h2'
        subst h2'
        exact hm t t0 t1 hx
      have hk := (List.getElem?_eq_some_iff.1 h1).1
      rw [List.mem_flatten]
      refine ⟨g k, List.mem_map.2 ⟨k, ?_, rfl⟩, hg3 k hk m i tn h1 h2 hmiss'⟩
      obtain ⟨l, l1, l2, -⟩ := hsub k m h1
      have htn : tn ∈ m.2 := List.mem_of_getElem? h2
      rw [l2, List.mem_filterMap] at htn
      obtain ⟨j, hj, hj2⟩ := htn
      refine q4 k l l1 j hj (triBox tn.1) (by simp [hj2]) ?_
      unfold Misses at hmiss'
      push Not at hmiss'
      obtain ⟨t, t0, t1, hx⟩ := hmiss'
      exact rayTest_of_has he t0 t1 (triBox_has _ _ hx))
    (by
      rintro ⟨k, i⟩ ⟨m, tn, h1, h2⟩
      rw [pageCast_of h1 h2]
      have htn := hmem k m h1 tn (List.mem_of_getElem? h2)
      have := tri_fair eps he p0 p1 tn (hn _ htn) (hd _ htn)
      have e : (fun x => ∃ m tn, pages[(k, i).1]? = some (some m) ∧ m.2[(k, i).2]? = some tn ∧ tn.1.Has x) = tn.1.Has := by
        funext x
        apply propext
        constructor
        · rintro ⟨m', tn', h1', h2', hx⟩
          simp only at h1 h2 h1' h2'
          rw [h1] at h1'
          simp only [Option.some_inj] at h1'
          subst h1'
          rw [h2] at h2'
          simp only [Option.some_inj] at h2'
          subst h2'
          exact hx
        · intro hx
          exact ⟨m, tn, h1, h2, hx⟩
      rw [e]
      exact this)
  have hset : ∀ x, (∃ tn, Loaded pages tn ∧ tn.1.Has x) ↔ ∃ ij : Nat × Nat, (∃ m tn, pages[ij.1]? = some (some m) ∧ m.2[ij.2]? = some tn) ∧
      ∃ m tn, pages[ij.1]? = some (some m) ∧ m.2[ij.2]? = some tn ∧ tn.1.Has x := by
    intro x
    constructor
    · rintro ⟨tn, ⟨m, hm, htn⟩, hx⟩
      obtain ⟨k, hk⟩ := List.getElem?_of_mem hm
      obtain ⟨i, hi⟩ := List.getElem?_of_mem htn
      exact ⟨(k, i), ⟨m, tn, hk, hi⟩, m, tn, hk, hi, hx⟩
    · rintro ⟨⟨k, i⟩, -, m, tn, h1, h2, hx⟩
      exact ⟨tn, ⟨m, List.mem_of_getElem? h1, List.mem_of_getElem? h2⟩, hx⟩
  have hset' : (fun x => ∃ tn, Loaded pages tn ∧ tn.1.Has x) = fun x => ∃ ij : Nat × Nat, (∃ m tn, pages[ij.1]? = some (some m) ∧ m.2[ij.2]? = some tn) ∧
      ∃ m tn, pages[ij.1]? = some (some m) ∧ m.2[ij.2]? = some tn ∧ tn.1.Has x := funext fun x => propext (hset x)
  refine ⟨best.map (·.2), ?_, ?_, ?_⟩
  · unfold pagedRay
    rw [q1, Option.bind_some, hmapM, Option.bind_some, c1, Option.map_some]
  · intro h hh
    cases best with
    | none => simp at hh
    | some b =>
      obtain ⟨⟨k, i⟩, h'⟩ := b
      simp at hh
      subst hh
      obtain ⟨⟨m, tn, h1, h2⟩, d2, d3, d4, -⟩ := c2 (k, i) h' rfl
      rw [pageCast_of h1 h2] at d2
      simp only [Option.some_inj] at d2
      have htn := hmem k m h1 tn (List.mem_of_getElem? h2)
      cases hs : segmentTriangle eps p0 p1 tn.1 tn.2 with
      | none => rw [hs] at d2; simp at d2
      | some t =>
        rw [hs] at d2
        simp at d2
        have kk := (segment_triangle_partial eps he p0 p1 _ _ (hn _ htn) (hd _ htn) t).1 hs
        subst d2
        rw [hset']
        exact ⟨(d4 kk.2.1).2, tn, ⟨m, List.mem_of_getElem? h1, List.mem_of_getElem? h2⟩, kk.2.2.1, rfl⟩
  · intro hh
    cases best with
    | some b => simp at hh
    | none => rw [hset']; exact c3 rfl

/-- With all pages in the cache the triangles in the cache are those of the mesh. -/
theorem loaded_all {envP envT : StaticTree.Env ℝ} (hP : envP.Ok) {tris : List (Tri × V3 ℝ)}
    (hne : tris ≠ []) {maxTri : Nat} (hmax : 1 ≤ maxTri) {st : StaticTree.St ℝ}
    (hst : StaticTree.build envP (tris.map fun tn => triBox tn.1) maxTri = some st) {pages : List Page}
    (hpages : PagesOf envT tris st.log pages) (hall : none ∉ pages) (tn : Tri × V3 ℝ) :
    Loaded pages tn ↔ tn ∈ tris := by
  constructor
  · rintro ⟨m, hm, htn⟩
    obtain ⟨k, hk⟩ := List.getElem?_of_mem hm
    have hlt := (List.getElem?_eq_some_iff.1 hk).1
    rw [hpages.length] at hlt
    obtain ⟨e, -⟩ := hpages.page k _ m (List.getElem?_eq_getElem hlt) hk
    rw [e, List.mem_filterMap] at htn
    obtain ⟨i, -, hi⟩ := htn
    exact List.mem_of_getElem? hi
  · intro htn
    obtain ⟨i, hi⟩ := List.getElem?_of_mem htn
    obtain ⟨st', h1, h2, -⟩ := StaticTree.build_exact hP (boxes := tris.map fun tn => triBox tn.1) (by simpa using hne) hmax
    rw [hst] at h1
    simp only [Option.some_inj] at h1
    subst h1
    have hmem : i ∈ st.log.flatMap (·.2) := h2.mem_iff.2 (by
      rw [List.mem_range, List.length_map]
      exact (List.getElem?_eq_some_iff.1 hi).1)
    rw [List.mem_flatMap] at hmem
    obtain ⟨l, hl, hil⟩ := hmem
    obtain ⟨k, hk⟩ := List.getElem?_of_mem hl
    have hlt := (List.getElem?_eq_some_iff.1 hk).1
    rw [← hpages.length] at hlt
    have hg : pages[k]? = some pages[k] := List.getElem?_eq_getElem hlt
    cases hp : pages[k] with
    | none => exact absurd (hp ▸ List.getElem_mem hlt) hall
    | some m =>
      obtain ⟨e, -⟩ := hpages.page k l m hk (by rw [hg, hp])
      exact ⟨m, hp ▸ List.getElem_mem hlt, by rw [e, List.mem_filterMap]; exact ⟨i, hil, hi⟩⟩

/-- The triangle in its one page. -/
example : ∃ st pages, StaticTree.build { realEnv with report := fun k _ => k } ([exTri].map fun tn => triBox tn.1) 1 = some st ∧
    PagesOf realEnv [exTri] st.log pages ∧ none ∉ pages ∧ Loaded pages exTri := by
  have hok : ({ realEnv with report := fun k _ => k } : StaticTree.Env ℝ).Ok := ⟨realEnv_ok.1, realEnv_ok.2, realEnv_ok.3⟩
  obtain ⟨st, h1, h2, h3, h4⟩ := StaticTree.build_exact hok (boxes := [exTri].map fun tn => triBox tn.1) (by simp)
    (Nat.le_refl 1)
  have hlog : ∀ l ∈ st.log, l.2 = [0] := by
    intro l hl
    obtain ⟨a, b, -⟩ := h4 l hl
    obtain ⟨i, hi⟩ := List.length_eq_one_iff.1 (Nat.le_antisymm b a)
    have : i ∈ st.log.flatMap (·.2) := List.mem_flatMap.2 ⟨l, hl, by rw [hi]; simp⟩
    have := h2.mem_iff.1 this
    simp at this
    rw [hi, this]
  obtain ⟨st', hst'⟩ := exTri_tree
  have hp : PagesOf realEnv [exTri] st.log (st.log.map fun _ => some (st'.nodes, [exTri])) := by
    refine ⟨by simp, ?_⟩
    intro k l m hk hm
    simp only [List.getElem?_map, hk, Option.map_some, Option.some_inj] at hm
    subst hm
    rw [hlog l (List.mem_of_getElem? hk)]
    exact ⟨rfl, st', hst', rfl⟩
  refine ⟨st, _, h1, hp, by simp, ?_⟩
  exact (loaded_all hok (by simp) (Nat.le_refl 1) h1 hp (by simp) exTri).2 (by simp)

/-! ## Compounds -/

/-- The points of a compound: those of its children. -/
def CompoundSet (child : Nat → Shape) (n : Nat) : Shape := fun x => ∃ i, i < n ∧ child i x

/-- **C70, compounds.** If every child is cast correctly in the space of the compound (`RayFair`) and lies in its box,
the result is the first point of the placed compound, at the point of a child, with the normal of the child turned
to the world; without a result, or with a fraction above 1, the segment misses the compound. -/
theorem compound_ray_partial (eps big : ℝ) (he : 0 ≤ eps) (hbig : 1 < big) {env : StaticTree.Env ℝ} (hok : env.Ok)
    (hid : StaticTree.IdIsItem env) {boxes : List (Box ℝ)} {st : StaticTree.St ℝ}
    (hst : StaticTree.build env boxes 1 = some st) (S : Nat → Shape) (child : Nat → V3 ℝ → V3 ℝ → RayRes)
    (hbox : ∀ (i : Nat) b, boxes[i]? = some b → ∀ x, S i x → (toAabb b).Has x) (pos : V3 ℝ) (orn : Quat ℝ)
    (ho : orn.lengthSqr = 1) (p0 p1 : V3 ℝ)
    (hf : ∀ i, i < boxes.length → RayFair (S i) (toObjectSpace p0 pos orn) (toObjectSpace p1 pos orn)
      (child i (toObjectSpace p0 pos orn) (toObjectSpace p1 pos orn))) :
    ∃ r, compoundRay eps big st.nodes child pos orn p0 p1 = some r ∧
      (∀ h, r = some h → 0 ≤ h.fraction ∧
        (h.fraction ≤ 1 → FirstHit (Placed (CompoundSet S boxes.length) pos orn) p0 p1 h.fraction ∧
          ∃ i, i < boxes.length ∧ Placed (S i) pos orn (along p0 p1 h.fraction) ∧
          ∃ n, child i (toObjectSpace p0 pos orn) (toObjectSpace p1 pos orn) = some (some ⟨h.fraction, n⟩) ∧
            h.normal = n.map (Quat.rotate orn)) ∧
        (1 < h.fraction → Misses (Placed (CompoundSet S boxes.length) pos orn) p0 p1)) ∧
      (r = none → Misses (Placed (CompoundSet S boxes.length) pos orn) p0 p1) := by
  set q0 := toObjectSpace p0 pos orn with hq0
  set q1 := toObjectSpace p1 pos orn with hq1
  have hne : boxes ≠ [] := by
    intro h0
    rw [h0] at hst
    simp [StaticTree.build] at hst
  obtain ⟨st', out, h1, h2, -, h4⟩ := StaticTree.query_single_exact hok hid hne
    (test := rayTest eps q0 q1) (rayTest_monotone eps he q0 q1)
  rw [hst] at h1
  simp only [Option.some_inj] at h1
  subst h1
  obtain ⟨best, c1, c2, c3⟩ := cover_union hbig (cast := fun i => child i q0 q1) (l := out) (p0 := q0) (p1 := q1)
    (I := fun i => i < boxes.length) (S := S)
    (by
      intro i hi
      obtain ⟨b, hb, -⟩ := (h4 i).1 hi
      exact (List.getElem?_eq_some_iff.1 hb).1)
    (by
      intro i hi hm
      unfold Misses at hm
      push Not at hm
      obtain ⟨t, t0, t1, hx⟩ := hm
      exact (h4 i).2 ⟨_, List.getElem?_eq_getElem hi,
        rayTest_of_has he t0 t1 (hbox i _ (List.getElem?_eq_getElem hi) _ hx)⟩)
    hf
  refine ⟨best.map fun b => ⟨b.2.fraction, b.2.normal.map (Quat.rotate orn)⟩, ?_, ?_, ?_⟩
  · unfold compoundRay
    simp only [← hq0, ← hq1]
    rw [h2, Option.bind_some, c1, Option.map_some]
  · intro h hh
    cases best with
    | none => simp at hh
    | some b =>
      obtain ⟨i, h'⟩ := b
      simp at hh
      subst hh
      obtain ⟨d1, d2, d3, d4, d5⟩ := c2 i h' rfl
      refine ⟨d3, ?_, ?_⟩
      · intro hle
        refine ⟨(firstHit_placed ho).2 (d4 hle).2, i, d1, ?_, h'.normal, d2, rfl⟩
        rw [placed_iff _ _ ho, toObject_along]
        exact (d4 hle).1
      · intro hlt
        exact (misses_placed ho).2 (d5 hlt)
  · intro hh
    cases best with
    | some b => simp at hh
    | none => exact (misses_placed ho).2 (c3 rfl)

/-- A compound of one sphere, seen from a place at which `sphere_fair` applies. -/
example : ∃ st, StaticTree.build realEnv [⟨⟨2, 3, -1⟩, ⟨4, 5, 1⟩⟩] 1 = some st ∧
    RayFair (Placed (ballSet 1) ⟨3, 4, 0⟩ ⟨0, 0, 0, 1⟩) (toObjectSpace ⟨3 / 5, 4 / 5, 0⟩ ⟨0, 0, 0⟩ ⟨0, 0, 0, 1⟩)
      (toObjectSpace ⟨6, 8, 0⟩ ⟨0, 0, 0⟩ ⟨0, 0, 0, 1⟩)
      (sphereRay (1 / 100) 1 ⟨3, 4, 0⟩ (toObjectSpace ⟨3 / 5, 4 / 5, 0⟩ ⟨0, 0, 0⟩ ⟨0, 0, 0, 1⟩)
        (toObjectSpace ⟨6, 8, 0⟩ ⟨0, 0, 0⟩ ⟨0, 0, 0, 1⟩)) := by
  obtain ⟨st, h, -⟩ := StaticTree.build_exact realEnv_ok (boxes := [⟨⟨2, 3, -1⟩, ⟨4, 5, 1⟩⟩]) (by simp) (Nat.le_refl 1)
  refine ⟨st, h, ?_⟩
  rw [toObject_id, toObject_id]
  exact sphere_fair _ _ (by norm_num) (by norm_num) _ _ _ _ quat_one_unit (by norm_num [V3.ext_iff])
    (by norm_num [lengthSqr, dot])

end Edyn.Geom
