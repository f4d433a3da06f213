import Verif.Geom.RaycastCap
import Verif.Geom.AabbFinal
import Verif.DynTree.Props
import Verif.StaticTree.Props
import Mathlib.Data.Real.Basic

/-!
# Casting a segment against meshes, compounds and the world (C70, C73)

`raycast` (`src/edyn/collision/raycast.cpp` 20-56), `broadphase::raycast` (`broadphase.hpp` 71-79), `raycast_tree`
(`query_tree.hpp` 44-50) and `shape_raycast` of compounds (`raycast.cpp` 323-354), meshes (380-401) and paged meshes
(403-425).
-/

namespace Edyn.Geom

open Edyn.Math V3

/-! ## Model -/

/-- The comparison with the best result so far, `raycast.cpp` 39-42, 338 and 392-396.  `big` is the initial fraction
(`EDYN_SCALAR_MAX`, `raycast.hpp` 105). -/
noncomputable def castStep {ι : Type} (big : ℝ) (cast : ι → RayRes) (best : Option (ι × RayHit)) (i : ι) :
    Option (Option (ι × RayHit)) :=
  (cast i).map fun r =>
    match r with
    | none => best
    | some h =>
      if h.fraction < (match best with | none => big | some b => b.2.fraction) then some (i, h) else best

/-- All visited objects in turn. -/
noncomputable def castAll {ι : Type} (big : ℝ) (cast : ι → RayRes) (l : List ι) : Option (Option (ι × RayHit)) :=
  l.foldlM (castStep big cast) none

/-- The box of a node as a box of vectors. -/
def toAabb (b : Box ℝ) : AABB := ⟨⟨b.min.x, b.min.y, b.min.z⟩, ⟨b.max.x, b.max.y, b.max.z⟩⟩

/-- The test of `raycast_tree`, `query_tree.hpp` 44-50. -/
noncomputable def rayTest (eps : ℝ) (p0 p1 : V3 ℝ) (b : Box ℝ) : Bool := segmentAabb eps p0 p1 (toAabb b)

/-- `raycast`, `raycast.cpp` 20-56, with `broadphase::raycast`, `broadphase.hpp` 71-79: the entities of the leaves
which pass the test in the two trees, without the ignored ones.  `cast e` is the result of `shape_raycast` for the
shape of the entity at its place.  A leaf without entity makes the lookup of the shape undefined. -/
noncomputable def worldRay (eps big : ℝ) (s np : DynTree.State ℝ) (ignore : List Nat) (cast : Nat → RayRes)
    (p0 p1 : V3 ℝ) : Option (Option (Nat × RayHit)) :=
  (DynTree.traverse s (rayTest eps p0 p1)).bind fun ids =>
  (DynTree.traverse np (rayTest eps p0 p1)).bind fun ids' =>
  ((ids.map s.c2 ++ ids'.map np.c2).mapM id).bind fun es =>
  castAll big cast (es.filter fun e => !ignore.contains e)

/-- The segment against one triangle, `raycast.cpp` 384-396. -/
noncomputable def triCast (eps : ℝ) (p0 p1 : V3 ℝ) (tris : List (Tri × V3 ℝ)) (i : Nat) : RayRes :=
  (tris[i]?).map fun tn => (segmentTriangle eps p0 p1 tn.1 tn.2).map fun t => ⟨t, some tn.2⟩

/-- `shape_raycast` of a mesh, `raycast.cpp` 380-401: the position and orientation are not used. -/
noncomputable def meshRay (eps big : ℝ) (nodes : List (StaticTree.TNode ℝ)) (tris : List (Tri × V3 ℝ))
    (_pos : V3 ℝ) (_orn : Quat ℝ) (p0 p1 : V3 ℝ) : RayRes :=
  (StaticTree.queryIds nodes (rayTest eps p0 p1)).bind fun ids =>
  (castAll big (triCast eps p0 p1 tris) ids).map fun best => best.map (·.2)

/-- `shape_raycast` of a compound, `raycast.cpp` 323-354: the children are tested in the space of the compound.
`child i` is `shape_raycast` of the child with its own place. -/
noncomputable def compoundRay (eps big : ℝ) (nodes : List (StaticTree.TNode ℝ)) (child : Nat → V3 ℝ → V3 ℝ → RayRes)
    (pos : V3 ℝ) (orn : Quat ℝ) (p0 p1 : V3 ℝ) : RayRes :=
  let q0 := toObjectSpace p0 pos orn
  let q1 := toObjectSpace p1 pos orn
  (StaticTree.queryIds nodes (rayTest eps q0 q1)).bind fun ids =>
  (castAll big (fun i => child i q0 q1) ids).map fun best =>
    best.map fun b => ⟨b.2.fraction, b.2.normal.map (Quat.rotate orn)⟩

/-- A page of a paged mesh: the tree and the triangles, if it is in the cache. -/
abbrev Page := Option (List (StaticTree.TNode ℝ) × List (Tri × V3 ℝ))

/-- The triangles visited in one page, `paged_triangle_mesh.hpp` 186-195. -/
noncomputable def pageVisit (eps : ℝ) (p0 p1 : V3 ℝ) (pages : List Page) (i : Nat) : Option (List (Nat × Nat)) :=
  (pages[i]?).bind fun page =>
  match page with
  | none => some []
  | some m => (StaticTree.queryIds m.1 (rayTest eps p0 p1)).map fun js => js.map fun j => (i, j)

/-- The segment against one triangle of a page, `raycast.cpp` 407-421. -/
noncomputable def pageCast (eps : ℝ) (p0 p1 : V3 ℝ) (pages : List Page) (ij : Nat × Nat) : RayRes :=
  (pages[ij.1]?).bind fun page => page.bind fun m => triCast eps p0 p1 m.2 ij.2

/-- `shape_raycast` of a paged mesh, `raycast.cpp` 403-425, with `raycast_cached`, `paged_triangle_mesh.hpp` 185-196.
Simplification: the triangles are visited page after page in the same order, the comparisons are made at the end. -/
noncomputable def pagedRay (eps big : ℝ) (nodes : List (StaticTree.TNode ℝ)) (pages : List Page) (p0 p1 : V3 ℝ) :
    RayRes :=
  (StaticTree.queryIds nodes (rayTest eps p0 p1)).bind fun ids =>
  (ids.mapM (pageVisit eps p0 p1 pages)).bind fun ls =>
  (castAll big (pageCast eps p0 p1 pages) ls.flatten).map fun best => best.map (·.2)

/-! ## Specification -/

/-- The result is the nearest one among those of the list, and the first one in the list if there are several. -/
def Nearest {ι : Type} (big : ℝ) (cast : ι → RayRes) (l : List ι) : Option (ι × RayHit) → Prop
  | none => ∀ i ∈ l, ∀ h, cast i = some (some h) → big ≤ h.fraction
  | some (i, h) => cast i = some (some h) ∧ h.fraction < big ∧
      (∀ j ∈ l, ∀ h', cast j = some (some h') → h.fraction ≤ h'.fraction) ∧
      ∃ l1 l2, l = l1 ++ i :: l2 ∧ ∀ j ∈ l1, ∀ h', cast j = some (some h') → h.fraction < h'.fraction

/-- What is required of the result for one shape: it is not behind the start; up to the end it is the first point
of the shape, beyond the end or without a hit the segment misses the shape. -/
structure RayFair (S : V3 ℝ → Prop) (p0 p1 : V3 ℝ) (r : RayRes) : Prop where
  front : ∀ h, r = some (some h) → 0 ≤ h.fraction
  hit : ∀ h, r = some (some h) → h.fraction ≤ 1 → FirstHit S p0 p1 h.fraction
  beyond : ∀ h, r = some (some h) → 1 < h.fraction → Misses S p0 p1
  miss : r = some none → Misses S p0 p1
  ok : r ≠ none

/-- The body `e` is in one of the trees, with the last box given for it. -/
def InWorld (L L' : DynTree.Live ℝ) (e : Nat) (b : Box ℝ) : Prop :=
  ∃ id, L id = some (some e, b) ∨ L' id = some (some e, b)

/-- Bodies with a bounded convex shape at a place. -/
inductive RayBody
  | sphere (r : ℝ) (pos : V3 ℝ) (orn : Quat ℝ)
  | box (h pos : V3 ℝ) (orn : Quat ℝ)
  | cylinder (r hl : ℝ) (a : Axis) (pos : V3 ℝ) (orn : Quat ℝ)
  | capsule (r hl : ℝ) (a : Axis) (pos : V3 ℝ) (orn : Quat ℝ)

/-- The points of a body. -/
def RayBody.set : RayBody → V3 ℝ → Prop
  | .sphere r pos orn => Placed (ballSet r) pos orn
  | .box h pos orn => Placed (boxSet h) pos orn
  | .cylinder r hl a pos orn => Placed (cylinderSet r hl a) pos orn
  | .capsule r hl a pos orn => Placed (capsuleSet r hl a) pos orn

/-- Unit orientations and sizes above the limit of `normalize`. -/
def RayBody.Valid (tiny : ℝ) : RayBody → Prop
  | .sphere r _ orn => tiny < r ∧ orn.lengthSqr = 1
  | .box h _ orn => (0 < h.x ∧ 0 < h.y ∧ 0 < h.z) ∧ orn.lengthSqr = 1
  | .cylinder r hl _ _ orn => (tiny < r ∧ tiny < hl) ∧ orn.lengthSqr = 1
  | .capsule r hl _ _ orn => (tiny < r ∧ tiny < hl) ∧ orn.lengthSqr = 1

/-- The overload of `shape_raycast` for the shape, `raycast.cpp` 37-38. -/
noncomputable def RayBody.cast (eps tiny big : ℝ) (p0 p1 : V3 ℝ) : RayBody → RayRes
  | .sphere r pos _ => sphereRay tiny r pos p0 p1
  | .box h pos orn => boxRay eps big h pos orn p0 p1
  | .cylinder r hl a pos orn => cylRay eps tiny r hl (Quat.rotate orn a.vec) pos p0 p1
  | .capsule r hl a pos orn => capRay eps tiny r hl (Quat.rotate orn a.vec) pos p0 p1

/-- The full statement about the world: the cast reports the first point of a body which is not ignored, and no
body only if all of those are missed. -/
def WorldRayFull (eps tiny big : ℝ) : Prop :=
  ∀ (P P' : DynTree.Params ℝ) (s np : DynTree.State ℝ) (L L' : DynTree.Live ℝ) (ignore : List Nat)
    (body : Nat → RayBody) (p0 p1 : V3 ℝ), DynTree.Reach P s L → DynTree.Reach P' np L' →
    (∀ id, (∀ b, L id ≠ some (none, b)) ∧ ∀ b, L' id ≠ some (none, b)) → p0 ≠ p1 →
    (∀ e b, InWorld L L' e b → (body e).Valid tiny ∧ ∀ x, (body e).set x → (toAabb b).Has x) →
    ∃ r, worldRay eps big s np ignore (fun e => (body e).cast eps tiny big p0 p1) p0 p1 = some r ∧
    (∀ e h, r = some (e, h) → (∃ b, InWorld L L' e b) ∧ e ∉ ignore ∧ FirstHit (body e).set p0 p1 h.fraction ∧
      ∀ e' b, InWorld L L' e' b → e' ∉ ignore → ∀ t, 0 ≤ t → t ≤ 1 → (body e').set (along p0 p1 t) → h.fraction ≤ t) ∧
    (r = none → ∀ e b, InWorld L L' e b → e ∉ ignore → Misses (body e).set p0 p1)

/-! ## The nearest of a list -/

theorem castAll_append {ι : Type} (big : ℝ) (cast : ι → RayRes) (l : List ι) (i : ι) :
    castAll big cast (l ++ [i]) = (castAll big cast l).bind fun b => castStep big cast b i := by
  unfold castAll
  rw [List.foldlM_append]
  simp only [List.foldlM_cons, List.foldlM_nil, bind_pure]
  rfl

/-- **C73, comparisons.** The result of the comparisons is the nearest of all visited objects. -/
theorem castAll_nearest {ι : Type} (big : ℝ) (cast : ι → RayRes) (l : List ι) (hl : ∀ i ∈ l, cast i ≠ none) :
    ∃ best, castAll big cast l = some best ∧ Nearest big cast l best := by
  induction l using List.reverseRecOn with
  | nil => exact ⟨none, rfl, by simp [Nearest]⟩
  | append_singleton l i ih =>
    obtain ⟨best, h1, h2⟩ := ih (fun j hj => hl j (by simp [hj]))
    rw [castAll_append, h1]
    simp only [Option.bind_some]
    unfold castStep
    cases hc : cast i with
    | none => exact absurd hc (hl i (by simp))
    | some r =>
      simp only [Option.map_some]
      cases r with
      | none =>
        refine ⟨best, rfl, ?_⟩
        cases best with
        | none =>
          intro j hj h hh
          rcases List.mem_append.1 hj with hj | hj
          · exact h2 j hj h hh
          · simp at hj; subst hj; rw [hc] at hh; simp at hh
        | some b =>
          obtain ⟨k, g⟩ := b
          obtain ⟨a1, a2, a3, l1, l2, a4, a5⟩ := h2
          refine ⟨a1, a2, ?_, l1, l2 ++ [i], by rw [a4]; simp, a5⟩
          intro j hj h hh
          rcases List.mem_append.1 hj with hj | hj
          · exact a3 j hj h hh
          · simp at hj; subst hj; rw [hc] at hh; simp at hh
      | some g =>
        cases best with
        | none =>
          simp only
          by_cases hlt : g.fraction < big
          · rw [if_pos hlt]
            refine ⟨_, rfl, hc, hlt, ?_, l, [], by simp, ?_⟩
            · intro j hj h hh
              rcases List.mem_append.1 hj with hj | hj
              · linarith [h2 j hj h hh]
              · simp at hj; subst hj; rw [hc] at hh; simp at hh; rw [hh]
            · intro j hj h hh
              linarith [h2 j hj h hh]
          · rw [if_neg hlt]
            refine ⟨_, rfl, ?_⟩
            intro j hj h hh
            rcases List.mem_append.1 hj with hj | hj
            · exact h2 j hj h hh
            · simp at hj; subst hj; rw [hc] at hh; simp at hh; rw [← hh]; exact not_lt.1 hlt
        | some b =>
          obtain ⟨k, f⟩ := b
          obtain ⟨a1, a2, a3, l1, l2, a4, a5⟩ := h2
          simp only
          by_cases hlt : g.fraction < f.fraction
          · rw [if_pos hlt]
            refine ⟨_, rfl, hc, by linarith, ?_, l, [], by simp, ?_⟩
            · intro j hj h hh
              rcases List.mem_append.1 hj with hj | hj
              · linarith [a3 j hj h hh]
              · simp at hj; subst hj; rw [hc] at hh; simp at hh; rw [hh]
            · intro j hj h hh
              linarith [a3 j hj h hh]
          · rw [if_neg hlt]
            refine ⟨_, rfl, a1, a2, ?_, l1, l2 ++ [i], by rw [a4]; simp, a5⟩
            intro j hj h hh
            rcases List.mem_append.1 hj with hj | hj
            · exact a3 j hj h hh
            · simp at hj; subst hj; rw [hc] at hh; simp at hh; rw [← hh]; exact not_lt.1 hlt

theorem Nearest.mem {ι : Type} {big : ℝ} {cast : ι → RayRes} {l : List ι} {i : ι} {h : RayHit}
    (hn : Nearest big cast l (some (i, h))) : i ∈ l := by
  obtain ⟨-, -, -, l1, l2, e, -⟩ := hn
  rw [e]; simp

/-- **C73, visiting order.** Visiting the objects in another order gives the same fraction. -/
theorem castAll_order {ι : Type} (big : ℝ) (cast : ι → RayRes) (l l' : List ι) (hl : ∀ i ∈ l, cast i ≠ none)
    (hp : ∀ i, i ∈ l ↔ i ∈ l') :
    ∃ best best', castAll big cast l = some best ∧ castAll big cast l' = some best' ∧
      best.map (·.2.fraction) = best'.map (·.2.fraction) := by
  obtain ⟨best, h1, h2⟩ := castAll_nearest big cast l hl
  obtain ⟨best', h1', h2'⟩ := castAll_nearest big cast l' (fun i hi => hl i ((hp i).2 hi))
  refine ⟨best, best', h1, h1', ?_⟩
  cases best with
  | none =>
    cases best' with
    | none => rfl
    | some b =>
      obtain ⟨i, h⟩ := b
      have := h2 i ((hp i).2 h2'.mem) h h2'.1
      linarith [h2'.2.1]
  | some b =>
    obtain ⟨i, h⟩ := b
    cases best' with
    | none =>
      have := h2' i ((hp i).1 h2.mem) h h2.1
      linarith [h2.2.1]
    | some b' =>
      obtain ⟨j, g⟩ := b'
      have a := h2.2.2.1 j ((hp j).2 h2'.mem) g h2'.1
      have b := h2'.2.2.1 i ((hp i).1 h2.mem) h h2.1
      simp only [Option.map_some, Option.some_inj]
      linarith

/-- From results for shapes to the result for their union. -/
theorem nearest_union {ι : Type} {big : ℝ} (hbig : 1 < big) {cast : ι → RayRes} {l : List ι} {S : ι → V3 ℝ → Prop}
    {p0 p1 : V3 ℝ} {best : Option (ι × RayHit)} (hn : Nearest big cast l best)
    (hf : ∀ i ∈ l, RayFair (S i) p0 p1 (cast i)) :
    (∀ i h, best = some (i, h) → i ∈ l ∧ 0 ≤ h.fraction ∧ (h.fraction ≤ 1 → FirstHit (S i) p0 p1 h.fraction ∧
        ∀ j ∈ l, ∀ t, 0 ≤ t → t ≤ 1 → S j (along p0 p1 t) → h.fraction ≤ t) ∧
      (1 < h.fraction → ∀ j ∈ l, Misses (S j) p0 p1)) ∧
    (best = none → ∀ j ∈ l, Misses (S j) p0 p1) := by
  have key : ∀ m, m ≤ big → (∀ j ∈ l, ∀ h', cast j = some (some h') → m ≤ h'.fraction) →
      ∀ j ∈ l, ∀ t, 0 ≤ t → t ≤ 1 → S j (along p0 p1 t) → m ≤ t := by
    intro m _ hm j hj t h0 h1 ht
    have F := hf j hj
    cases hc : cast j with
    | none => exact absurd hc F.ok
    | some r =>
      cases r with
      | none => exact absurd ht (F.miss hc t h0 h1)
      | some h =>
        by_cases hle : h.fraction ≤ 1
        · have := (F.hit h hc hle).2.2.2 t h0
          have hm' := hm j hj h hc
          by_contra hcon
          exact this (by linarith) ht
        · exact absurd ht (F.beyond h hc (not_le.1 hle) t h0 h1)
  cases best with
  | none =>
    refine ⟨by simp, fun _ j hj t h0 h1 ht => ?_⟩
    have := key big le_rfl hn j hj t h0 h1 ht
    linarith
  | some b =>
    obtain ⟨i, h⟩ := b
    refine ⟨?_, by simp⟩
    intro i' h' he
    simp only [Option.some_inj, Prod.mk.injEq] at he
    obtain ⟨rfl, rfl⟩ := he
    have hi := hn.mem
    obtain ⟨a1, a2, a3, -⟩ := hn
    have kk := key h.fraction a2.le a3
    refine ⟨hi, (hf i hi).front h a1, fun hle => ⟨(hf i hi).hit h a1 hle, kk⟩, fun hlt j hj t h0 h1 ht => ?_⟩
    linarith [kk j hj t h0 h1 ht]

/-! ## The test of the boxes -/

theorem axis_grow {m m' e e' h eps : ℝ} (hm : |m' - m| ≤ e' - e) (h1 : |m| ≤ e + |h|) (_ : 0 ≤ eps) :
    |m'| ≤ e' + |h| := by
  have : |m'| ≤ |m| + |m' - m| := by
    have := abs_add_le m (m' - m)
    have e : m + (m' - m) = m' := by ring
    rwa [e] at this
  linarith

theorem cross_grow {m n m' n' e f e' f' h k eps : ℝ} (heps : 0 ≤ eps) (hm : |m' - m| ≤ e' - e) (hn : |n' - n| ≤ f' - f)
    (h1 : |m * k - n * h| ≤ e * (|k| + eps) + f * (|h| + eps)) :
    |m' * k - n' * h| ≤ e' * (|k| + eps) + f' * (|h| + eps) := by
  have e1 : m' * k - n' * h = (m * k - n * h) + ((m' - m) * k - (n' - n) * h) := by ring
  have a1 := abs_add_le (m * k - n * h) ((m' - m) * k - (n' - n) * h)
  have a2 := abs_sub ((m' - m) * k) ((n' - n) * h)
  rw [abs_mul, abs_mul] at a2
  rw [e1]
  have b1 := mul_le_mul_of_nonneg_right hm (abs_nonneg k)
  have b2 := mul_le_mul_of_nonneg_right hn (abs_nonneg h)
  have c1 := mul_nonneg (le_trans (abs_nonneg _) hm) heps
  have c2 := mul_nonneg (le_trans (abs_nonneg _) hn) heps
  nlinarith

/-- The test does not fail for a box around a box for which it holds. -/
theorem rayTest_monotone (eps : ℝ) (heps : 0 ≤ eps) (p0 p1 : V3 ℝ) (a b : Box ℝ) (hab : a.Encloses b)
    (h : rayTest eps p0 p1 b = true) : rayTest eps p0 p1 a = true := by
  unfold rayTest at *
  rw [segmentAabb_iff] at *
  obtain ⟨x1, y1, z1, x2, y2, z2⟩ := hab
  have sh : ∀ {p a0 a1 b0 b1 : ℝ}, a0 ≤ b0 → b1 ≤ a1 →
      |(p - 1 / 2 * (a0 + a1)) - (p - 1 / 2 * (b0 + b1))| ≤ (a1 - 1 / 2 * (a0 + a1)) - (b1 - 1 / 2 * (b0 + b1)) := by
    intro p a0 a1 b0 b1 h0 h1
    rw [abs_le]; constructor <;> linarith
  have sx := sh (p := 1 / 2 * (p0.x + p1.x)) x1 x2
  have sy := sh (p := 1 / 2 * (p0.y + p1.y)) y1 y2
  have sz := sh (p := 1 / 2 * (p0.z + p1.z)) z1 z2
  simp only [toAabb, sub_x, sub_y, sub_z, add_x, add_y, add_z, smul_x, smul_y, smul_z] at *
  obtain ⟨⟨h1, h2, h3⟩, h4, h5, h6⟩ := h
  exact ⟨⟨axis_grow sx h1 heps, axis_grow sy h2 heps, axis_grow sz h3 heps⟩, cross_grow heps sy sz h4,
    cross_grow heps sz sx h5, cross_grow heps sx sy h6⟩

/-- A segment with a point in the box passes the test. -/
theorem rayTest_of_has {eps : ℝ} (heps : 0 ≤ eps) {p0 p1 : V3 ℝ} {b : Box ℝ} {t : ℝ} (h0 : 0 ≤ t) (h1 : t ≤ 1)
    (h : (toAabb b).Has (along p0 p1 t)) : rayTest eps p0 p1 b = true := by
  refine (segment_aabb_partial eps heps p0 p1 (toAabb b) ?_).1 ⟨t, h0, h1, h⟩
  obtain ⟨h1, h2, h3⟩ := h
  exact ⟨le_trans h1.1 h1.2, le_trans h2.1 h2.2, le_trans h3.1 h3.2⟩

/-! ## The world -/

theorem mapM_id_some {α : Type} (l : List (Option α)) (h : ∀ x ∈ l, x ≠ none) :
    ∃ es : List α, l.mapM id = some es ∧ ∀ e, e ∈ es ↔ some e ∈ l := by
  induction l with
  | nil => exact ⟨[], rfl, by simp⟩
  | cons x l ih =>
    obtain ⟨es, h1, h2⟩ := ih (fun y hy => h y (by simp [hy]))
    cases x with
    | none => exact absurd rfl (h none (by simp))
    | some a =>
      refine ⟨a :: es, ?_, ?_⟩
      · rw [List.mapM_cons, h1]; rfl
      · intro e
        simp only [List.mem_cons, h2, Option.some_inj]

/-- The entities visited by the broadphase: those whose stored box passes the test. -/
theorem world_visited (eps : ℝ) (heps : 0 ≤ eps) {P P' : DynTree.Params ℝ} {s np : DynTree.State ℝ}
    {L L' : DynTree.Live ℝ} (h : DynTree.Reach P s L) (h' : DynTree.Reach P' np L')
    (hnn : ∀ id, (∀ b, L id ≠ some (none, b)) ∧ ∀ b, L' id ≠ some (none, b)) (p0 p1 : V3 ℝ) (ignore : List Nat)
    (big : ℝ) (cast : Nat → RayRes) :
    ∃ es, worldRay eps big s np ignore cast p0 p1 = castAll big cast es ∧
      (∀ e ∈ es, e ∉ ignore ∧ ∃ b, InWorld L L' e b) ∧
      ∀ e b, InWorld L L' e b → e ∉ ignore → (rayTest eps p0 p1 b = true) → e ∈ es := by
  have hm : DynTree.Monotone (rayTest eps p0 p1) := fun a b hab hb => rayTest_monotone eps heps p0 p1 a b hab hb
  obtain ⟨ids, i1, -, i3⟩ := DynTree.traverse_exact h _ hm
  obtain ⟨ids', j1, -, j3⟩ := DynTree.traverse_exact h' _ hm
  have ent : ∀ {P : DynTree.Params ℝ} {s : DynTree.State ℝ} {L : DynTree.Live ℝ}, DynTree.Reach P s L →
      (∀ id b, L id ≠ some (none, b)) → ∀ id, L id ≠ none → ∃ e b, L id = some (some e, b) ∧ s.c2 id = some e ∧
      (s.box id).Encloses b := by
    intro P s L h hn id hid
    obtain ⟨⟨e, b⟩, hL⟩ := Option.ne_none_iff_exists'.1 hid
    cases e with
    | none => exact absurd hL (hn id b)
    | some e =>
      obtain ⟨-, -, h3, h4⟩ := DynTree.proxy_stable h hL
      exact ⟨e, b, hL, h3, h4⟩
  have ent1 := ent h (fun id b => (hnn id).1 b)
  have ent2 := ent h' (fun id b => (hnn id).2 b)
  obtain ⟨es, e1, e2⟩ := mapM_id_some (ids.map s.c2 ++ ids'.map np.c2) (by
    intro x hx
    rcases List.mem_append.1 hx with hx | hx
    · obtain ⟨id, hid, rfl⟩ := List.mem_map.1 hx
      obtain ⟨e, b, -, h2, -⟩ := ent1 id ((i3 id).1 hid).1
      rw [h2]; simp
    · obtain ⟨id, hid, rfl⟩ := List.mem_map.1 hx
      obtain ⟨e, b, -, h2, -⟩ := ent2 id ((j3 id).1 hid).1
      rw [h2]; simp)
  refine ⟨es.filter fun e => !ignore.contains e, ?_, ?_, ?_⟩
  · unfold worldRay
    rw [i1, j1]
    simp only [Option.bind_some, e1]
  · intro e he
    rw [List.mem_filter, e2] at he
    refine ⟨by simpa using he.2, ?_⟩
    rcases List.mem_append.1 he.1 with hx | hx
    · obtain ⟨id, hid, hc⟩ := List.mem_map.1 hx
      obtain ⟨e', b, hL, h2, -⟩ := ent1 id ((i3 id).1 hid).1
      rw [h2] at hc
      simp only [Option.some_inj] at hc
      subst hc
      exact ⟨b, id, .inl hL⟩
    · obtain ⟨id, hid, hc⟩ := List.mem_map.1 hx
      obtain ⟨e', b, hL, h2, -⟩ := ent2 id ((j3 id).1 hid).1
      rw [h2] at hc
      simp only [Option.some_inj] at hc
      subst hc
      exact ⟨b, id, .inr hL⟩
  · rintro e b ⟨id, hL⟩ hig ht
    rw [List.mem_filter, e2]
    refine ⟨?_, by simpa using hig⟩
    rcases hL with hL | hL
    · obtain ⟨-, -, h3, h4⟩ := DynTree.proxy_stable h hL
      apply List.mem_append_left
      rw [← h3]
      apply List.mem_map_of_mem
      exact (i3 id).2 ⟨by rw [hL]; simp, hm _ _ h4 ht⟩
    · obtain ⟨-, -, h3, h4⟩ := DynTree.proxy_stable h' hL
      apply List.mem_append_right
      rw [← h3]
      apply List.mem_map_of_mem
      exact (j3 id).2 ⟨by rw [hL]; simp, hm _ _ h4 ht⟩

/-- **C73.** In every reachable state of the two trees, if the shape of every body lies in the last box reported for
it, and the casts against the shapes are fair, then the cast into the world is defined; a hit with a fraction up to
one is a body which is not ignored, at its first point on the segment, and no body which is not ignored has an earlier
point on the segment; without a hit, or with a fraction above one, all bodies which are not ignored are missed.
Missing: casts against shapes report fractions above one (`world_ray_refuted`) and below zero, which hide all
other bodies (`world_ray_hidden`). -/
theorem world_ray_partial (eps big : ℝ) (heps : 0 ≤ eps) (hbig : 1 < big) {P P' : DynTree.Params ℝ}
    {s np : DynTree.State ℝ} {L L' : DynTree.Live ℝ} (h : DynTree.Reach P s L) (h' : DynTree.Reach P' np L')
    (hnn : ∀ id, (∀ b, L id ≠ some (none, b)) ∧ ∀ b, L' id ≠ some (none, b)) (ignore : List Nat)
    (S : Nat → V3 ℝ → Prop) (cast : Nat → RayRes) (p0 p1 : V3 ℝ)
    (hbox : ∀ e b, InWorld L L' e b → ∀ x, S e x → (toAabb b).Has x)
    (hfair : ∀ e b, InWorld L L' e b → RayFair (S e) p0 p1 (cast e)) :
    ∃ r, worldRay eps big s np ignore cast p0 p1 = some r ∧
    (∀ e hit, r = some (e, hit) → (∃ b, InWorld L L' e b) ∧ e ∉ ignore ∧ cast e = some (some hit) ∧
      0 ≤ hit.fraction ∧
      (hit.fraction ≤ 1 → FirstHit (S e) p0 p1 hit.fraction ∧
        ∀ e' b, InWorld L L' e' b → e' ∉ ignore → ∀ t, 0 ≤ t → t ≤ 1 → S e' (along p0 p1 t) → hit.fraction ≤ t) ∧
      (1 < hit.fraction → ∀ e' b, InWorld L L' e' b → e' ∉ ignore → Misses (S e') p0 p1)) ∧
    (r = none → ∀ e b, InWorld L L' e b → e ∉ ignore → Misses (S e) p0 p1) := by
  obtain ⟨es, hw, hsub, hcov⟩ := world_visited eps heps h h' hnn p0 p1 ignore big cast
  rw [hw]
  have hf : ∀ e ∈ es, RayFair (S e) p0 p1 (cast e) := by
    intro e he
    obtain ⟨-, b, hb⟩ := hsub e he
    exact hfair e b hb
  obtain ⟨best, hb, hn⟩ := castAll_nearest big cast es (fun e he => (hf e he).ok)
  obtain ⟨u1, u2⟩ := nearest_union hbig hn hf
  have seen : ∀ e b, InWorld L L' e b → e ∉ ignore → ∀ t, 0 ≤ t → t ≤ 1 → S e (along p0 p1 t) → e ∈ es :=
    fun e b hb hi t h0 h1 ht => hcov e b hb hi (rayTest_of_has heps h0 h1 (hbox e b hb _ ht))
  refine ⟨best, hb, ?_, ?_⟩
  · intro e hit he
    obtain ⟨a1, a2, a3, a4⟩ := u1 e hit he
    subst he
    refine ⟨(hsub e a1).2, (hsub e a1).1, hn.1, a2, fun hle => ⟨(a3 hle).1, ?_⟩, ?_⟩
    · intro e' b hb hi t h0 h1 ht
      exact (a3 hle).2 e' (seen e' b hb hi t h0 h1 ht) t h0 h1 ht
    · intro hlt e' b hb hi t h0 h1 ht
      exact a4 hlt e' (seen e' b hb hi t h0 h1 ht) t h0 h1 ht
  · intro he e b hb hi t h0 h1 ht
    exact u2 he e (seen e b hb hi t h0 h1 ht) t h0 h1 ht

/-! ## Fair casts -/

theorem RayExact.fair {S : V3 ℝ → Prop} {p0 p1 : V3 ℝ} {r : RayRes} (h : RayExact S p0 p1 r) : RayFair S p0 p1 r where
  front g hg := (h.hit g hg).1
  hit g hg _ := h.hit g hg
  beyond g hg hlt := absurd (h.hit g hg).2.1 (not_le.2 hlt)
  miss := h.miss
  ok := h.ok

/-- The casts against a sphere are fair. -/
theorem sphere_fair (tiny r : ℝ) (ht : 0 ≤ tiny) (hr : tiny < r) (pos p0 p1 : V3 ℝ) (orn : Quat ℝ)
    (ho : orn.lengthSqr = 1) (hp : p0 ≠ p1) (hout : r * r < lengthSqr (p0 - pos)) :
    RayFair (Placed (ballSet r) pos orn) p0 p1 (sphereRay tiny r pos p0 p1) := by
  obtain ⟨s1, s2⟩ := raySphere_spec p0 p1 pos r hp
  have hS : ∀ x, Placed (ballSet r) pos orn x ↔ lengthSqr (x - pos) ≤ r * r := fun x => placed_ball r pos ho x
  unfold sphereRay
  cases hs : raySphere p0 p1 pos r with
  | none =>
    simp only
    have hmiss : Misses (Placed (ballSet r) pos orn) p0 p1 := by
      intro t h0 _ h
      rw [hS] at h
      linarith [s1 hs t h0]
    exact ⟨by simp, by simp, by simp, fun _ => hmiss, by simp⟩
  | some t =>
    obtain ⟨a1, a2, a3, a4⟩ := s2 t hs
    have hn : ∃ n, normalizeV tiny (along p0 p1 t - pos) = some n := by
      unfold normalizeV
      rw [a3 hout, Real.sqrt_mul_self (by linarith), if_pos hr]
      exact ⟨_, rfl⟩
    obtain ⟨n, hn⟩ := hn
    simp only [hn, Option.map_some]
    have hfirst : ∀ s, 0 ≤ s → s < t → ¬ Placed (ballSet r) pos orn (along p0 p1 s) := by
      intro s h0 hs' h
      rw [hS] at h
      linarith [a4 s h0 hs']
    refine ⟨?_, ?_, ?_, by simp, by simp⟩
    · intro h hh; simp only [Option.some_inj] at hh; subst hh; exact a1
    · intro h hh hle; simp only [Option.some_inj] at hh; subst hh
      exact ⟨a1, hle, (hS _).2 a2, hfirst⟩
    · intro h hh hlt; simp only [Option.some_inj] at hh; subst hh
      intro s h0 h1
      exact hfirst s h0 (by simp only at hlt; linarith)

/-! ## Witnesses for the world -/

/-- Every list of bodies and boxes is the content of a reachable tree. -/
theorem world_of (P : DynTree.Params ℝ) (l : List (Nat × Box ℝ)) :
    ∃ s L, DynTree.Reach P s L ∧ (∀ id b, L id ≠ some (none, b)) ∧
      ∀ e b, (∃ id, L id = some (some e, b)) ↔ (e, b) ∈ l := by
  induction l with
  | nil => exact ⟨_, _, .init ⟨⟨0, 0, 0⟩, ⟨0, 0, 0⟩⟩, by simp, by simp⟩
  | cons x l ih =>
    obtain ⟨e0, b0⟩ := x
    obtain ⟨s, L, hr, hn, hl⟩ := ih
    obtain ⟨id, s', h1, h2, -⟩ := (DynTree.calls_defined hr).1 b0 (some e0)
    refine ⟨s', _, .create b0 (some e0) hr h1, ?_, ?_⟩
    · intro j b
      rw [DynTree.upd_apply]
      split
      · simp
      · exact hn j b
    · intro e b
      rw [List.mem_cons, ← hl]
      constructor
      · rintro ⟨j, hj⟩
        rw [DynTree.upd_apply] at hj
        split at hj
        · simp only [Option.some_inj, Prod.mk.injEq] at hj
          exact .inl (by rw [hj.1, hj.2])
        · exact .inr ⟨j, hj⟩
      · rintro (h | ⟨j, hj⟩)
        · simp only [Prod.mk.injEq] at h
          exact ⟨id, by rw [DynTree.upd_same, h.1, h.2]⟩
        · refine ⟨j, ?_⟩
          rw [DynTree.upd_apply, if_neg, hj]
          rintro rfl
          rw [h2] at hj
          simp at hj

/-- The margin of 0.1 of the trees. -/
noncomputable def exWorldParams : DynTree.Params ℝ :=
  ⟨⟨fun x => x - 1 / 10, fun x => x + 1 / 10, fun x => by linarith, fun x => by linarith⟩, fun _ _ _ _ _ _ => .right⟩

/-- The sphere of radius 1 at the origin and a segment towards it which ends outside of the sphere. -/
theorem sphere_beyond (tiny : ℝ) (ht : tiny < 1) : ∃ n,
    sphereRay tiny 1 ⟨0, 0, 0⟩ ⟨6 / 5, 8 / 5, 0⟩ ⟨18 / 25, 24 / 25, 0⟩ = some (some ⟨5 / 4, some n⟩) := by
  have h1 : raySphere ⟨6 / 5, 8 / 5, 0⟩ ⟨18 / 25, 24 / 25, 0⟩ ⟨0, 0, 0⟩ 1 = some (5 / 4) := by
    unfold raySphere
    simp only
    have hd : (⟨18 / 25, 24 / 25, 0⟩ - ⟨6 / 5, 8 / 5, 0⟩ : V3 ℝ) = ⟨-12 / 25, -16 / 25, 0⟩ := by ext <;> norm_num
    have hm : (⟨6 / 5, 8 / 5, 0⟩ - ⟨0, 0, 0⟩ : V3 ℝ) = ⟨6 / 5, 8 / 5, 0⟩ := by ext <;> norm_num
    rw [hd, hm]
    have e1 : dot (⟨-12 / 25, -16 / 25, 0⟩ : V3 ℝ) ⟨-12 / 25, -16 / 25, 0⟩ = 16 / 25 := by norm_num [dot]
    have e2 : dot (⟨6 / 5, 8 / 5, 0⟩ : V3 ℝ) ⟨-12 / 25, -16 / 25, 0⟩ = -8 / 5 := by norm_num [dot]
    have e3 : dot (⟨6 / 5, 8 / 5, 0⟩ : V3 ℝ) ⟨6 / 5, 8 / 5, 0⟩ = 4 := by norm_num [dot]
    rw [e1, e2, e3, if_neg (by norm_num), if_neg (by norm_num)]
    have hs : Real.sqrt (-8 / 5 * (-8 / 5) - 16 / 25 * (4 - 1 * 1)) = 4 / 5 := by
      have : (-8 / 5 * (-8 / 5) - 16 / 25 * (4 - 1 * 1) : ℝ) = (4 / 5) * (4 / 5) := by norm_num
      rw [this, Real.sqrt_mul_self (by norm_num)]
    rw [hs]
    norm_num
  unfold sphereRay
  rw [h1]
  have hx : along ⟨6 / 5, 8 / 5, 0⟩ ⟨18 / 25, 24 / 25, 0⟩ (5 / 4) - ⟨0, 0, 0⟩ = (⟨3 / 5, 4 / 5, 0⟩ : V3 ℝ) := by
    ext <;> norm_num [along]
  simp only [hx]
  unfold normalizeV
  have hl : lengthSqr (⟨3 / 5, 4 / 5, 0⟩ : V3 ℝ) = 1 := by norm_num [lengthSqr, dot]
  rw [hl, Real.sqrt_one, if_pos ht]
  exact ⟨_, rfl⟩

/-- **Finding.** The full statement fails: a body beyond the end of the segment is reported, if the segment reaches
its bounding box. -/
theorem world_ray_refuted (eps tiny big : ℝ) (heps : 0 ≤ eps) (ht : tiny < 1) (hbig : 2 ≤ big) :
    ¬ WorldRayFull eps tiny big := by
  intro hfull
  set b0 : Box ℝ := ⟨⟨-1, -1, -1⟩, ⟨1, 1, 1⟩⟩ with hb0
  obtain ⟨s, L, hr, hn, hl⟩ := world_of exWorldParams [(0, b0)]
  have hr' : DynTree.Reach exWorldParams (DynTree.init b0) (fun _ => none) := .init b0
  have hw : ∀ e b, InWorld L (fun _ => none) e b ↔ e = 0 ∧ b = b0 := by
    intro e b
    constructor
    · rintro ⟨id, h | h⟩
      · have := (hl e b).1 ⟨id, h⟩
        simpa using this
      · simp at h
    · rintro ⟨rfl, rfl⟩
      obtain ⟨id, h⟩ := (hl 0 b0).2 (by simp)
      exact ⟨id, .inl h⟩
  have hnn : ∀ id, (∀ b, L id ≠ some (none, b)) ∧ ∀ b, (fun _ => none : DynTree.Live ℝ) id ≠ some (none, b) :=
    fun id => ⟨hn id, by simp⟩
  set p0 : V3 ℝ := ⟨6 / 5, 8 / 5, 0⟩ with hp0
  set p1 : V3 ℝ := ⟨18 / 25, 24 / 25, 0⟩ with hp1
  obtain ⟨r, h1, h2, h3⟩ := hfull exWorldParams exWorldParams s _ L _ [] (fun _ => .sphere 1 ⟨0, 0, 0⟩ ⟨0, 0, 0, 1⟩)
    p0 p1 hr hr' hnn (by rw [hp0, hp1]; norm_num [V3.ext_iff]) (by
      rintro e b hb
      obtain ⟨rfl, rfl⟩ := (hw e b).1 hb
      refine ⟨⟨ht, quat_one_unit⟩, fun x hx => ?_⟩
      have hx' := (placed_ball 1 ⟨0, 0, 0⟩ quat_one_unit x).1 hx
      simp [lengthSqr, dot] at hx'
      have sq : ∀ a : ℝ, a * a ≤ 1 → -1 ≤ a ∧ a ≤ 1 := by intro a ha; constructor <;> nlinarith
      have k1 := sq x.x (by nlinarith [mul_self_nonneg x.y, mul_self_nonneg x.z])
      have k2 := sq x.y (by nlinarith [mul_self_nonneg x.x, mul_self_nonneg x.z])
      have k3 := sq x.z (by nlinarith [mul_self_nonneg x.x, mul_self_nonneg x.y])
      exact ⟨k1, k2, k3⟩)
  obtain ⟨n, hc⟩ := sphere_beyond tiny ht
  obtain ⟨es, e1, e2, e3⟩ := world_visited eps heps hr hr' hnn p0 p1 [] big
    (fun _ => RayBody.cast eps tiny big p0 p1 (.sphere 1 ⟨0, 0, 0⟩ ⟨0, 0, 0, 1⟩))
  have h0 : 0 ∈ es := by
    refine e3 0 b0 ((hw _ _).2 ⟨rfl, rfl⟩) (by simp) (rayTest_of_has heps (t := 1) (by norm_num) le_rfl ?_)
    norm_num [toAabb, AABB.Has, along, hb0, hp0, hp1]
  obtain ⟨best, g1, g2⟩ := castAll_nearest big
    (fun _ : Nat => RayBody.cast eps tiny big p0 p1 (.sphere 1 ⟨0, 0, 0⟩ ⟨0, 0, 0, 1⟩)) es (by
      intro i _
      simp only [RayBody.cast, hp0, hp1, hc]
      simp)
  rw [e1, g1] at h1
  simp only [Option.some_inj] at h1
  subst h1
  cases best with
  | none =>
    have := g2 0 h0 ⟨5 / 4, some n⟩ (by simp only [RayBody.cast, hp0, hp1, hc])
    simp only at this
    linarith
  | some b =>
    obtain ⟨e, h⟩ := b
    have k := (h2 e h rfl).2.2.1.2.1
    have k2 := g2.1
    simp only [RayBody.cast, hp0, hp1, hc, Option.some_inj] at k2
    rw [← k2] at k
    norm_num at k

/-- **Finding.** A plane behind the start hides a sphere in front of it: the plane is reported, at a negative
fraction.  The plane is not axis-aligned, so its bounding box contains everything. -/
theorem world_ray_hidden (eps tiny big : ℝ) (heps : 0 ≤ eps) (heps2 : eps ≤ 1) (ht : tiny < 1) (hbig : 2 ≤ big) :
    ∃ s L, DynTree.Reach exWorldParams s L ∧
      (∀ e b, (∃ id, L id = some (some e, b)) ↔ (e, b) ∈ [(0, (⟨⟨-99999, -99999, -99999⟩, ⟨99999, 99999, 99999⟩⟩ : Box ℝ)),
        (1, ⟨⟨2, 3, -1⟩, ⟨4, 5, 1⟩⟩)]) ∧
      planeAabb ⟨3 / 5, 4 / 5, 0⟩ 0 = toAabb ⟨⟨-99999, -99999, -99999⟩, ⟨99999, 99999, 99999⟩⟩ ∧
      worldRay eps big (DynTree.init ⟨⟨0, 0, 0⟩, ⟨0, 0, 0⟩⟩) s [] (fun e =>
        if e = 0 then planeRay eps ⟨3 / 5, 4 / 5, 0⟩ 0 ⟨3 / 5, 4 / 5, 0⟩ ⟨6, 8, 0⟩
        else sphereRay tiny 1 ⟨3, 4, 0⟩ ⟨3 / 5, 4 / 5, 0⟩ ⟨6, 8, 0⟩) ⟨3 / 5, 4 / 5, 0⟩ ⟨6, 8, 0⟩
          = some (some (0, ⟨-1 / 9, some ⟨3 / 5, 4 / 5, 0⟩⟩)) ∧
      Misses (planeSet ⟨3 / 5, 4 / 5, 0⟩ 0) ⟨3 / 5, 4 / 5, 0⟩ ⟨6, 8, 0⟩ ∧
      FirstHit (Placed (ballSet 1) ⟨3, 4, 0⟩ ⟨0, 0, 0, 1⟩) ⟨3 / 5, 4 / 5, 0⟩ ⟨6, 8, 0⟩ (1 / 3) := by
  set p0 : V3 ℝ := ⟨3 / 5, 4 / 5, 0⟩ with hp0
  set p1 : V3 ℝ := ⟨6, 8, 0⟩ with hp1
  obtain ⟨s, L, hr, hn, hl⟩ := world_of exWorldParams [(0, (⟨⟨-99999, -99999, -99999⟩, ⟨99999, 99999, 99999⟩⟩ : Box ℝ)),
        (1, ⟨⟨2, 3, -1⟩, ⟨4, 5, 1⟩⟩)]
  have hr' : DynTree.Reach exWorldParams (DynTree.init ⟨⟨0, 0, 0⟩, ⟨0, 0, 0⟩⟩) (fun _ => none) := .init _
  refine ⟨s, L, hr, hl, ?_, ?_, ?_, ?_⟩
  · unfold planeAabb planeExtent
    simp only
    rw [if_neg (by norm_num [V3.ext_iff, ex]), if_neg (by norm_num [V3.ext_iff, ex]),
      if_neg (by norm_num [V3.ext_iff, ey]), if_neg (by norm_num [V3.ext_iff, ey]),
      if_neg (by norm_num [V3.ext_iff, ez]), if_neg (by norm_num [V3.ext_iff, ez])]
    simp [toAabb, V3.ext_iff]
  · have c0 : planeRay eps p0 0 p0 p1 = some (some ⟨-1 / 9, some p0⟩) := by
      unfold planeRay
      simp only
      have d1 : dot (p1 - p0) p0 = 9 := by norm_num [dot, hp0, hp1]
      have d2 : dot (smul 0 p0 - p0) p0 = -1 := by norm_num [dot, hp0]
      rw [d1, d2, if_neg (by norm_num; linarith)]
    have c1 : sphereRay tiny 1 ⟨3, 4, 0⟩ p0 p1 ≠ none ∧
        ∀ h, sphereRay tiny 1 ⟨3, 4, 0⟩ p0 p1 = some (some h) → 0 ≤ h.fraction := by
      obtain ⟨s1, s2⟩ := raySphere_spec p0 p1 ⟨3, 4, 0⟩ 1 (by rw [hp0, hp1]; norm_num [V3.ext_iff])
      unfold sphereRay
      cases hs : raySphere p0 p1 ⟨3, 4, 0⟩ 1 with
      | none => simp
      | some t =>
        obtain ⟨a1, -, a3, -⟩ := s2 t hs
        simp only
        unfold normalizeV
        rw [a3 (by norm_num [lengthSqr, dot, hp0]), Real.sqrt_mul_self (by norm_num), if_pos ht]
        simp only [Option.map_some]
        refine ⟨by simp, ?_⟩
        intro h hh
        simp only [Option.some_inj] at hh
        subst hh
        exact a1
    obtain ⟨es, e1, e2, e3⟩ := world_visited eps heps hr' hr (fun id => ⟨by simp, hn id⟩) p0 p1 [] big (fun e =>
        if e = 0 then planeRay eps p0 0 p0 p1 else sphereRay tiny 1 ⟨3, 4, 0⟩ p0 p1)
    rw [e1]
    have h0 : 0 ∈ es := by
      obtain ⟨id, hid⟩ := (hl 0 ⟨⟨-99999, -99999, -99999⟩, ⟨99999, 99999, 99999⟩⟩).2 (by simp)
      refine e3 0 _ ⟨id, .inr hid⟩ (by simp) (rayTest_of_has heps (t := 0) le_rfl (by norm_num) ?_)
      norm_num [toAabb, AABB.Has, along, hp0]
    obtain ⟨best, g1, g2⟩ := castAll_nearest big (fun e : Nat =>
        if e = 0 then planeRay eps p0 0 p0 p1 else sphereRay tiny 1 ⟨3, 4, 0⟩ p0 p1) es (by
      intro i _
      split
      · rw [c0]; simp
      · exact c1.1)
    rw [g1]
    congr 1
    cases best with
    | none =>
      have := g2 0 h0 ⟨-1 / 9, some p0⟩ (by simp only [if_true, c0])
      simp only at this
      linarith
    | some b =>
      obtain ⟨e, h⟩ := b
      have k1 := g2.1
      have k2 := g2.2.2.1 0 h0 ⟨-1 / 9, some p0⟩ (by simp only [if_true, c0])
      simp only at k2
      by_cases he : e = 0
      · simp only [if_pos he, c0] at k1
        simp only [Option.some_inj] at k1
        rw [he, ← k1]
      · simp only [if_neg he] at k1
        have := c1.2 h k1
        linarith
  · intro t h0 _ h
    simp [planeSet, dot, along, hp0, hp1] at h
    linarith
  · refine ⟨by norm_num, by norm_num, ?_, ?_⟩
    · rw [placed_ball 1 _ quat_one_unit]
      norm_num [along, lengthSqr, dot, hp0, hp1]
    · intro t h0 h1 h
      rw [placed_ball 1 _ quat_one_unit] at h
      simp [along, lengthSqr, dot, hp0, hp1] at h
      nlinarith

/-- A world with two spheres in which `world_ray_partial` applies: every sphere away from the start is cast fairly. -/
example : RayFair (Placed (ballSet 1) ⟨3, 4, 0⟩ ⟨0, 0, 0, 1⟩) ⟨3 / 5, 4 / 5, 0⟩ ⟨6, 8, 0⟩
    (sphereRay (1 / 100) 1 ⟨3, 4, 0⟩ ⟨3 / 5, 4 / 5, 0⟩ ⟨6, 8, 0⟩) :=
  sphere_fair _ _ (by norm_num) (by norm_num) _ _ _ _ quat_one_unit (by norm_num [V3.ext_iff])
    (by norm_num [lengthSqr, dot])

end Edyn.Geom
