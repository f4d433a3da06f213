import Verif.Collide.BoxAxis
import Verif.Geom.BoxFeature
import Verif.Geom.Triangle
import Verif.Geom.Intersect3
import Verif.Geom.ClosestSeg

/-!
# Contact points between two boxes: model and faces (C87)

`collide` for two boxes, `src/edyn/collision/collide/collide_box_box.cpp` 14-266.  Scalars are exact reals; `eps`
is `EDYN_EPSILON`, `tol` is `support_feature_tolerance`, `K` holds the constants of `insertion_point_index`.
-/

namespace Edyn.Collide

open Edyn.Math hiding lengthSqr_nonneg
open V3 Edyn.Geom Edyn.Contact

/-! ## Model -/

/-- A face of a placed box: its vertices, normal, centre, the first and third column of its basis and its half
extents. -/
structure FaceAt where
  v0 : V3 ℝ
  v1 : V3 ℝ
  v2 : V3 ℝ
  v3 : V3 ℝ
  normal : V3 ℝ
  center : V3 ℝ
  x : V3 ℝ
  z : V3 ℝ
  hx : ℝ
  hz : ℝ

def FaceAt.verts (F : FaceAt) : List (V3 ℝ) := [F.v0, F.v1, F.v2, F.v3]

/-- `get_face`, `get_face_normal`, `get_face_center`, `get_face_basis` and `get_face_half_extents` of a placed box,
`src/edyn/shapes/box_shape.cpp` 160-168, 198-225. -/
noncomputable def faceAt (h : V3 ℝ) (i : ℕ) (pos : V3 ℝ) (orn : Quat ℝ) : Option FaceAt :=
  match boxFace h i with
  | some [a, b, c, d] =>
    (boxNormal i).bind fun n => (boxFaceCenter h i pos orn).bind fun m => (boxBasis i orn).map fun q =>
      ⟨toWorldSpace a pos orn, toWorldSpace b pos orn, toWorldSpace c pos orn, toWorldSpace d pos orn,
        Quat.rotate orn n, m, q.1, q.2.2, (boxFaceHalf h i).1, (boxFaceHalf h i).2⟩
  | _ => none

/-- `get_edge` of a placed box, `box_shape.cpp` 142-148. -/
noncomputable def edgeAt (h : V3 ℝ) (i : ℕ) (pos : V3 ℝ) (orn : Quat ℝ) : Option (V3 ℝ × V3 ℝ) :=
  match boxEdge h i with
  | some [a, b] => some (toWorldSpace a pos orn, toWorldSpace b pos orn)
  | _ => none

/-- `add_point`, `src/edyn/collision/collision_result.cpp` 6-10; `none`: the assertion fails. -/
noncomputable def addPoint (l : List Point) (p : Point) : Option (List Point) :=
  if l.length < 4 then some (l ++ [p]) else none

/-- `maybe_add_point`, which cannot fail. -/
noncomputable def mayAdd (K : Consts ℝ) (l : List Point) (p : Point) : Option (List Point) := some (maybeAdd K l p)

open Classical in
/-- Adding a point for every one of the given points over a face, `collide_box_box.cpp` 131-139, 142-150 and
195-205.  `point_in_polygonal_prism` for arrays is in `include/edyn/math/geom.hpp` 330-348. -/
noncomputable def addInside (eps : ℝ) (add : List Point → Point → Option (List Point)) (F : FaceAt) (mk : V3 ℝ → Point)
    (vs : List (V3 ℝ)) (l : List Point) : Option (List Point) :=
  vs.foldlM (fun l v => (pointInPrism eps F.verts F.normal v).bind fun P => if P then add l (mk v) else some l) l

/-- `to_object_space` with the basis of a face and `to_vector2_xz`, `include/edyn/math/transform.hpp` 18-23 and
`vector2_3_util.hpp` 16-18. -/
noncomputable def FaceAt.flat (F : FaceAt) (p : V3 ℝ) : V2 := ⟨dot (p - F.center) F.x, dot (p - F.center) F.z⟩

/-- Adding a point for every intersection of a segment with the border of a face, `collide_box_box.cpp` 159-176
and 216-232. -/
noncomputable def addCross (eps : ℝ) (add : List Point → Point → Option (List Point)) (F : FaceAt) (mk : V3 ℝ → Point)
    (e0 e1 : V3 ℝ) (l : List Point) : Option (List Point) :=
  (lineAabb eps (F.flat e0) (F.flat e1) ⟨-F.hx, -F.hz⟩ ⟨F.hx, F.hz⟩).foldlM
    (fun l s => if s < 0 ∨ 1 < s then some l else add l (mk (smul (1 - s) e0 + smul s e1))) l

/-- Two faces, `collide_box_box.cpp` 130-178. -/
noncomputable def faceFace (eps : ℝ) (K : Consts ℝ) (FA FB : FaceAt) (mk : V3 ℝ → V3 ℝ → Point) : Option (List Point) :=
  (addInside eps (mayAdd K) FA (fun v => mk (projectPlane v FA.v0 FA.normal) v) FB.verts []).bind fun l =>
  (addInside eps (mayAdd K) FB (fun v => mk v (projectPlane v FB.v0 FB.normal)) FA.verts l).bind fun l =>
  if l.length < 4 then
    [(FB.v0, FB.v1), (FB.v1, FB.v2), (FB.v2, FB.v3), (FB.v3, FB.v0)].foldlM
      (fun l e => addCross eps (mayAdd K) FA (fun q => mk (projectPlane q FA.center FA.normal) q) e.1 e.2 l) l
  else some l

/-- A face and an edge, `collide_box_box.cpp` 194-233; `mk` takes the pivot on the face and the one on the edge. -/
noncomputable def faceEdge (eps : ℝ) (F : FaceAt) (sep e0 e1 : V3 ℝ) (mk : V3 ℝ → V3 ℝ → Point) : Option (List Point) :=
  (addInside eps addPoint F (fun v => mk (projectPlane v F.v0 F.normal) v) [e0, e1] []).bind fun l =>
  if l.length < 2 then addCross eps addPoint F (fun q => mk (projectPlane q F.center sep) q) e0 e1 l else some l

/-- Two edges, `collide_box_box.cpp` 236-250. -/
noncomputable def edgeEdge (eps : ℝ) (a b : V3 ℝ × V3 ℝ) (mk : V3 ℝ → V3 ℝ → Point) : Option (List Point) :=
  let r := closestSegSeg eps true a.1 a.2 b.1 b.2
  let num := r.num.getD 0
  (if 0 < num then addPoint [] (mk r.c1 r.c2) else some []).bind fun l =>
  if 1 < num then r.second.bind fun q => addPoint l (mk q.2.2.1 q.2.2.2) else some l

/-- `collide` of two boxes, `collide_box_box.cpp` 101-266. -/
noncomputable def boxBox (eps tol : ℝ) (K : Consts ℝ) (hA hB : V3 ℝ) (c : Ctx) : Res :=
  (boxBoxAxis eps hA hB c).bind fun ax =>
  let distance := ax.1
  let sep := ax.2
  if c.thr < distance then some [] else
  (boxSupportFeatureAt hA c.posA c.ornA 0 (-sep) tol).bind fun fA =>
  (boxSupportFeatureAt hB c.posB c.ornB 0 sep tol).bind fun fB =>
  let pt (att : Att) (pA pB : V3 ℝ) : Point :=
    ⟨toObjectSpace pA c.posA c.ornA, toObjectSpace pB c.posB c.ornB, sep, distance, att,
      some ⟨boxKind fA.1, some fA.2.1⟩, some ⟨boxKind fB.1, some fB.2.1⟩⟩
  match fA.1, fB.1 with
  | .face, .face =>
    (faceAt hA fA.2.1 c.posA c.ornA).bind fun FA => (faceAt hB fB.2.1 c.posB c.ornB).bind fun FB =>
    faceFace eps K FA FB (pt .onB)
  | .face, .edge =>
    (faceAt hA fA.2.1 c.posA c.ornA).bind fun F => (edgeAt hB fB.2.1 c.posB c.ornB).bind fun e =>
    faceEdge eps F sep e.1 e.2 (pt .onA)
  | .edge, .face =>
    (faceAt hB fB.2.1 c.posB c.ornB).bind fun F => (edgeAt hA fA.2.1 c.posA c.ornA).bind fun e =>
    faceEdge eps F sep e.1 e.2 fun pF pE => pt .onB pE pF
  | .edge, .edge =>
    (edgeAt hA fA.2.1 c.posA c.ornA).bind fun a => (edgeAt hB fB.2.1 c.posB c.ornB).bind fun b =>
    edgeEdge eps a b (pt .none)
  | .face, .vertex =>
    (boxVertex hB fB.2.1).bind fun v =>
    addPoint [] { pt .onA (toWorldSpace v c.posB c.ornB + smul distance sep) 0 with pB := v }
  | .vertex, .face =>
    (boxVertex hA fA.2.1).bind fun v =>
    addPoint [] { pt .onB 0 (toWorldSpace v c.posA c.ornA - smul distance sep) with pA := v }
  | _, _ => some []

/-! ## Faces -/

/-- What is needed of a face of a box. -/
structure FaceAt.Of (F : FaceAt) (S : V3 ℝ → Prop) : Prop where
  un : lengthSqr F.normal = 1
  ux : lengthSqr F.x = 1
  uz : lengthSqr F.z = 1
  xn : dot F.x F.normal = 0
  zn : dot F.z F.normal = 0
  xz : dot F.x F.z = 0
  px : 0 < F.hx
  pz : 0 < F.hz
  split : ∀ p, p = F.center + smul (dot (p - F.center) F.x) F.x + smul (dot (p - F.center) F.normal) F.normal
    + smul (dot (p - F.center) F.z) F.z
  box : ∃ hy, 0 < hy ∧ ∀ p, S p ↔ |dot (p - F.center) F.x| ≤ F.hx ∧ |dot (p - F.center) F.z| ≤ F.hz
    ∧ -(2 * hy) ≤ dot (p - F.center) F.normal ∧ dot (p - F.center) F.normal ≤ 0
  verts_mem : ∀ v ∈ F.verts, ∃ s t : ℝ, (s = 1 ∨ s = -1) ∧ (t = 1 ∨ t = -1) ∧
    v = F.center + smul (s * F.hx) F.x + smul (t * F.hz) F.z
  mem_verts : ∀ s t : ℝ, (s = 1 ∨ s = -1) → (t = 1 ∨ t = -1) → F.center + smul (s * F.hx) F.x + smul (t * F.hz) F.z ∈ F.verts
  sides : ∀ e ∈ [(F.v0, F.v1), (F.v1, F.v2), (F.v2, F.v3), (F.v3, F.v0)], e.2 - e.1 = smul (2 * F.hx) F.x ∨
    e.2 - e.1 = smul (-(2 * F.hx)) F.x ∨ e.2 - e.1 = smul (2 * F.hz) F.z ∨ e.2 - e.1 = smul (-(2 * F.hz)) F.z
  prism : ∀ eps p, (dot (p - F.v0) (cross (F.v1 - F.v0) F.normal) ≤ eps ∧ dot (p - F.v1) (cross (F.v2 - F.v1) F.normal) ≤ eps ∧
      dot (p - F.v2) (cross (F.v3 - F.v2) F.normal) ≤ eps ∧ dot (p - F.v3) (cross (F.v0 - F.v3) F.normal) ≤ eps) ↔
    2 * F.hz * (|dot (p - F.center) F.x| - F.hx) ≤ eps ∧ 2 * F.hx * (|dot (p - F.center) F.z| - F.hz) ≤ eps
  rim : ∀ α β : ℝ, |α| ≤ F.hx → |β| ≤ F.hz → (|α| = F.hx ∨ |β| = F.hz) →
    ∃ e ∈ [(F.v0, F.v1), (F.v1, F.v2), (F.v2, F.v3), (F.v3, F.v0)], ∃ k, 0 ≤ k ∧ k ≤ 1 ∧
      F.center + smul α F.x + smul β F.z = smul (1 - k) e.1 + smul k e.2

/-- A number between two opposite ones. -/
theorem between {m a p : ℝ} (hm : 0 < m) (ha : a = m ∨ a = -m) (hp : |p| ≤ m) :
    ∃ s, 0 ≤ s ∧ s ≤ 1 ∧ p = (1 - s) * a + s * -a := by
  rw [abs_le] at hp
  refine ⟨(a - p) / (2 * a), ?_, ?_, ?_⟩
  · rcases ha with rfl | rfl
    · exact div_nonneg (by linarith) (by linarith)
    · exact div_nonneg_of_nonpos (by linarith) (by linarith)
  · rcases ha with rfl | rfl
    · rw [div_le_one (by linarith)]; linarith
    · rw [div_le_one_of_neg (by linarith)]; linarith
  · have : a ≠ 0 := by rcases ha with rfl | rfl <;> intro h <;> linarith
    field_simp; ring

theorem abs_two {k a m e : ℝ} (hk : 0 < k) : (k * (|a| - m) ≤ e) ↔ k * (a - m) ≤ e ∧ k * (-a - m) ≤ e := by
  constructor
  · intro h
    exact ⟨le_trans (mul_le_mul_of_nonneg_left (by linarith [le_abs_self a]) hk.le) h,
      le_trans (mul_le_mul_of_nonneg_left (by linarith [neg_abs_le a]) hk.le) h⟩
  · rintro ⟨h1, h2⟩
    rcases abs_cases a with ⟨e, _⟩ | ⟨e, _⟩ <;> rw [e]
    · exact h1
    · exact h2

/-- The face, placed. -/
noncomputable def FaceAt.place (F : FaceAt) (pos : V3 ℝ) (orn : Quat ℝ) : FaceAt :=
  ⟨toWorldSpace F.v0 pos orn, toWorldSpace F.v1 pos orn, toWorldSpace F.v2 pos orn, toWorldSpace F.v3 pos orn,
    Quat.rotate orn F.normal, toWorldSpace F.center pos orn, Quat.rotate orn F.x, Quat.rotate orn F.z, F.hx, F.hz⟩

theorem FaceAt.Of.place {F : FaceAt} {S : V3 ℝ → Prop} (hF : F.Of S) (pos : V3 ℝ) {orn : Quat ℝ} (ho : orn.lengthSqr = 1) :
    (F.place pos orn).Of (Placed S pos orn) := by
  have world : ∀ p, ∃ q, p = toWorldSpace q pos orn := fun p =>
    ⟨Quat.rotate orn.conjugate (p - pos), by
      unfold toWorldSpace; rw [(rotate_conjugate orn ho _).2]; ext <;> simp⟩
  have ws : ∀ p q, toWorldSpace p pos orn - toWorldSpace q pos orn = Quat.rotate orn (p - q) := by
    intro p q; unfold toWorldSpace; rw [rotate_sub]; ext <;> simp
  have wa : ∀ p q, toWorldSpace (p + q) pos orn = toWorldSpace p pos orn + Quat.rotate orn q := by
    intro p q; unfold toWorldSpace; rw [rotate_add]; ext <;> simp <;> ring
  have d1 : ∀ p q u, dot (toWorldSpace p pos orn - toWorldSpace q pos orn) (Quat.rotate orn u) = dot (p - q) u := by
    intro p q u; rw [ws, rotate_dot orn ho]
  have pl : ∀ q, Placed S pos orn (toWorldSpace q pos orn) ↔ S q := by
    intro q
    constructor
    · rintro ⟨r, hr, e⟩
      have : Quat.rotate orn q = Quat.rotate orn r := by
        have hx := congrArg V3.x e; have hy := congrArg V3.y e; have hz := congrArg V3.z e
        simp only [toWorldSpace, V3.add_x, V3.add_y, V3.add_z] at hx hy hz
        ext <;> linarith
      have := congrArg (Quat.rotate orn.conjugate) this
      rw [(rotate_conjugate orn ho _).1, (rotate_conjugate orn ho _).1] at this
      rw [this]; exact hr
    · intro hq; exact ⟨q, hq, rfl⟩
  refine ⟨rotate_unit ho hF.un, rotate_unit ho hF.ux, rotate_unit ho hF.uz, ?_, ?_, ?_, hF.px, hF.pz, ?_, ?_, ?_, ?_, ?_, ?_, ?_⟩
  · exact (rotate_dot orn ho _ _).trans hF.xn
  · exact (rotate_dot orn ho _ _).trans hF.zn
  · exact (rotate_dot orn ho _ _).trans hF.xz
  · intro p
    obtain ⟨q, rfl⟩ := world p
    simp only [FaceAt.place, d1]
    conv_lhs => rw [hF.split q]
    rw [wa, wa, wa, rotate_smul, rotate_smul, rotate_smul]
  · obtain ⟨hy, h0, hb⟩ := hF.box
    refine ⟨hy, h0, fun p => ?_⟩
    obtain ⟨q, rfl⟩ := world p
    simp only [FaceAt.place, d1, pl]
    exact hb q
  · intro v hv
    have : ∃ u ∈ F.verts, v = toWorldSpace u pos orn := by
      simp only [FaceAt.verts, FaceAt.place, List.mem_cons, List.not_mem_nil, or_false] at hv ⊢
      rcases hv with rfl | rfl | rfl | rfl
      exacts [⟨_, .inl rfl, rfl⟩, ⟨_, .inr (.inl rfl), rfl⟩, ⟨_, .inr (.inr (.inl rfl)), rfl⟩,
        ⟨_, .inr (.inr (.inr rfl)), rfl⟩]
    obtain ⟨u, hu, rfl⟩ := this
    obtain ⟨s, t, hs, ht, e⟩ := hF.verts_mem u hu
    refine ⟨s, t, hs, ht, ?_⟩
    rw [e, wa, wa, rotate_smul, rotate_smul]; rfl
  · intro s t hs ht
    have := hF.mem_verts s t hs ht
    have e : (F.place pos orn).center + smul (s * (F.place pos orn).hx) (F.place pos orn).x
        + smul (t * (F.place pos orn).hz) (F.place pos orn).z
        = toWorldSpace (F.center + smul (s * F.hx) F.x + smul (t * F.hz) F.z) pos orn := by
      rw [wa, wa, rotate_smul, rotate_smul]; rfl
    rw [e]
    have e2 : (F.place pos orn).verts = F.verts.map fun v => toWorldSpace v pos orn := rfl
    rw [e2]
    exact List.mem_map_of_mem (f := fun v => toWorldSpace v pos orn) this
  · intro e he
    have : ∃ f ∈ [(F.v0, F.v1), (F.v1, F.v2), (F.v2, F.v3), (F.v3, F.v0)],
        e = (toWorldSpace f.1 pos orn, toWorldSpace f.2 pos orn) := by
      simp only [FaceAt.place, List.mem_cons, List.not_mem_nil, or_false] at he ⊢
      rcases he with rfl | rfl | rfl | rfl
      exacts [⟨_, .inl rfl, rfl⟩, ⟨_, .inr (.inl rfl), rfl⟩, ⟨_, .inr (.inr (.inl rfl)), rfl⟩,
        ⟨_, .inr (.inr (.inr rfl)), rfl⟩]
    obtain ⟨f, hf, rfl⟩ := this
    simp only [FaceAt.place, ws]
    rcases hF.sides f hf with e | e | e | e <;> rw [e, rotate_smul]
    · exact .inl rfl
    · exact .inr (.inl rfl)
    · exact .inr (.inr (.inl rfl))
    · exact .inr (.inr (.inr rfl))
  · intro eps p
    obtain ⟨q, rfl⟩ := world p
    have := hF.prism eps q
    simp only [FaceAt.place, d1]
    simp only [ws, ← rotate_cross orn ho, rotate_dot orn ho]
    exact this
  · intro α β hα hβ hb
    obtain ⟨f, hf, k, k0, k1, e⟩ := hF.rim α β hα hβ hb
    refine ⟨(toWorldSpace f.1 pos orn, toWorldSpace f.2 pos orn), ?_, k, k0, k1, ?_⟩
    · simp only [FaceAt.place, List.mem_cons, List.not_mem_nil, or_false] at hf ⊢
      rcases hf with rfl | rfl | rfl | rfl
      exacts [.inl rfl, .inr (.inl rfl), .inr (.inr (.inl rfl)), .inr (.inr (.inr rfl))]
    · have e1 : (F.place pos orn).center + smul α (F.place pos orn).x + smul β (F.place pos orn).z
          = toWorldSpace (F.center + smul α F.x + smul β F.z) pos orn := by
        rw [wa, wa, rotate_smul, rotate_smul]; rfl
      rw [e1, e]
      unfold toWorldSpace
      rw [rotate_add, rotate_smul, rotate_smul]
      ext <;> simp <;> ring

/-- `point_in_polygonal_prism` for four vertices. -/
theorem prism_four (eps : ℝ) (a b c d n p : V3 ℝ) : ∃ P, pointInPrism eps [a, b, c, d] n p = some P ∧
    (P ↔ dot (p - a) (cross (b - a) n) ≤ eps ∧ dot (p - b) (cross (c - b) n) ≤ eps ∧ dot (p - c) (cross (d - c) n) ≤ eps ∧
      dot (p - d) (cross (a - d) n) ≤ eps) := by
  refine ⟨_, by unfold pointInPrism; rw [if_pos (by simp)], ?_⟩
  constructor
  · intro h
    exact ⟨not_lt.1 (h 0 a b rfl rfl), not_lt.1 (h 1 b c rfl rfl), not_lt.1 (h 2 c d rfl rfl), not_lt.1 (h 3 d a rfl (by simp))⟩
  · rintro ⟨h0, h1, h2, h3⟩ i v w hv hw
    rw [not_lt]
    match i, hv, hw with
    | 0, hv, hw => cases hv; cases hw; exact h0
    | 1, hv, hw => cases hv; cases hw; exact h1
    | 2, hv, hw => cases hv; cases hw; exact h2
    | 3, hv, hw => simp at hv hw; subst hv hw; exact h3
    | i + 4, hv, hw => simp at hv

theorem FaceAt.Of.inside {F : FaceAt} {S : V3 ℝ → Prop} (hF : F.Of S) (eps : ℝ) (p : V3 ℝ) :
    ∃ P, pointInPrism eps F.verts F.normal p = some P ∧
    (P ↔ 2 * F.hz * (|dot (p - F.center) F.x| - F.hx) ≤ eps ∧ 2 * F.hx * (|dot (p - F.center) F.z| - F.hz) ≤ eps) := by
  obtain ⟨P, h1, h2⟩ := prism_four eps F.v0 F.v1 F.v2 F.v3 F.normal p
  exact ⟨P, h1, h2.trans (hF.prism eps p)⟩

theorem face_local {S : V3 ℝ → Prop} (a b c d n x z : V3 ℝ) (m hx hz : ℝ) (un : lengthSqr n = 1) (ux : lengthSqr x = 1)
    (uz : lengthSqr z = 1) (xn : dot x n = 0) (zn : dot z n = 0) (xz : dot x z = 0) (c1 : cross x n = z) (c2 : cross z n = -x)
    (px : 0 < hx) (pz : 0 < hz) (pm : 0 < m) (sp : ∀ p : V3 ℝ, p = smul (dot p x) x + smul (dot p n) n + smul (dot p z) z)
    (hS : ∀ p, S p ↔ |dot p x| ≤ hx ∧ |dot p z| ≤ hz ∧ |dot p n| ≤ m)
    (hv : ∃ s t : ℝ, (s = 1 ∨ s = -1) ∧ (t = 1 ∨ t = -1) ∧ a = smul m n + smul (s * hx) x + smul (t * hz) z ∧
        ((b = smul m n + smul (s * hx) x + smul (-t * hz) z ∧ d = smul m n + smul (-s * hx) x + smul (t * hz) z ∧ s * t = 1) ∨
         (b = smul m n + smul (-s * hx) x + smul (t * hz) z ∧ d = smul m n + smul (s * hx) x + smul (-t * hz) z ∧ s * t = -1)) ∧
        c = smul m n + smul (-s * hx) x + smul (-t * hz) z) :
    FaceAt.Of ⟨a, b, c, d, n, smul m n, x, z, hx, hz⟩ S := by
  have nn : dot n n = 1 := un
  have xx : dot x x = 1 := ux
  have zz : dot z z = 1 := uz
  have nx : dot n x = 0 := (dot_comm _ _).trans xn
  have nz : dot n z = 0 := (dot_comm _ _).trans zn
  have zx : dot z x = 0 := (dot_comm _ _).trans xz
  have dx : ∀ p, dot (p - smul m n) x = dot p x := by intro p; rw [dot_sub_left, dot_smul_left, nx]; ring
  have dz : ∀ p, dot (p - smul m n) z = dot p z := by intro p; rw [dot_sub_left, dot_smul_left, nz]; ring
  have dn : ∀ p, dot (p - smul m n) n = dot p n - m := by intro p; rw [dot_sub_left, dot_smul_left, nn]; ring
  have vx : ∀ (p : V3 ℝ) (α β : ℝ), dot (p - (smul m n + smul α x + smul β z)) x = dot p x - α := by
    intro p α β
    rw [dot_sub_left, dot_add_left, dot_add_left, dot_smul_left, dot_smul_left, dot_smul_left, nx, xx, zx]; ring
  have vz : ∀ (p : V3 ℝ) (α β : ℝ), dot (p - (smul m n + smul α x + smul β z)) z = dot p z - β := by
    intro p α β
    rw [dot_sub_left, dot_add_left, dot_add_left, dot_smul_left, dot_smul_left, dot_smul_left, nz, zz, xz]; ring
  have ex : ∀ α β γ : ℝ, (smul m n + smul α x + smul β z) - (smul m n + smul γ x + smul β z) = smul (α - γ) x := by
    intro α β γ; ext <;> simp <;> ring
  have ez : ∀ α β γ : ℝ, (smul m n + smul α x + smul β z) - (smul m n + smul α x + smul γ z) = smul (β - γ) z := by
    intro α β γ; ext <;> simp <;> ring
  have cx : ∀ k, cross (smul k x) n = smul k z := by
    intro k; rw [← c1]; ext <;> simp [cross] <;> ring
  have cz : ∀ k, cross (smul k z) n = smul (-k) x := by
    intro k
    have : cross (smul k z) n = smul k (cross z n) := by ext <;> simp [cross] <;> ring
    rw [this, c2]; ext <;> simp
  refine ⟨un, ux, uz, xn, zn, xz, px, pz, ?_, ⟨m, pm, ?_⟩, ?_, ?_, ?_, ?_, ?_⟩
  · intro p
    simp only [dx, dz, dn]
    conv_lhs => rw [sp p]
    ext <;> simp <;> ring
  · intro p
    simp only [dx, dz, dn]
    rw [hS, abs_le (a := dot p n)]
    constructor
    · rintro ⟨h1, h2, h3, h4⟩; exact ⟨h1, h2, by linarith, by linarith⟩
    · rintro ⟨h1, h2, h3, h4⟩; exact ⟨h1, h2, by linarith, by linarith⟩
  all_goals obtain ⟨s, t, hs, ht, ha, hbd, hc⟩ := hv
  · intro v hv
    simp only [FaceAt.verts, List.mem_cons, List.not_mem_nil, or_false] at hv
    have ns : -s = 1 ∨ -s = -1 := by rcases hs with rfl | rfl <;> norm_num
    have nt : -t = 1 ∨ -t = -1 := by rcases ht with rfl | rfl <;> norm_num
    rcases hbd with ⟨hb, hd, _⟩ | ⟨hb, hd, _⟩ <;> rcases hv with rfl | rfl | rfl | rfl
    exacts [⟨s, t, hs, ht, ha⟩, ⟨s, -t, hs, nt, hb⟩, ⟨-s, -t, ns, nt, hc⟩, ⟨-s, t, ns, ht, hd⟩,
      ⟨s, t, hs, ht, ha⟩, ⟨-s, t, ns, ht, hb⟩, ⟨-s, -t, ns, nt, hc⟩, ⟨s, -t, hs, nt, hd⟩]
  · intro s' t' hs' ht'
    simp only [FaceAt.verts, List.mem_cons, List.not_mem_nil, or_false]
    have e1 : s' = s ∨ s' = -s := by rcases hs with rfl | rfl <;> rcases hs' with rfl | rfl <;> norm_num
    have e2 : t' = t ∨ t' = -t := by rcases ht with rfl | rfl <;> rcases ht' with rfl | rfl <;> norm_num
    rcases hbd with ⟨hb, hd, _⟩ | ⟨hb, hd, _⟩ <;> rcases e1 with rfl | rfl <;> rcases e2 with rfl | rfl <;>
      simp [ha, hb, hc, hd]
  · intro e he
    simp only [List.mem_cons, List.not_mem_nil, or_false] at he
    have k1 : s * hx - -s * hx = 2 * hx ∨ s * hx - -s * hx = -(2 * hx) := by
      rcases hs with rfl | rfl
      · left; ring
      · right; ring
    have k2 : -s * hx - s * hx = 2 * hx ∨ -s * hx - s * hx = -(2 * hx) := by
      rcases hs with rfl | rfl
      · right; ring
      · left; ring
    have k3 : t * hz - -t * hz = 2 * hz ∨ t * hz - -t * hz = -(2 * hz) := by
      rcases ht with rfl | rfl
      · left; ring
      · right; ring
    have k4 : -t * hz - t * hz = 2 * hz ∨ -t * hz - t * hz = -(2 * hz) := by
      rcases ht with rfl | rfl
      · right; ring
      · left; ring
    rcases hbd with ⟨hb, hd, _⟩ | ⟨hb, hd, _⟩ <;> rcases he with rfl | rfl | rfl | rfl <;>
      simp only [ha, hb, hc, hd, ex, ez]
    · rcases k4 with e | e <;> simp only [e, true_or, or_true]
    · rcases k2 with e | e <;> simp only [e, true_or, or_true]
    · rcases k3 with e | e <;> simp only [e, true_or, or_true]
    · rcases k1 with e | e <;> simp only [e, true_or, or_true]
    · rcases k2 with e | e <;> simp only [e, true_or, or_true]
    · rcases k4 with e | e <;> simp only [e, true_or, or_true]
    · rcases k1 with e | e <;> simp only [e, true_or, or_true]
    · rcases k3 with e | e <;> simp only [e, true_or, or_true]
  · intro eps p
    simp only [dx, dz]
    rw [abs_two (by linarith : 0 < 2 * hz), abs_two (by linarith : 0 < 2 * hx)]
    rcases hbd with ⟨hb, hd, hst⟩ | ⟨hb, hd, hst⟩ <;> simp only [ha, hb, hc, hd, ex, ez, cx, cz, dot_smul_right, vx, vz]
    · have : t = s := by rcases hs with rfl | rfl <;> rcases ht with rfl | rfl <;> linarith
      subst this
      rcases hs with rfl | rfl
      · constructor
        · rintro ⟨h1, h2, h3, h4⟩; refine ⟨⟨?_, ?_⟩, ?_, ?_⟩ <;> linarith
        · rintro ⟨⟨h1, h2⟩, h3, h4⟩; refine ⟨?_, ?_, ?_, ?_⟩ <;> linarith
      · constructor
        · rintro ⟨h1, h2, h3, h4⟩; refine ⟨⟨?_, ?_⟩, ?_, ?_⟩ <;> linarith
        · rintro ⟨⟨h1, h2⟩, h3, h4⟩; refine ⟨?_, ?_, ?_, ?_⟩ <;> linarith
    · have : t = -s := by rcases hs with rfl | rfl <;> rcases ht with rfl | rfl <;> linarith
      subst this
      rcases hs with rfl | rfl
      · constructor
        · rintro ⟨h1, h2, h3, h4⟩; refine ⟨⟨?_, ?_⟩, ?_, ?_⟩ <;> linarith
        · rintro ⟨⟨h1, h2⟩, h3, h4⟩; refine ⟨?_, ?_, ?_, ?_⟩ <;> linarith
      · constructor
        · rintro ⟨h1, h2, h3, h4⟩; refine ⟨⟨?_, ?_⟩, ?_, ?_⟩ <;> linarith
        · rintro ⟨⟨h1, h2⟩, h3, h4⟩; refine ⟨?_, ?_, ?_, ?_⟩ <;> linarith
  · intro α β hα hβ hr
    simp only at hα hβ hr ⊢
    have sg : ∀ {s m : ℝ}, (s = 1 ∨ s = -1) → s * m = m ∨ s * m = -m := by
      rintro s m (rfl | rfl)
      · left; ring
      · right; ring
    have nsg : ∀ {s m : ℝ}, (s = 1 ∨ s = -1) → -s * m = m ∨ -s * m = -m := by
      rintro s m (rfl | rfl)
      · right; ring
      · left; ring
    have sel : ∀ {s γ m : ℝ}, (s = 1 ∨ s = -1) → |γ| = m → γ = s * m ∨ γ = -s * m := by
      rintro s γ m (rfl | rfl) h
      · rcases abs_cases γ with ⟨e, _⟩ | ⟨e, _⟩
        · left; linarith
        · right; linarith
      · rcases abs_cases γ with ⟨e, _⟩ | ⟨e, _⟩
        · right; linarith
        · left; linarith
    have fz : ∀ (q τ : ℝ), (τ * hz = hz ∨ τ * hz = -hz) → ∃ k, 0 ≤ k ∧ k ≤ 1 ∧ smul m n + smul q x + smul β z =
        smul (1 - k) (smul m n + smul q x + smul (τ * hz) z) + smul k (smul m n + smul q x + smul (-(τ * hz)) z) := by
      intro q τ hτ
      obtain ⟨k, k0, k1, e⟩ := between pz hτ hβ
      refine ⟨k, k0, k1, ?_⟩
      rw [e]; ext <;> simp <;> ring
    have fx : ∀ (q τ : ℝ), (τ * hx = hx ∨ τ * hx = -hx) → ∃ k, 0 ≤ k ∧ k ≤ 1 ∧ smul m n + smul α x + smul q z =
        smul (1 - k) (smul m n + smul (τ * hx) x + smul q z) + smul k (smul m n + smul (-(τ * hx)) x + smul q z) := by
      intro q τ hτ
      obtain ⟨k, k0, k1, e⟩ := between px hτ hα
      refine ⟨k, k0, k1, ?_⟩
      rw [e]; ext <;> simp <;> ring
    have r1 : ∀ s m : ℝ, -(s * m) = -s * m := by intro s m; ring
    have r2 : ∀ s m : ℝ, -(-s * m) = s * m := by intro s m; ring
    rcases hr with hr | hr
    · rcases sel hs hr with e | e <;> rw [e] <;> rcases hbd with ⟨hb, hd, _⟩ | ⟨hb, hd, _⟩
      · refine ⟨(a, b), by simp, ?_⟩; rw [ha, hb, ← r1 t]; exact fz _ t (sg ht)
      · refine ⟨(d, a), by simp, ?_⟩; rw [ha, hd]; have := fz (s * hx) (-t) (nsg ht); rwa [r2] at this
      · refine ⟨(c, d), by simp, ?_⟩; rw [hc, hd]; have := fz (-s * hx) (-t) (nsg ht); rwa [r2] at this
      · refine ⟨(b, c), by simp, ?_⟩; rw [hb, hc, ← r1 t]; exact fz _ t (sg ht)
    · rcases sel ht hr with e | e <;> rw [e] <;> rcases hbd with ⟨hb, hd, _⟩ | ⟨hb, hd, _⟩
      · refine ⟨(d, a), by simp, ?_⟩; rw [ha, hd]; have := fx (t * hz) (-s) (nsg hs); rwa [r2] at this
      · refine ⟨(a, b), by simp, ?_⟩; rw [ha, hb, ← r1 s]; exact fx _ s (sg hs)
      · refine ⟨(b, c), by simp, ?_⟩; rw [hb, hc, ← r1 s]; exact fx _ s (sg hs)
      · refine ⟨(c, d), by simp, ?_⟩; rw [hc, hd]; have := fx (-t * hz) (-s) (nsg hs); rwa [r2] at this

theorem faceAt_spec {h : V3 ℝ} (hp : PosExt h) {i : ℕ} (hi : i < 6) (pos : V3 ℝ) {orn : Quat ℝ} (ho : orn.lengthSqr = 1) :
    ∃ F, faceAt h i pos orn = some F ∧ F.Of (Placed (boxSet h) pos orn) ∧ (∃ vs, boxFace h i = some vs ∧
      F.verts = vs.map fun v => toWorldSpace v pos orn) ∧ boxFaceHalf h i = (F.hx, F.hz) := by
  obtain ⟨p1, p2, p3⟩ := hp
  suffices hloc : ∃ L : FaceAt, L.Of (boxSet h) ∧ boxFace h i = some L.verts ∧ boxNormal i = some L.normal ∧
      boxFaceCenter h i pos orn = some (toWorldSpace L.center pos orn) ∧
      (∃ y, boxBasis i orn = some (Quat.rotate orn L.x, y, Quat.rotate orn L.z)) ∧ boxFaceHalf h i = (L.hx, L.hz) by
    obtain ⟨L, h1, h2, h3, h4, ⟨y, h5⟩, h6⟩ := hloc
    refine ⟨L.place pos orn, ?_, h1.place pos ho, ⟨L.verts, h2, rfl⟩, h6⟩
    unfold faceAt
    rw [h2, h3, h4, h5, h6]
    rfl
  have cen : ∀ (m : ℝ) (n : V3 ℝ), pos + smul m (Quat.rotate orn n) = toWorldSpace (smul m n) pos orn := by
    intro m n; unfold toWorldSpace; rw [rotate_smul]
  interval_cases i
  · refine ⟨⟨_, _, _, _, ⟨1, 0, 0⟩, smul h.x ⟨1, 0, 0⟩, ⟨0, 0, 1⟩, cross ⟨0, 0, 1⟩ ⟨1, 0, 0⟩, h.z, h.y⟩,
      face_local _ _ _ _ _ _ _ _ _ _ ?_ ?_ ?_ ?_ ?_ ?_ rfl ?_ p3 p2 p1 ?_ ?_ ?_, rfl, rfl, ?_, ⟨_, rfl⟩, rfl⟩
    iterate 6 simp [lengthSqr, dot, cross]
    · ext <;> simp [cross]
    · intro p; ext <;> simp [dot, cross]
    · intro p; simp [boxSet, dot, cross]; tauto
    · exact ⟨1, 1, by norm_num, by norm_num, by ext <;> simp [cross], by simp [cross, V3.ext_iff], by ext <;> simp [cross]⟩
    · simp [boxFaceCenter, boxNormal, cen]
  · refine ⟨⟨_, _, _, _, ⟨-1, 0, 0⟩, smul h.x ⟨-1, 0, 0⟩, ⟨0, 0, -1⟩, cross ⟨0, 0, -1⟩ ⟨-1, 0, 0⟩, h.z, h.y⟩,
      face_local _ _ _ _ _ _ _ _ _ _ ?_ ?_ ?_ ?_ ?_ ?_ rfl ?_ p3 p2 p1 ?_ ?_ ?_, rfl, rfl, ?_, ⟨_, rfl⟩, rfl⟩
    iterate 6 simp [lengthSqr, dot, cross]
    · ext <;> simp [cross]
    · intro p; ext <;> simp [dot, cross]
    · intro p; simp [boxSet, dot, cross]; tauto
    · exact ⟨-1, 1, by norm_num, by norm_num, by ext <;> simp [cross], by simp [cross, V3.ext_iff], by ext <;> simp [cross]⟩
    · simp [boxFaceCenter, boxNormal, cen]
  · refine ⟨⟨_, _, _, _, ⟨0, 1, 0⟩, smul h.y ⟨0, 1, 0⟩, ⟨1, 0, 0⟩, cross ⟨1, 0, 0⟩ ⟨0, 1, 0⟩, h.x, h.z⟩,
      face_local _ _ _ _ _ _ _ _ _ _ ?_ ?_ ?_ ?_ ?_ ?_ rfl ?_ p1 p3 p2 ?_ ?_ ?_, rfl, rfl, ?_, ⟨_, rfl⟩, rfl⟩
    iterate 6 simp [lengthSqr, dot, cross]
    · ext <;> simp [cross]
    · intro p; ext <;> simp [dot, cross]
    · intro p; simp [boxSet, dot, cross]; tauto
    · exact ⟨1, 1, by norm_num, by norm_num, by ext <;> simp [cross], by simp [cross, V3.ext_iff], by ext <;> simp [cross]⟩
    · simp [boxFaceCenter, boxNormal, cen]
  · refine ⟨⟨_, _, _, _, ⟨0, -1, 0⟩, smul h.y ⟨0, -1, 0⟩, ⟨-1, 0, 0⟩, cross ⟨-1, 0, 0⟩ ⟨0, -1, 0⟩, h.x, h.z⟩,
      face_local _ _ _ _ _ _ _ _ _ _ ?_ ?_ ?_ ?_ ?_ ?_ rfl ?_ p1 p3 p2 ?_ ?_ ?_, rfl, rfl, ?_, ⟨_, rfl⟩, rfl⟩
    iterate 6 simp [lengthSqr, dot, cross]
    · ext <;> simp [cross]
    · intro p; ext <;> simp [dot, cross]
    · intro p; simp [boxSet, dot, cross]; tauto
    · exact ⟨-1, 1, by norm_num, by norm_num, by ext <;> simp [cross], by simp [cross, V3.ext_iff], by ext <;> simp [cross]⟩
    · simp [boxFaceCenter, boxNormal, cen]
  · refine ⟨⟨_, _, _, _, ⟨0, 0, 1⟩, smul h.z ⟨0, 0, 1⟩, ⟨0, 1, 0⟩, cross ⟨0, 1, 0⟩ ⟨0, 0, 1⟩, h.y, h.x⟩,
      face_local _ _ _ _ _ _ _ _ _ _ ?_ ?_ ?_ ?_ ?_ ?_ rfl ?_ p2 p1 p3 ?_ ?_ ?_, rfl, rfl, ?_, ⟨_, rfl⟩, rfl⟩
    iterate 6 simp [lengthSqr, dot, cross]
    · ext <;> simp [cross]
    · intro p; ext <;> simp [dot, cross]
    · intro p; simp [boxSet, dot, cross]; tauto
    · exact ⟨1, 1, by norm_num, by norm_num, by ext <;> simp [cross], by simp [cross, V3.ext_iff], by ext <;> simp [cross]⟩
    · simp [boxFaceCenter, boxNormal, cen]
  · refine ⟨⟨_, _, _, _, ⟨0, 0, -1⟩, smul h.z ⟨0, 0, -1⟩, ⟨0, -1, 0⟩, cross ⟨0, -1, 0⟩ ⟨0, 0, -1⟩, h.y, h.x⟩,
      face_local _ _ _ _ _ _ _ _ _ _ ?_ ?_ ?_ ?_ ?_ ?_ rfl ?_ p2 p1 p3 ?_ ?_ ?_, rfl, rfl, ?_, ⟨_, rfl⟩, rfl⟩
    iterate 6 simp [lengthSqr, dot, cross]
    · ext <;> simp [cross]
    · intro p; ext <;> simp [dot, cross]
    · intro p; simp [boxSet, dot, cross]; tauto
    · exact ⟨-1, 1, by norm_num, by norm_num, by ext <;> simp [cross], by simp [cross, V3.ext_iff], by ext <;> simp [cross]⟩
    · simp [boxFaceCenter, boxNormal, cen]

end Edyn.Collide
