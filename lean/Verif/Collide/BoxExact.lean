import Verif.Collide.BoxContacts

/-!
# The support feature of a box in clear position (C87)

When the direction is perpendicular to an edge of the box or clearly not so, the support feature consists exactly of the
points furthest along the direction.
-/

namespace Edyn.Collide

open Edyn.Math hiding lengthSqr_nonneg
open V3 Edyn.Geom Edyn.Contact

/-- The ends of every edge of the box are level along the direction, or at least the tolerance apart. -/
def ClearFeature (tol : ℝ) (h : V3 ℝ) (orn : Quat ℝ) (d : V3 ℝ) : Prop :=
  (dot (Quat.rotate orn ex) d = 0 ∨ tol ≤ 2 * h.x * |dot (Quat.rotate orn ex) d|) ∧
  (dot (Quat.rotate orn ey) d = 0 ∨ tol ≤ 2 * h.y * |dot (Quat.rotate orn ey) d|) ∧
  (dot (Quat.rotate orn ez) d = 0 ∨ tol ≤ 2 * h.z * |dot (Quat.rotate orn ez) d|)

/-- `w` is a corner of the placed box. -/
def WorldCorner (h pos : V3 ℝ) (orn : Quat ℝ) (w : V3 ℝ) : Prop := ∃ v, Corner h v ∧ w = toWorldSpace v pos orn

theorem axis_x {orn : Quat ℝ} (ho : orn.lengthSqr = 1) (d : V3 ℝ) : dot (Quat.rotate orn ex) d = (Quat.rotate orn.conjugate d).x := by
  rw [dot_rotate ho]; simp [dot, ex]
theorem axis_y {orn : Quat ℝ} (ho : orn.lengthSqr = 1) (d : V3 ℝ) : dot (Quat.rotate orn ey) d = (Quat.rotate orn.conjugate d).y := by
  rw [dot_rotate ho]; simp [dot, ey]
theorem axis_z {orn : Quat ℝ} (ho : orn.lengthSqr = 1) (d : V3 ℝ) : dot (Quat.rotate orn ez) d = (Quat.rotate orn.conjugate d).z := by
  rw [dot_rotate ho]; simp [dot, ez]

/-! ## In the frame of the box -/

def ClearLocal (tol : ℝ) (h d : V3 ℝ) : Prop :=
  (d.x = 0 ∨ tol ≤ 2 * h.x * |d.x|) ∧ (d.y = 0 ∨ tol ≤ 2 * h.y * |d.y|) ∧ (d.z = 0 ∨ tol ≤ 2 * h.z * |d.z|)

theorem extent_projection {h : V3 ℝ} (hp : PosExt h) (d : V3 ℝ) : IsProjection (boxSet h) d (boxExtent h d) :=
  ⟨⟨supportBox h d, corner_box hp.1.le hp.2.1.le hp.2.2.le (supportBox_corner h d), supportBox_dot h d⟩, fun _ hw => box_le_extent hw d⟩

theorem coord_level {m t v tol : ℝ} (hv : v = m ∨ v = -m) (ht : t = 0 ∨ tol ≤ 2 * m * |t|) :
    v * t = |t| * m ∨ v * t ≤ |t| * m - tol := by
  rcases ht with rfl | ht
  · left; simp
  · rcases abs_cases t with ⟨e, h0⟩ | ⟨e, h0⟩ <;> rw [e] at ht ⊢ <;> rcases hv with rfl | rfl
    · left; ring
    · right; linarith
    · right; linarith
    · left; ring

theorem corner_exact {h d v : V3 ℝ} (hp : PosExt h) {tol : ℝ} (hd : ClearLocal tol h d) (hv : Corner h v)
    (hl : boxExtent h d - tol < dot v d) : v.x * d.x = |d.x| * h.x ∧ v.y * d.y = |d.y| * h.y ∧ v.z * d.z = |d.z| * h.z := by
  have hb := corner_box hp.1.le hp.2.1.le hp.2.2.le hv
  have a1 := mul_le_abs (a := d.x) hb.1
  have a2 := mul_le_abs (a := d.y) hb.2.1
  have a3 := mul_le_abs (a := d.z) hb.2.2
  simp only [boxExtent, dot] at hl
  refine ⟨?_, ?_, ?_⟩
  · rcases coord_level hv.1 hd.1 with e | e
    · exact e
    · linarith
  · rcases coord_level hv.2.1 hd.2.1 with e | e
    · exact e
    · linarith
  · rcases coord_level hv.2.2 hd.2.2 with e | e
    · exact e
    · linarith

theorem point_exact {h d p : V3 ℝ} (hb : boxSet h p) (hl : dot p d = boxExtent h d) :
    p.x * d.x = |d.x| * h.x ∧ p.y * d.y = |d.y| * h.y ∧ p.z * d.z = |d.z| * h.z := by
  have a1 := mul_le_abs (a := d.x) hb.1
  have a2 := mul_le_abs (a := d.y) hb.2.1
  have a3 := mul_le_abs (a := d.z) hb.2.2
  simp only [boxExtent, dot] at hl
  refine ⟨?_, ?_, ?_⟩ <;> linarith

/-- Along an axis of the box no edge is selected. -/
theorem edge_not_axis {h d : V3 ℝ} {tol : ℝ} (ht : 0 < tol)
    (hz : (d.y = 0 ∧ d.z = 0) ∨ (d.x = 0 ∧ d.z = 0) ∨ (d.x = 0 ∧ d.y = 0)) (i : ℕ) (proj : ℝ) :
    boxSupportFeature h d tol ≠ some (.edge, i, proj) := by
  obtain ⟨n, f6, hn, dx, dy, dz⟩ := boxSupportFace_spec d
  unfold boxSupportFeature
  simp only
  generalize boxSupportFace d = f at f6 hn ⊢
  obtain ⟨ix, vs, n', hn', hix, hvs, hface, hpar, hedge, hcor, hside, hall⟩ := boxFace_data h f f6
  rw [hn, Option.some.injEq] at hn'
  subst hn'
  simp only [hix, hvs, Option.bind_some]
  have ep : ![dot (vs 0) d, dot (vs 1) d, dot (vs 2) d, dot (vs 3) d] = fun k => dot (vs k) d := by
    funext k; fin_cases k <;> rfl
  rw [ep]
  set p := fun k => dot (vs k) d with hp
  have hpp : p 0 + p 2 = p 1 + p 3 := by
    simp only [hp]
    rw [← dot_add_left, ← dot_add_left, hpar]
  have hsel := boxSelect_spec p tol hpp
  have hconst : ∀ k l, p k = p l := by
    have key : ∀ k, p k = dot d n * dot (vs k) n := by
      intro k
      have zero : ∀ t : ℝ, |t| ≤ 0 → t = 0 := fun t h => abs_eq_zero.1 (le_antisymm h (abs_nonneg t))
      simp only [hp]
      rcases hside with ⟨e | e, _⟩ | ⟨e | e, _⟩ | ⟨e | e, _⟩ <;> rw [e] at dx dy dz ⊢ <;>
        simp only [dot, ex, ey, ez, neg_x, neg_y, neg_z, mul_neg, mul_zero, mul_one, add_zero, zero_add, neg_zero] at dx dy dz ⊢ <;>
        rcases hz with ⟨h1, h2⟩ | ⟨h1, h2⟩ | ⟨h1, h2⟩ <;> simp only [h1, h2, neg_zero] at dx dy dz ⊢ <;>
        first
          | ring1
          | (rw [zero _ dx]; ring1)
          | (rw [zero _ dy]; ring1)
          | (rw [zero _ dz]; ring1)
    intro k l
    rw [key, key]
    rcases hside with ⟨_, e⟩ | ⟨_, e⟩ | ⟨_, e⟩ <;> rw [e k, e l]
  cases hs : boxSelect p tol with
  | vertex i => simp
  | edge i j =>
    rw [hs] at hsel
    simp only at hsel
    obtain ⟨k, hk⟩ := hsel.2.2.2.2
    have := hconst k i
    linarith
  | face => simp

theorem dominant_clear {h d : V3 ℝ} {tol : ℝ} (hu : lengthSqr d = 1) (hd : ClearLocal tol h d) :
    (|d.y| ≤ |d.x| → |d.z| ≤ |d.x| → tol ≤ 2 * h.x * |d.x|) ∧ (|d.x| ≤ |d.y| → |d.z| ≤ |d.y| → tol ≤ 2 * h.y * |d.y|) ∧
    (|d.x| ≤ |d.z| → |d.y| ≤ |d.z| → tol ≤ 2 * h.z * |d.z|) := by
  have zero : ∀ t : ℝ, |t| ≤ 0 → t = 0 := fun t h => abs_eq_zero.1 (le_antisymm h (abs_nonneg t))
  have no : ¬ (d.x = 0 ∧ d.y = 0 ∧ d.z = 0) := by
    rintro ⟨h1, h2, h3⟩
    simp [lengthSqr, dot, h1, h2, h3] at hu
  refine ⟨fun h1 h2 => ?_, fun h1 h2 => ?_, fun h1 h2 => ?_⟩
  · rcases hd.1 with e | e
    · rw [e, abs_zero] at h1 h2; exact absurd ⟨e, zero _ h1, zero _ h2⟩ no
    · exact e
  · rcases hd.2.1 with e | e
    · rw [e, abs_zero] at h1 h2; exact absurd ⟨zero _ h1, e, zero _ h2⟩ no
    · exact e
  · rcases hd.2.2 with e | e
    · rw [e, abs_zero] at h1 h2; exact absurd ⟨zero _ h1, zero _ h2, e⟩ no
    · exact e

/-- A corner is only selected if the direction is perpendicular to no edge. -/
theorem vertex_no_zero {h d : V3 ℝ} (hp : PosExt h) {tol : ℝ} (ht : 0 < tol) (hu : lengthSqr d = 1) (hd : ClearLocal tol h d) {i : ℕ} {proj : ℝ}
    (hf : boxSupportFeature h d tol = some (.vertex, i, proj)) : d.x ≠ 0 ∧ d.y ≠ 0 ∧ d.z ≠ 0 := by
  obtain ⟨k, i', proj', vs, h1, h2, h3, ⟨v, hv, hvd⟩, h5, h6⟩ := box_support_feature_partial h hp.1.le hp.2.1.le hp.2.2.le d tol
  rw [hf] at h1
  simp only [Option.some.injEq, Prod.mk.injEq] at h1
  obtain ⟨rfl, rfl, rfl⟩ := h1
  obtain ⟨t1, t2, t3⟩ := dominant_clear hu hd
  have h6 := h6 t1 t2 t3
  simp only [boxFeatVerts, Option.map_eq_some_iff] at h3
  obtain ⟨w, hw, rfl⟩ := h3
  simp only [List.mem_singleton] at hv h5 h6
  subst hv
  obtain ⟨⟨c1, c2, c3⟩, -⟩ := h5 v rfl
  have nz : ∀ {m t : ℝ}, 0 < m → (t = m ∨ t = -m) → -t ≠ t := by
    rintro m t hm (rfl | rfl) h <;> linarith
  have fl : ∀ {m t : ℝ}, (t = m ∨ t = -m) → -t = m ∨ -t = -m := by
    rintro m t (rfl | rfl)
    · right; rfl
    · left; ring
  refine ⟨fun h0 => ?_, fun h0 => ?_, fun h0 => ?_⟩
  · rcases h6 ⟨-v.x, v.y, v.z⟩ ⟨fl c1, c2, c3⟩ (by rw [← hvd]; simp only [dot, h0]; linarith) with e | ⟨e, _⟩
    · exact nz hp.1 c1 (congrArg V3.x e)
    · cases e
  · rcases h6 ⟨v.x, -v.y, v.z⟩ ⟨c1, fl c2, c3⟩ (by rw [← hvd]; simp only [dot, h0]; linarith) with e | ⟨e, _⟩
    · exact nz hp.2.1 c2 (congrArg V3.y e)
    · cases e
  · rcases h6 ⟨v.x, v.y, -v.z⟩ ⟨c1, c2, fl c3⟩ (by rw [← hvd]; simp only [dot, h0]; linarith) with e | ⟨e, _⟩
    · exact nz hp.2.2 c3 (congrArg V3.z e)
    · cases e

/-! ## Placed -/

/-- The selected feature of a placed box in clear position. -/
def ExactOf (h pos : V3 ℝ) (orn : Quat ℝ) (d : V3 ℝ) (tol proj : ℝ) : BoxFeat → ℕ → Prop
  | .vertex, i => (∃ v, boxVertex h i = some v) ∧ ∀ e ∈ [ex, ey, ez], dot (Quat.rotate orn e) d ≠ 0
  | .edge, i => (∀ e ∈ [ex, ey, ez], d ≠ Quat.rotate orn e ∧ d ≠ -Quat.rotate orn e) ∧
      ∃ e, edgeAt h i pos orn = some e ∧ WorldCorner h pos orn e.1 ∧ WorldCorner h pos orn e.2 ∧
      (∃ a ∈ [ex, ey, ez], ∃ k, 4 * tol ≤ |k| ∧ e.2 - e.1 = smul k (Quat.rotate orn a) ∧ dot (Quat.rotate orn a) d = 0) ∧
      ∀ b, Placed (boxSet h) pos orn b → dot b d = proj → ∃ s, 0 ≤ s ∧ s ≤ 1 ∧ b = smul (1 - s) e.1 + smul s e.2
  | .face, i => ∃ F, faceAt h i pos orn = some F ∧ F.Of (Placed (boxSet h) pos orn) ∧ F.normal = d ∧ (∀ v ∈ F.verts, WorldCorner h pos orn v) ∧
      (∀ v ∈ F.verts, dot v d = proj) ∧ 2 * tol ≤ F.hx ∧ 2 * tol ≤ F.hz ∧
      (∃ a ∈ [ex, ey, ez], F.x = Quat.rotate orn a ∨ F.x = -Quat.rotate orn a) ∧ ∃ a ∈ [ex, ey, ez], F.z = Quat.rotate orn a ∨ F.z = -Quat.rotate orn a

theorem faceAt_axes {h pos : V3 ℝ} {orn : Quat ℝ} {i : ℕ} (hi : i < 6) {F : FaceAt} (hF : faceAt h i pos orn = some F) :
    (∃ a ∈ [ex, ey, ez], F.x = Quat.rotate orn a ∨ F.x = -Quat.rotate orn a) ∧ ∃ a ∈ [ex, ey, ez], F.z = Quat.rotate orn a ∨ F.z = -Quat.rotate orn a := by
  have pos' : ∀ (u a : V3 ℝ), u = a → Quat.rotate orn u = Quat.rotate orn a ∨ Quat.rotate orn u = -Quat.rotate orn a := fun u a e => .inl (by rw [e])
  have neg' : ∀ (u a : V3 ℝ), u = -a → Quat.rotate orn u = Quat.rotate orn a ∨ Quat.rotate orn u = -Quat.rotate orn a := fun u a e => .inr (by
    rw [e, rotate_neg])
  interval_cases i <;>
    simp only [faceAt, boxFace, boxFaces, boxVertex, boxNormal, boxFaceCenter, boxBasis, boxTangent, List.getElem?_cons_succ,
      List.getElem?_cons_zero, Option.map_some, Option.bind_some, Option.some.injEq] at hF <;> rw [← hF] <;> simp only
  · exact ⟨⟨ez, by simp, pos' _ _ (by ext <;> simp [ez])⟩, ey, by simp, pos' _ _ (by ext <;> simp [cross, ey])⟩
  · exact ⟨⟨ez, by simp, neg' _ _ (by ext <;> simp [ez])⟩, ey, by simp, pos' _ _ (by ext <;> simp [cross, ey])⟩
  · exact ⟨⟨ex, by simp, pos' _ _ (by ext <;> simp [ex])⟩, ez, by simp, pos' _ _ (by ext <;> simp [cross, ez])⟩
  · exact ⟨⟨ex, by simp, neg' _ _ (by ext <;> simp [ex])⟩, ez, by simp, pos' _ _ (by ext <;> simp [cross, ez])⟩
  · exact ⟨⟨ey, by simp, pos' _ _ (by ext <;> simp [ey])⟩, ex, by simp, pos' _ _ (by ext <;> simp [cross, ex])⟩
  · exact ⟨⟨ey, by simp, neg' _ _ (by ext <;> simp [ey])⟩, ex, by simp, pos' _ _ (by ext <;> simp [cross, ex])⟩

theorem feature_exact {h : V3 ℝ} {tol : ℝ} (ht : 0 < tol) (hs : Sized tol h) (pos : V3 ℝ) {orn : Quat ℝ} (ho : orn.lengthSqr = 1)
    {d : V3 ℝ} (hd : lengthSqr d = 1) (hc : ClearFeature tol h orn d) :
    ∃ k i proj, boxSupportFeatureAt h pos orn 0 d tol = some (k, i, proj) ∧ IsProjection (Placed (boxSet h) pos orn) d proj ∧
      ExactOf h pos orn d tol proj k i := by
  obtain ⟨s1, s2, s3⟩ := hs
  have hp : PosExt h := ⟨by linarith, by linarith, by linarith⟩
  set d' := Quat.rotate orn.conjugate d with hd'
  have hu : lengthSqr d' = 1 := rotate_unit (by simpa [Quat.lengthSqr, Quat.conjugate] using ho) hd
  have hcl : ClearLocal tol h d' := by
    unfold ClearFeature at hc
    rw [axis_x ho, axis_y ho, axis_z ho] at hc
    exact hc
  obtain ⟨k, i, proj, vs, h1, h2, h3, ⟨v, hv, hvd⟩, h5, -⟩ := box_support_feature_partial h hp.1.le hp.2.1.le hp.2.2.le d' tol
  have hpr : proj = boxExtent h d' := projection_unique h2 (extent_projection hp d')
  have lvl : ∀ v, dot (toWorldSpace v pos orn) d = dot v d' + dot pos d := by
    intro v; unfold toWorldSpace; rw [dot_add_left, dot_rotate ho]; ring
  have ex' : ∀ v ∈ vs, v.x * d'.x = |d'.x| * h.x ∧ v.y * d'.y = |d'.y| * h.y ∧ v.z * d'.z = |d'.z| * h.z := by
    intro v hv
    refine corner_exact hp hcl (h5 v hv).1 ?_
    rcases (h5 v hv).2 with e | e
    · rw [e, hpr]; linarith
    · rw [← hpr]; exact e
  have ex2 : ∀ v ∈ vs, dot (toWorldSpace v pos orn) d = proj + dot pos d := by
    intro v hv
    obtain ⟨a1, a2, a3⟩ := ex' v hv
    rw [lvl, hpr]
    simp only [dot, boxExtent]; linarith
  have d0 : dot (pos - 0) d = dot pos d := by simp [dot]
  refine ⟨k, i, proj + dot pos d, ?_, ?_, ?_⟩
  · unfold boxSupportFeatureAt; rw [← hd', h1, Option.map_some]; simp only [d0]
  · obtain ⟨⟨q, hq, e⟩, hm⟩ := h2
    refine ⟨⟨toWorldSpace q pos orn, ⟨q, hq, rfl⟩, by rw [lvl, e]⟩, ?_⟩
    rintro w ⟨q, hq, rfl⟩
    have := hm q hq
    have e := lvl q
    unfold toWorldSpace at e
    rw [e]; linarith
  have hfc := box_feature_corners h hp.1 hp.2.1 hp.2.2 k i
  have hi := hfc.2.1 ⟨vs, h3⟩
  have hfc := hfc.1 vs h3
  cases k with
  | vertex =>
    simp only [boxFeatVerts, Option.map_eq_some_iff] at h3
    obtain ⟨w, hw, rfl⟩ := h3
    refine ⟨⟨w, hw⟩, ?_⟩
    obtain ⟨n1, n2, n3⟩ := vertex_no_zero hp ht hu hcl h1
    intro e he
    simp only [List.mem_cons, List.not_mem_nil, or_false] at he
    rcases he with rfl | rfl | rfl
    · rw [axis_x ho]; exact n1
    · rw [axis_y ho]; exact n2
    · rw [axis_z ho]; exact n3
  | edge =>
    have nax : ¬ ((d'.y = 0 ∧ d'.z = 0) ∨ (d'.x = 0 ∧ d'.z = 0) ∨ (d'.x = 0 ∧ d'.y = 0)) := fun hz => edge_not_axis ht hz i proj h1
    obtain ⟨hc1, a, b, rfl, hab⟩ := hfc
    simp only [boxFeatVerts] at h3
    have ca := hc1 a (by simp)
    have cb := hc1 b (by simp)
    obtain ⟨xa1, xa2, xa3⟩ := ex' a (by simp)
    obtain ⟨xb1, xb2, xb3⟩ := ex' b (by simp)
    refine ⟨?_, (toWorldSpace a pos orn, toWorldSpace b pos orn), by unfold edgeAt; rw [h3], ⟨a, ca, rfl⟩, ⟨b, cb, rfl⟩, ?_, ?_⟩
    · have loc : ∀ e : V3 ℝ, (d = Quat.rotate orn e → d' = e) ∧ (d = -Quat.rotate orn e → d' = -e) := by
        intro e
        constructor
        · intro h; rw [hd', h, (rotate_conjugate orn ho e).1]
        · intro h; rw [hd', h, rotate_neg, (rotate_conjugate orn ho e).1]
      intro e he
      simp only [List.mem_cons, List.not_mem_nil, or_false] at he
      constructor
      · intro h
        have := (loc e).1 h
        apply nax
        rcases he with rfl | rfl | rfl <;> rw [this] <;> simp [ex, ey, ez]
      · intro h
        have := (loc e).2 h
        apply nax
        rcases he with rfl | rfl | rfl <;> rw [this] <;> simp [ex, ey, ez]
    · have ew : toWorldSpace b pos orn - toWorldSpace a pos orn = Quat.rotate orn (b - a) := by
        unfold toWorldSpace; rw [rotate_sub]; ext <;> simp
      have big : ∀ {m t : ℝ}, 2 * tol ≤ m → (t = m ∨ t = -m) → 4 * tol ≤ |-2 * t| := by
        rintro m t hm (rfl | rfl)
        · rw [abs_mul]; norm_num; rw [abs_of_nonneg (by linarith)]; linarith
        · rw [abs_mul]; norm_num; rw [abs_of_nonneg (by linarith)]; linarith
      have nz : ∀ {m t : ℝ}, 2 * tol ≤ m → (t = m ∨ t = -m) → t ≠ 0 := by
        rintro m t hm (rfl | rfl) h <;> linarith
      simp only [ew]
      rcases hab with ⟨e1, e2, e3⟩ | ⟨e1, e2, e3⟩ | ⟨e1, e2, e3⟩
      · refine ⟨ex, by simp, -2 * a.x, big s1 ca.1, ?_, ?_⟩
        · rw [← rotate_smul]; congr 1; ext <;> simp [ex, e1, e2, e3]; ring
        · rw [axis_x ho, ← hd']
          rw [e1] at xb1
          have : a.x * d'.x = 0 := by linarith
          exact (mul_eq_zero.1 this).resolve_left (nz s1 ca.1)
      · refine ⟨ey, by simp, -2 * a.y, big s2 ca.2.1, ?_, ?_⟩
        · rw [← rotate_smul]; congr 1; ext <;> simp [ey, e1, e2, e3]; ring
        · rw [axis_y ho, ← hd']
          rw [e2] at xb2
          have : a.y * d'.y = 0 := by linarith
          exact (mul_eq_zero.1 this).resolve_left (nz s2 ca.2.1)
      · refine ⟨ez, by simp, -2 * a.z, big s3 ca.2.2, ?_, ?_⟩
        · rw [← rotate_smul]; congr 1; ext <;> simp [ez, e1, e2, e3]; ring
        · rw [axis_z ho, ← hd']
          rw [e3] at xb3
          have : a.z * d'.z = 0 := by linarith
          exact (mul_eq_zero.1 this).resolve_left (nz s3 ca.2.2)
    · rintro w ⟨q, hq, rfl⟩ hl
      have e := lvl q
      unfold toWorldSpace at e
      rw [e] at hl
      obtain ⟨q1, q2, q3⟩ := point_exact hq (by rw [← hpr]; linarith)
      have same : ∀ {t u w : ℝ}, t ≠ 0 → u * t = w * t → u = w := fun ht h => mul_right_cancel₀ ht h
      have fin : ∀ s, 0 ≤ s → s ≤ 1 → q = smul (1 - s) a + smul s b →
          ∃ s, 0 ≤ s ∧ s ≤ 1 ∧ pos + Quat.rotate orn q = smul (1 - s) (toWorldSpace a pos orn) + smul s (toWorldSpace b pos orn) := by
        intro s h0 h1 e
        refine ⟨s, h0, h1, ?_⟩
        rw [e, rotate_add, rotate_smul, rotate_smul]
        unfold toWorldSpace
        ext <;> simp <;> ring
      rcases hab with ⟨e1, e2, e3⟩ | ⟨e1, e2, e3⟩ | ⟨e1, e2, e3⟩
      · have z : d'.x = 0 := by
          rw [e1] at xb1
          have : a.x * d'.x = 0 := by linarith
          rcases mul_eq_zero.1 this with h | h
          · rcases ca.1 with h' | h' <;> linarith
          · exact h
        have y1 : q.y = a.y := same (fun h => nax (.inr (.inr ⟨z, h⟩))) (by linarith)
        have z1 : q.z = a.z := same (fun h => nax (.inr (.inl ⟨z, h⟩))) (by linarith)
        obtain ⟨s, h0, h1, e⟩ := between hp.1 ca.1 hq.1
        refine fin s h0 h1 ?_
        ext
        · simp [e1, e]
        · simp [e2, y1]; ring
        · simp [e3, z1]; ring
      · have z : d'.y = 0 := by
          rw [e2] at xb2
          have : a.y * d'.y = 0 := by linarith
          rcases mul_eq_zero.1 this with h | h
          · rcases ca.2.1 with h' | h' <;> linarith
          · exact h
        have y1 : q.x = a.x := same (fun h => nax (.inr (.inr ⟨h, z⟩))) (by linarith)
        have z1 : q.z = a.z := same (fun h => nax (.inl ⟨z, h⟩)) (by linarith)
        obtain ⟨s, h0, h1, e⟩ := between hp.2.1 ca.2.1 hq.2.1
        refine fin s h0 h1 ?_
        ext
        · simp [e1, y1]; ring
        · simp [e2, e]
        · simp [e3, z1]; ring
      · have z : d'.z = 0 := by
          rw [e3] at xb3
          have : a.z * d'.z = 0 := by linarith
          rcases mul_eq_zero.1 this with h | h
          · rcases ca.2.2 with h' | h' <;> linarith
          · exact h
        have y1 : q.x = a.x := same (fun h => nax (.inr (.inl ⟨h, z⟩))) (by linarith)
        have z1 : q.y = a.y := same (fun h => nax (.inl ⟨h, z⟩)) (by linarith)
        obtain ⟨s, h0, h1, e⟩ := between hp.2.2 ca.2.2 hq.2.2
        refine fin s h0 h1 ?_
        ext
        · simp [e1, y1]; ring
        · simp [e2, z1]; ring
        · simp [e3, e]
  | face =>
    simp only at hi
    obtain ⟨F, f1, f2, ⟨vs', f3, f4⟩, f5⟩ := faceAt_spec hp hi pos ho
    simp only [boxFeatVerts] at h3
    rw [f3] at h3
    cases h3
    have lv : ∀ v ∈ F.verts, dot v d = proj + dot pos d := by
      intro v hv
      rw [f4] at hv
      obtain ⟨u, hu, rfl⟩ := List.mem_map.1 hv
      exact ex2 u hu
    have hproj : IsProjection (Placed (boxSet h) pos orn) d (proj + dot pos d) := by
      obtain ⟨⟨q, hq, e⟩, hm⟩ := h2
      refine ⟨⟨toWorldSpace q pos orn, ⟨q, hq, rfl⟩, by rw [lvl, e]⟩, ?_⟩
      rintro w ⟨q, hq, rfl⟩
      have := hm q hq
      have e := lvl q
      unfold toWorldSpace at e
      rw [e]; linarith
    refine ⟨F, f1, f2, ?_, ?_, lv, ?_, ?_, faceAt_axes hi f1⟩
    · have fl := f2.level (tol := 0) hproj (fun v hv => by rw [lv v hv]; linarith)
      have ax := fl.ax
      have px := f2.px
      have pz := f2.pz
      have x0 : dot F.x d = 0 := by
        apply abs_eq_zero.1
        have a := abs_nonneg (dot F.x d)
        have b := abs_nonneg (dot F.z d)
        nlinarith [mul_nonneg b pz.le]
      have z0 : dot F.z d = 0 := by
        apply abs_eq_zero.1
        have a := abs_nonneg (dot F.x d)
        have b := abs_nonneg (dot F.z d)
        nlinarith [mul_nonneg a px.le]
      have e := f2.parseval d d
      rw [dot_comm d F.x, dot_comm d F.z, x0, z0, show dot d d = 1 from hd] at e
      have cl : dot F.center d = proj + dot pos d := by
        have := fl.center
        rw [x0, z0] at this
        simp only [abs_zero, zero_mul, add_zero, sub_zero, zero_div] at this
        have := abs_eq_zero.1 (le_antisymm this (abs_nonneg _))
        linarith
      have pos1 : 0 ≤ dot F.normal d := by
        obtain ⟨hy, y0, hb⟩ := f2.box
        have un : dot F.normal F.normal = 1 := f2.un
        have hin : Placed (boxSet h) pos orn (F.center - smul hy F.normal) := by
          rw [hb, show F.center - smul hy F.normal - F.center = smul (-hy) F.normal by ext <;> simp]
          simp only [dot_smul_left, un, dot_comm F.normal F.x, dot_comm F.normal F.z, f2.xn, f2.zn, mul_zero, abs_zero]
          exact ⟨px.le, pz.le, by linarith, by linarith⟩
        have := hproj.2 _ hin
        rw [dot_sub_left, dot_smul_left, cl] at this
        nlinarith
      rw [dot_comm d F.normal] at e
      have one : dot F.normal d = 1 := by nlinarith
      have un : dot F.normal F.normal = 1 := f2.un
      have len : lengthSqr (F.normal - d) = 0 := by
        have dd : dot d d = 1 := hd
        unfold lengthSqr
        rw [dot_sub_left, dot_comm F.normal (F.normal - d), dot_comm d (F.normal - d), dot_sub_left, dot_sub_left, un, dd, one,
          dot_comm d F.normal, one]; ring
      by_contra hne
      refine lengthSqr_ne (v := F.normal - d) (fun h0 => hne ?_) len
      have hx := congrArg V3.x h0; have hy := congrArg V3.y h0; have hz := congrArg V3.z h0
      simp only [V3.sub_x, V3.sub_y, V3.sub_z, V3.zero_x, V3.zero_y, V3.zero_z] at hx hy hz
      ext <;> linarith
    · intro v hv
      rw [f4] at hv
      obtain ⟨u, hu, rfl⟩ := List.mem_map.1 hv
      exact ⟨u, (h5 u hu).1, rfl⟩
    all_goals
      unfold boxFaceHalf at f5
      split_ifs at f5 <;> (obtain ⟨a, b⟩ := Prod.mk.inj f5; first | (rw [← a]; assumption) | (rw [← b]; assumption))

end Edyn.Collide
