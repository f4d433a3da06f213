import Verif.Collide.CapsuleBox
import Verif.Collide.BoxLevel

/-!
# Contact points of a capsule and a box (C101)

The rest of `collide` for a capsule and a box, `src/edyn/collision/collide/collide_capsule_box.cpp` 80-215.  `tol` is
`support_feature_tolerance`.
-/

namespace Edyn.Collide

open Edyn.Math hiding lengthSqr_nonneg
open V3 Edyn.Geom Edyn.Contact

/-! ## Model -/

open Classical in
/-- The points, `collide_capsule_box.cpp` 84-209, for given positions, distance and direction, with an empty result.
`projection_box` is the projection of the box along the direction in all passes (`ext1_axis`).  `none`: an assertion fails or
an index is out of range, or `closest_point_line` fails, which leaves `pivotB_world` uninitialised. -/
noncomputable def capBoxPoints (eps tol r hl : ℝ) (a : Axis) (h : V3 ℝ) (c : Ctx) (x : ℝ × V3 ℝ) : Res :=
  let v0 := capVertex0 hl a c.posA c.ornA
  let v1 := capVertex1 hl a c.posA c.ornA
  let n := x.2
  let origin := smul (boxProjection h c.posB c.ornB n) n
  (boxSupportFeatureAt h c.posB c.ornB origin n tol).bind fun f =>
  let low := if dot v0 n < dot v1 n then v0 else v1
  let fA : Feat := if |dot v0 n - dot v1 n| < tol then ⟨.capSide, some 0⟩ else ⟨.capHemisphere, some (if dot v0 n < dot v1 n then 0 else 1)⟩
  let pt (att : Att) (pA pB : V3 ℝ) : Point :=
    ⟨toObjectSpace pA c.posA c.ornA, toObjectSpace pB c.posB c.ornB, n, x.1, att, some fA, some ⟨boxKind f.1, some f.2.1⟩⟩
  match f.1 with
  | .face =>
    (faceAt h f.2.1 c.posB c.ornB).bind fun F =>
    if |dot v0 n - dot v1 n| < tol then
      (addInside eps addPoint { F with normal := n } (fun v => pt .onB (v - smul r n) (projectPlane v origin n)) [v0, v1] []).bind fun l =>
      if l.length = 2 then some l
      else addCross eps addPoint F (fun q => pt .onB (q - smul r n) (projectPlane q F.center n)) v0 v1 l
    else addPoint [] (pt .onB (low - smul r n) (projectPlane (low - smul r n) origin n))
  | .edge =>
    (edgeAt h f.2.1 c.posB c.ornB).bind fun e =>
    if |dot v0 n - dot v1 n| < tol then edgeEdge eps (v0, v1) e fun p q => pt .none (p - smul r n) q
    else (closestLine eps e.1 (e.2 - e.1) low).bind fun q => addPoint [] (pt .none (low - smul r n) q.q)
  | .vertex =>
    (boxVertex h f.2.1).bind fun v =>
    addPoint [] { pt .none (toWorldSpace v c.posB c.ornB + smul x.1 n) 0 with pB := v }

open Classical in
/-- `collide` of a capsule and a box, `collide_capsule_box.cpp` 14-210, with an empty result. -/
noncomputable def capsuleBox (eps tiny tol r hl : ℝ) (a : Axis) (h : V3 ℝ) (c : Ctx) : Res :=
  (capBoxAxis eps tiny r hl a h c).bind fun x =>
  if c.thr < x.1 then some [] else capBoxPoints eps tol r hl a h c.fromA x

/-- The same with the shapes in the other order, `collide_capsule_box.cpp` 212-215. -/
noncomputable def boxCapsule (eps tiny tol r hl : ℝ) (h : V3 ℝ) (a : Axis) : Ctx → Res := swapCollide (capsuleBox eps tiny tol r hl a h)

/-! ## Specification -/

/-- What the pivots of a point are, for the axis `K` of the capsule and the box `B`.  Either the first pivot is a point of
the axis, lowest along `n` within the tolerance, moved to the surface of the capsule, and the second one is opposite to it
and within the tolerance of the highest points of the box, which has a face there; or the second one is on the line of an
edge of the box of that kind; or the second one is a highest corner of the box and the first one is opposite to it at the
given distance. -/
def CapBoxPivots (tol r : ℝ) (K B : V3 ℝ → Prop) (n : V3 ℝ) (x : ℝ) (att : Att) (wA wB : V3 ℝ) : Prop :=
  (att = .onB ∧ (∃ k s, K k ∧ (∀ k', K k' → dot k n < dot k' n + tol) ∧ wA = k - smul r n ∧ wB = wA + smul s n) ∧
    (∀ b, B b → dot b n ≤ dot wB n + tol) ∧ ∃ b, B b ∧ dot wB n ≤ dot b n) ∨
  (att = .none ∧ (∃ k, K k ∧ (∀ k', K k' → dot k n < dot k' n + tol) ∧ wA = k - smul r n) ∧
    ∃ e0 e1 t, B e0 ∧ B e1 ∧ (∀ b, B b → dot b n ≤ dot e0 n + tol) ∧ (∀ b, B b → dot b n ≤ dot e1 n + tol) ∧
      wB = e0 + smul t (e1 - e0)) ∨
  (att = .none ∧ B wB ∧ (∀ b, B b → dot b n ≤ dot wB n) ∧ wA = wB + smul x n)

/-- A point of the result. -/
def CapBoxGood (tol r hl : ℝ) (a : Axis) (h : V3 ℝ) (c : Ctx) (n : V3 ℝ) (x : ℝ) (p : Point) : Prop :=
  p.n = n ∧ p.dist = x ∧ CapBoxPivots tol r (c.axisA hl a) (c.boxB h) n x p.att (c.wA p) (c.wB p)

/-- The full statement, which is not proved: the call is defined, there are points exactly when the shapes are within the
threshold, all of them with the unit normal and the distance along which the shapes are apart, and as many as four, and the
second pivot is always within the tolerance of a point of the box. -/
def CapsuleBoxFull (eps tiny tol : ℝ) : Prop :=
  ∀ (r hl : ℝ) (a : Axis) (h : V3 ℝ) (c : Ctx), 0 ≤ r → 0 < hl → Sized tol h → c.Ok →
    ∃ l n dist, capsuleBox eps tiny tol r hl a h c = some l ∧ lengthSqr n = 1 ∧ GapAlong (c.capA r hl a) (c.boxB h) n dist ∧
      l.length ≤ 4 ∧ (l ≠ [] ↔ Near (c.capA r hl a) (c.boxB h) c.thr) ∧
      ∀ p ∈ l, CapBoxGood tol r hl a h c n dist p ∧ ∃ b, c.boxB h b ∧ lengthSqr (c.wB p - b) ≤ tol * tol

/-! ## The points -/

/-- One of the ends of the axis is lowest, and all its points are nearly so if it lies flat. -/
theorem axis_low {v0 v1 n : V3 ℝ} {tol : ℝ} (ht : 0 < tol) :
    (∀ k', segSet v0 v1 k' → dot (if dot v0 n < dot v1 n then v0 else v1) n < dot k' n + tol) ∧
    (|dot v0 n - dot v1 n| < tol → ∀ k k', segSet v0 v1 k → segSet v0 v1 k' → dot k n < dot k' n + tol) := by
  have e : ∀ t : ℝ, dot (v0 + smul t (v1 - v0)) n = dot v0 n + t * (dot v1 n - dot v0 n) := by
    intro t; simp only [dot_add_left, dot_smul_left, dot_sub_left]
  constructor
  · rintro _ ⟨t, t0, t1, rfl⟩
    rw [e]
    split_ifs with h <;> nlinarith
  · rintro hf _ _ ⟨t, t0, t1, rfl⟩ ⟨s, s0, s1, rfl⟩
    rw [e, e]
    rw [abs_lt] at hf
    generalize dot v0 n = p at *
    generalize dot v1 n = q at *
    rcases le_total q p with h | h
    · nlinarith
    · nlinarith

theorem plane_height {n : V3 ℝ} (hn : lengthSqr n = 1) (p q : V3 ℝ) : dot (projectPlane p q n) n = dot q n := by
  unfold projectPlane
  rw [dot_sub_left, dot_smul_left, show dot n n = 1 from hn, dot_sub_left]; ring

theorem prism_some (eps : ℝ) (F : FaceAt) (n p : V3 ℝ) : ∃ Q, pointInPrism eps F.verts n p = some Q := by
  unfold pointInPrism
  rw [if_pos (by simp [FaceAt.verts])]
  exact ⟨_, rfl⟩

open Classical in
theorem inside_any {eps : ℝ} {F : FaceAt} {P : Point → Prop} {mk : V3 ℝ → Point} {vs : List (V3 ℝ)} (hP : ∀ v ∈ vs, P (mk v))
    (hl : vs.length ≤ 4) : ∃ l', addInside eps addPoint F mk vs [] = some l' ∧ l'.length ≤ vs.length ∧ ∀ q ∈ l', P q := by
  unfold addInside
  obtain ⟨l', h1, h2, h3, -⟩ := fold_count
    (fun l v => (pointInPrism eps F.verts F.normal v).bind fun P => if P then addPoint l (mk v) else some l)
    P (fun _ => False) vs (by
      intro b b1 b2 v hv
      obtain ⟨Q, e⟩ := prism_some eps F F.normal v
      simp only [e, Option.bind_some]
      by_cases hq : Q
      · rw [if_pos hq]
        obtain ⟨l', m0, m1, m2, m3⟩ := addPoint_spec P b (mk v) b1 b2 (hP v hv)
        exact ⟨l', m0, m1, m2, fun _ => m3, fun _ => m3⟩
      · rw [if_neg hq]
        exact ⟨b, rfl, by omega, b2, id, fun hT => absurd hT id⟩) [] (by simpa using hl) (by simp)
  exact ⟨l', h1, by simpa using h2, h3⟩

/-- The points, with given positions. -/
theorem capBoxPoints_spec {eps tol r hl : ℝ} (he : 0 ≤ eps) (ht : 0 < tol) (h16 : eps < 16 * (tol * tol)) (hh : 0 < hl) (h4 : eps < 4 * hl * hl)
    (a : Axis) {h : V3 ℝ} (hs : Sized tol h) {c : Ctx} (hc : c.Ok) {x : ℝ × V3 ℝ} (hn : lengthSqr x.2 = 1) :
    ∃ l, capBoxPoints eps tol r hl a h c x = some l ∧ l.length ≤ 4 ∧ (∀ p ∈ l, CapBoxGood tol r hl a h c x.2 x.1 p) ∧
      (tol ≤ |dot (capVertex0 hl a c.posA c.ornA - capVertex1 hl a c.posA c.ornA) x.2| → l ≠ []) := by
  obtain ⟨dist, n⟩ := x
  simp only at hn
  have hp : PosExt h := ⟨by linarith [hs.1], by linarith [hs.2.1], by linarith [hs.2.2]⟩
  obtain ⟨-, ⟨bm, hbm, ebm⟩, hB⟩ := box_support_spec h c.posB hp.1.le hp.2.1.le hp.2.2.le c.ornB hc.2.1 n
  obtain ⟨k, i, proj, f1, f2, f3, -⟩ := feature_of ht hs c.posB hc.2.1 n
  have hproj : proj = boxProjection h c.posB c.ornB n := by
    obtain ⟨⟨b, hb, eb⟩, hb'⟩ := f2
    have h1 := hB b hb
    have h2 := hb' bm hbm
    linarith
  have hfeat : ∃ d, boxSupportFeatureAt h c.posB c.ornB (smul (boxProjection h c.posB c.ornB n) n) n tol = some (k, i, d) := by
    unfold boxSupportFeatureAt at f1 ⊢
    cases e : boxSupportFeature h (Quat.rotate c.ornB.conjugate n) tol with
    | none => rw [e] at f1; simp at f1
    | some q =>
      rw [e] at f1
      simp only [Option.map_some, Option.some.injEq, Prod.mk.injEq] at f1 ⊢
      exact ⟨_, f1.1, f1.2.1, rfl⟩
  obtain ⟨d, hfeat⟩ := hfeat
  rw [hproj] at f3
  have horg : dot (smul (boxProjection h c.posB c.ornB n) n) n = boxProjection h c.posB c.ornB n := by
    rw [dot_smul_left, show dot n n = 1 from hn, mul_one]
  unfold capBoxPoints
  simp only [hfeat, Option.bind_some]
  have hlen := cap_length hl a c.posA hc.1
  obtain ⟨lowest, flat⟩ := axis_low (v0 := capVertex0 hl a c.posA c.ornA) (v1 := capVertex1 hl a c.posA c.ornA) (n := n) ht
  have in0 : c.axisA hl a (capVertex0 hl a c.posA c.ornA) := ⟨0, le_rfl, zero_le_one, by ext <;> simp⟩
  have in1 : c.axisA hl a (capVertex1 hl a c.posA c.ornA) := ⟨1, zero_le_one, le_rfl, by ext <;> simp⟩
  have hflat : ∀ k, |dot (capVertex0 hl a c.posA c.ornA) n - dot (capVertex1 hl a c.posA c.ornA) n| < tol → c.axisA hl a k →
      ∀ k', c.axisA hl a k' → dot k n < dot k' n + tol := fun k hf hk k' hk' => flat hf k k' hk hk'
  have hlow : ∀ k', c.axisA hl a k' → dot (if dot (capVertex0 hl a c.posA c.ornA) n < dot (capVertex1 hl a c.posA c.ornA) n then
      capVertex0 hl a c.posA c.ornA else capVertex1 hl a c.posA c.ornA) n < dot k' n + tol := lowest
  have inlow : c.axisA hl a (if dot (capVertex0 hl a c.posA c.ornA) n < dot (capVertex1 hl a c.posA c.ornA) n then
      capVertex0 hl a c.posA c.ornA else capVertex1 hl a c.posA c.ornA) := by split_ifs <;> assumption
  have hlerp : ∀ s : ℝ, 0 ≤ s → s ≤ 1 → c.axisA hl a (smul (1 - s) (capVertex0 hl a c.posA c.ornA) + smul s (capVertex1 hl a c.posA c.ornA)) :=
    fun s s0 s1 => ⟨s, s0, s1, by ext <;> simp <;> ring⟩
  rw [dot_sub_left]
  have hax : c.axisA hl a = segSet (capVertex0 hl a c.posA c.ornA) (capVertex1 hl a c.posA c.ornA) := rfl
  generalize (if dot (capVertex0 hl a c.posA c.ornA) n < dot (capVertex1 hl a c.posA c.ornA) n then
      capVertex0 hl a c.posA c.ornA else capVertex1 hl a c.posA c.ornA) = low at *
  generalize capVertex0 hl a c.posA c.ornA = v0 at *
  generalize capVertex1 hl a c.posA c.ornA = v1 at *
  generalize (if |dot v0 n - dot v1 n| < tol then (⟨.capSide, some 0⟩ : Feat) else
    ⟨.capHemisphere, some (if dot v0 n < dot v1 n then 0 else 1)⟩) = fA
  have onFace : ∀ K O q, c.axisA hl a K → (∀ k', c.axisA hl a k' → dot K n < dot k' n + tol) →
      boxProjection h c.posB c.ornB n - tol ≤ dot O n → dot O n ≤ boxProjection h c.posB c.ornB n → (∃ s, q = K + smul s n) →
      CapBoxGood tol r hl a h c n dist ⟨toObjectSpace (K - smul r n) c.posA c.ornA, toObjectSpace (projectPlane q O n) c.posB c.ornB, n, dist, .onB,
        some fA, some ⟨boxKind k, some i⟩⟩ := by
    rintro K O q hK hK' o1 o2 ⟨s, rfl⟩
    refine ⟨rfl, rfl, .inl ⟨rfl, ⟨K, s - dot (K + smul s n - O) n + r, hK, hK', ?_, ?_⟩, ?_, ?_⟩⟩
    · unfold Ctx.wA; rw [world_object _ _ hc.1]
    · unfold Ctx.wA Ctx.wB; rw [world_object _ _ hc.1, world_object _ _ hc.2.1]; unfold projectPlane; ext <;> simp <;> ring
    · intro b hb
      unfold Ctx.wB; rw [world_object _ _ hc.2.1, plane_height hn]
      linarith [hB b hb]
    · exact ⟨bm, hbm, by unfold Ctx.wB; rw [world_object _ _ hc.2.1, plane_height hn, ebm]; exact o2⟩
  cases k with
  | face =>
    obtain ⟨F, F1, F2, F3, -⟩ := f3
    simp only [F1, Option.bind_some]
    by_cases hf : |dot v0 n - dot v1 n| < tol
    · simp only [if_pos hf]
      obtain ⟨l, l1, l2, l3⟩ := inside_any (eps := eps) (F := { F with normal := n }) (P := CapBoxGood tol r hl a h c n dist)
        (mk := fun v => ⟨toObjectSpace (v - smul r n) c.posA c.ornA, toObjectSpace (projectPlane v (smul (boxProjection h c.posB c.ornB n) n) n) c.posB c.ornB,
          n, dist, .onB, some fA, some ⟨boxKind .face, some i⟩⟩) (vs := [v0, v1]) (by
          intro v hv
          have hv' : c.axisA hl a v := by
            simp only [List.mem_cons, List.not_mem_nil, or_false] at hv
            rcases hv with rfl | rfl <;> assumption
          exact onFace v _ v hv' (hflat v hf hv') (by rw [horg]; linarith) (by rw [horg]) ⟨0, by ext <;> simp⟩) (by simp)
      simp only [l1, Option.bind_some]
      simp only [List.length_cons, List.length_nil] at l2
      have no : tol ≤ |dot v0 n - dot v1 n| → False := fun h => absurd hf (not_lt.2 h)
      by_cases h2 : l.length = 2
      · rw [if_pos h2]
        exact ⟨l, rfl, by omega, l3, fun h => (no h).elim⟩
      · rw [if_neg h2]
        have hcen : boxProjection h c.posB c.ornB n - tol ≤ dot F.center n ∧ dot F.center n ≤ boxProjection h c.posB c.ornB n := by
          have q1 := F2.mem_verts 1 1 (.inl rfl) (.inl rfl)
          have q2 := F2.mem_verts (-1) (-1) (.inr rfl) (.inr rfl)
          have h1 := F3 _ q1
          have h2' := F3 _ q2
          have h3 := hB _ (F2.verts_in q1)
          have h4' := hB _ (F2.verts_in q2)
          simp only [dot_add_left, dot_smul_left] at h1 h2' h3 h4'
          constructor <;> linarith
        obtain ⟨l', m0, m1, m2, -⟩ := cross_add (eps := eps) (F := F) (P := CapBoxGood tol r hl a h c n dist)
          (mk := fun q => ⟨toObjectSpace (q - smul r n) c.posA c.ornA, toObjectSpace (projectPlane q F.center n) c.posB c.ornB,
            n, dist, .onB, some fA, some ⟨boxKind .face, some i⟩⟩) (e0 := v0) (e1 := v1) (by
            rintro s ⟨-, s0, s1⟩
            exact onFace _ _ _ (hlerp s s0 s1) (hflat _ hf (hlerp s s0 s1)) hcen.1 hcen.2 ⟨0, by ext <;> simp⟩) (l := l) (by omega) l3
        exact ⟨l', m0, m1, m2, fun h => (no h).elim⟩
    · simp only [if_neg hf]
      refine ⟨_, rfl, by simp, ?_, fun _ => by simp⟩
      intro p hp'
      simp only [List.nil_append, List.mem_singleton] at hp'
      rw [hp']
      exact onFace low _ _ inlow hlow (by rw [horg]; linarith) (by rw [horg]) ⟨-r, by ext <;> simp <;> ring⟩
  | edge =>
    obtain ⟨e, e1, e2, e3, e4, e5, e6⟩ := f3
    simp only [e1, Option.bind_some]
    have onEdge : ∀ K t, c.axisA hl a K → (∀ k', c.axisA hl a k' → dot K n < dot k' n + tol) →
        CapBoxGood tol r hl a h c n dist ⟨toObjectSpace (K - smul r n) c.posA c.ornA, toObjectSpace (e.1 + smul t (e.2 - e.1)) c.posB c.ornB, n, dist, .none,
          some fA, some ⟨boxKind .edge, some i⟩⟩ := by
      intro K t hK hK'
      refine ⟨rfl, rfl, .inr (.inl ⟨rfl, ⟨K, hK, hK', ?_⟩, e.1, e.2, t, e2, e3, ?_, ?_, ?_⟩)⟩
      · unfold Ctx.wA; rw [world_object _ _ hc.1]
      · intro b hb; linarith [hB b hb]
      · intro b hb; linarith [hB b hb]
      · unfold Ctx.wB; rw [world_object _ _ hc.2.1]
    by_cases hf : |dot v0 n - dot v1 n| < tol
    · simp only [if_pos hf]
      obtain ⟨l, l1, l2, l3, l4⟩ := edgeEdge_spec (eps := eps) (a := (v0, v1)) (b := e) (by rw [hlen]; exact h4) (by linarith) he
        (mk := fun p q => ⟨toObjectSpace (p - smul r n) c.posA c.ornA, toObjectSpace q c.posB c.ornB, n, dist, .none,
          some fA, some ⟨boxKind .edge, some i⟩⟩) (P := CapBoxGood tol r hl a h c n dist) (by
          rintro p _ hp' ⟨t, -, -, rfl⟩
          have hK : c.axisA hl a p := by rw [hax]; exact hp'
          exact onEdge p t hK (hflat p hf hK))
      exact ⟨l, l1, l2, l3, fun _ => l4⟩
    · simp only [if_neg hf]
      obtain ⟨q, q1, q2, -⟩ := closest_line_spec eps he e.1 (e.2 - e.1) low (by linarith)
      simp only [q1, Option.bind_some]
      refine ⟨_, rfl, by simp, ?_, fun _ => by simp⟩
      intro p hp'
      simp only [List.nil_append, List.mem_singleton] at hp'
      rw [hp', q2]
      exact onEdge low _ inlow hlow
  | vertex =>
    obtain ⟨v, w1, w2, w3⟩ := f3
    simp only [w1, Option.bind_some]
    refine ⟨_, rfl, by simp, ?_, fun _ => by simp⟩
    intro p hp'
    simp only [List.nil_append, List.mem_singleton] at hp'
    rw [hp']
    refine ⟨rfl, rfl, .inr (.inr ⟨rfl, w2, ?_, ?_⟩)⟩
    · intro b hb
      have := hB b hb
      unfold Ctx.wB; simp only; rw [w3]; exact this
    · unfold Ctx.wA Ctx.wB; rw [world_object _ _ hc.1]

/-! ## No point is forgotten -/

open Classical in
theorem inside_all {eps : ℝ} {F : FaceAt} {mk : V3 ℝ → Point} {vs : List (V3 ℝ)} {l l' : List Point}
    (h : addInside eps addPoint F mk vs l = some l') :
    (∀ q ∈ l, q ∈ l') ∧ ∀ v ∈ vs, ∀ Q, pointInPrism eps F.verts F.normal v = some Q → Q → mk v ∈ l' := by
  unfold addInside at h
  induction vs generalizing l with
  | nil =>
    simp only [List.foldlM_nil, Option.pure_def, Option.some.injEq] at h
    subst h
    exact ⟨fun _ h => h, by simp⟩
  | cons v vs ih =>
    rw [List.foldlM_cons] at h
    obtain ⟨Q, e⟩ := prism_some eps F F.normal v
    simp only [e, Option.bind_some] at h
    by_cases hq : Q
    · simp only [if_pos hq, addPoint] at h
      by_cases hl : l.length < 4
      · rw [if_pos hl] at h
        obtain ⟨h1, h2⟩ := ih h
        refine ⟨fun q hq' => h1 q (List.mem_append_left _ hq'), fun w hw Q' hQ hq' => ?_⟩
        rcases List.mem_cons.1 hw with rfl | hw
        · exact h1 _ (by simp)
        · exact h2 w hw Q' hQ hq'
      · rw [if_neg hl] at h; simp at h
    · simp only [if_neg hq] at h
      obtain ⟨h1, h2⟩ := ih h
      refine ⟨h1, fun w hw Q' hQ hq' => ?_⟩
      rcases List.mem_cons.1 hw with rfl | hw
      · rw [e] at hQ
        simp only [Option.some.injEq] at hQ
        rw [← hQ] at hq'
        exact absurd hq' hq
      · exact h2 w hw Q' hQ hq'

theorem cross_all {eps : ℝ} {F : FaceAt} {mk : V3 ℝ → Point} {e0 e1 : V3 ℝ} {l l' : List Point}
    (h : addCross eps addPoint F mk e0 e1 l = some l') :
    (∀ q ∈ l, q ∈ l') ∧ ∀ s, F.Cut eps e0 e1 s → mk (smul (1 - s) e0 + smul s e1) ∈ l' := by
  unfold FaceAt.Cut FaceAt.cuts
  unfold addCross at h
  generalize lineAabb eps (F.flat e0) (F.flat e1) ⟨-F.hx, -F.hz⟩ ⟨F.hx, F.hz⟩ = ss at *
  induction ss generalizing l with
  | nil =>
    simp only [List.foldlM_nil, Option.pure_def, Option.some.injEq] at h
    subst h
    exact ⟨fun _ h => h, by simp⟩
  | cons t ss ih =>
    rw [List.foldlM_cons] at h
    by_cases ht : t < 0 ∨ 1 < t
    · simp only [if_pos ht] at h
      obtain ⟨h1, h2⟩ := ih h
      refine ⟨h1, fun s ⟨hs, s0, s1⟩ => ?_⟩
      rcases List.mem_cons.1 hs with rfl | hs
      · rcases ht with ht | ht <;> linarith
      · exact h2 s ⟨hs, s0, s1⟩
    · simp only [if_neg ht, addPoint] at h
      by_cases hl : l.length < 4
      · rw [if_pos hl] at h
        obtain ⟨h1, h2⟩ := ih h
        refine ⟨fun q hq' => h1 q (List.mem_append_left _ hq'), fun s ⟨hs, s0, s1⟩ => ?_⟩
        rcases List.mem_cons.1 hs with rfl | hs
        · exact h1 _ (by simp)
        · exact h2 s ⟨hs, s0, s1⟩
      · rw [if_neg hl] at h; simp at h

/-- **C101, a capsule that lies flat.** If the feature of the box is a face, then each end of the axis over the face has its
point, and unless there are two points already so has each crossing of the axis with the border of the face.  If it is an
edge then there is a point. -/
theorem capsule_box_flat {eps tol r hl : ℝ} (he : 0 ≤ eps) (ht : 0 < tol) (h16 : eps < 16 * (tol * tol)) (hh : 0 < hl) (h4 : eps < 4 * hl * hl)
    (a : Axis) {h : V3 ℝ} (hs : Sized tol h) {c : Ctx} (hc : c.Ok) {dist : ℝ} {n : V3 ℝ}
    (hf : |dot (capVertex0 hl a c.posA c.ornA) n - dot (capVertex1 hl a c.posA c.ornA) n| < tol) {l : List Point}
    (hL : capBoxPoints eps tol r hl a h c (dist, n) = some l) :
    (∀ i d F, boxSupportFeatureAt h c.posB c.ornB (smul (boxProjection h c.posB c.ornB n) n) n tol = some (.face, i, d) →
      faceAt h i c.posB c.ornB = some F →
      (∀ v ∈ [capVertex0 hl a c.posA c.ornA, capVertex1 hl a c.posA c.ornA], ∀ Q, pointInPrism eps F.verts n v = some Q → Q →
        ∃ p ∈ l, c.wA p = v - smul r n) ∧
      (l.length = 2 ∨ ∀ s, F.Cut eps (capVertex0 hl a c.posA c.ornA) (capVertex1 hl a c.posA c.ornA) s →
        ∃ p ∈ l, c.wA p = smul (1 - s) (capVertex0 hl a c.posA c.ornA) + smul s (capVertex1 hl a c.posA c.ornA) - smul r n)) ∧
    ∀ i d, boxSupportFeatureAt h c.posB c.ornB (smul (boxProjection h c.posB c.ornB n) n) n tol = some (.edge, i, d) → l ≠ [] := by
  constructor
  · intro i d F hi hF
    unfold capBoxPoints at hL
    simp only [hi, Option.bind_some, hF, if_pos hf] at hL
    generalize hm : addInside _ _ _ _ _ _ = m at hL
    cases m with
    | none => simp at hL
    | some l1 =>
      obtain ⟨-, m2⟩ := inside_all hm
      simp only [Option.bind_some] at hL
      by_cases h2 : l1.length = 2
      · rw [if_pos h2] at hL
        simp only [Option.some.injEq] at hL
        subst hL
        refine ⟨fun v hv Q hQ hq => ⟨_, m2 v hv Q hQ hq, ?_⟩, .inl h2⟩
        unfold Ctx.wA; rw [world_object _ _ hc.1]
      · rw [if_neg h2] at hL
        obtain ⟨k1, k2⟩ := cross_all hL
        refine ⟨fun v hv Q hQ hq => ⟨_, k1 _ (m2 v hv Q hQ hq), ?_⟩, .inr fun s hs' => ⟨_, k2 s hs', ?_⟩⟩
        · unfold Ctx.wA; rw [world_object _ _ hc.1]
        · unfold Ctx.wA; rw [world_object _ _ hc.1]
  · intro i d hi
    obtain ⟨k, j, proj, f1, -, f3, -⟩ := feature_of ht hs c.posB hc.2.1 n
    have hk : k = .edge ∧ j = i := by
      unfold boxSupportFeatureAt at f1 hi
      cases e : boxSupportFeature h (Quat.rotate c.ornB.conjugate n) tol with
      | none => rw [e] at f1; simp at f1
      | some q =>
        rw [e] at f1 hi
        simp only [Option.map_some, Option.some.injEq, Prod.mk.injEq] at f1 hi
        exact ⟨f1.1.symm.trans hi.1, f1.2.1.symm.trans hi.2.1⟩
    obtain ⟨rfl, rfl⟩ := hk
    obtain ⟨e, e1, -, -, -, -, e6⟩ := f3
    unfold capBoxPoints at hL
    simp only [hi, Option.bind_some, e1, if_pos hf] at hL
    obtain ⟨l', l1, -, -, l4⟩ := edgeEdge_spec (eps := eps) (a := (capVertex0 _ a c.posA c.ornA, capVertex1 _ a c.posA c.ornA)) (b := e)
      (by rw [cap_length _ a c.posA hc.1]; exact h4) (by linarith) he (P := fun _ => True) (mk := _) (fun _ _ _ _ => trivial)
    rw [l1] at hL
    simp only [Option.some.injEq] at hL
    rw [← hL]; exact l4

example : |dot (capVertex0 1 .x capAboveCube.posA capAboveCube.ornA) (⟨0, 1, 0⟩ : V3 ℝ) -
      dot (capVertex1 1 .x capAboveCube.posA capAboveCube.ornA) (⟨0, 1, 0⟩ : V3 ℝ)| < 0.005 ∧
    ∃ i d, boxSupportFeatureAt ⟨1, 1, 1⟩ capAboveCube.posB capAboveCube.ornB
      (smul (boxProjection ⟨1, 1, 1⟩ capAboveCube.posB capAboveCube.ornB ⟨0, 1, 0⟩) ⟨0, 1, 0⟩) (⟨0, 1, 0⟩ : V3 ℝ) (0.005 : ℝ) = some (.face, i, d) := by
  refine ⟨by norm_num [capVertex0, capVertex1, capAboveCube, Quat.rotate, Axis.vec, ex, dot], ?_⟩
  have hq : Quat.rotate capAboveCube.ornB.conjugate (⟨0, 1, 0⟩ : V3 ℝ) = ⟨0, 1, 0⟩ := by
    ext <;> norm_num [capAboveCube, Quat.rotate, Quat.conjugate]
  unfold boxSupportFeatureAt
  rw [hq]
  have hf : boxSupportFace (⟨0, 1, 0⟩ : V3 ℝ) = 2 := by norm_num [boxSupportFace]
  have hb : boxBest (fun _ => (1 : ℝ)) = 0 := by simp [boxBest]
  have hp : boxSelect (fun _ => (1 : ℝ)) (0.005 : ℝ) = .face := by
    have h3 : (3 : Fin 4) ≠ 0 := by decide
    have h2 : (2 : Fin 4) ≠ 0 := by decide
    unfold boxSelect
    rw [hb]
    norm_num [List.filter, h2, h3]
  have b0 : boxFaceVertex 2 0 = some 0 := rfl
  have b1 : boxFaceVertex 2 1 = some 3 := rfl
  have b2 : boxFaceVertex 2 2 = some 5 := rfl
  have b3 : boxFaceVertex 2 3 = some 4 := rfl
  have hv : (![1, 1, 1, 1] : Fin 4 → ℝ) = fun _ => 1 := by funext i; fin_cases i <;> rfl
  simp only [boxSupportFeature, hf, b0, b1, b2, b3, boxVertex, Option.bind_some, dot, mul_zero, mul_one, zero_add, add_zero, hv, hp]
  exact ⟨_, _, rfl⟩

/-! ## The theorem -/

theorem pivots_shift {tol r : ℝ} {K B K' B' : V3 ℝ → Prop} {v n : V3 ℝ} {x : ℝ} {att : Att} {wA wB : V3 ℝ} (hK : ∀ w, K' (w - v) ↔ K w)
    (hB : ∀ w, B' (w - v) ↔ B w) (h : CapBoxPivots tol r K' B' n x att wA wB) : CapBoxPivots tol r K B n x att (wA + v) (wB + v) := by
  have K1 : ∀ w, K' w → K (w + v) := fun w hw => by rw [← hK, back_v]; exact hw
  have B1 : ∀ w, B' w → B (w + v) := fun w hw => by rw [← hB, back_v]; exact hw
  have e : ∀ w, dot (w - v) n = dot w n - dot v n := fun w => dot_sub_left _ _ _
  rcases h with ⟨h0, ⟨k, s, h1, h2, rfl, rfl⟩, h3, b, h4, h5⟩ | ⟨h0, ⟨k, h1, h2, rfl⟩, e0, e1, t, h3, h4, h5, h6, rfl⟩ | ⟨h0, h1, h2, rfl⟩
  · refine .inl ⟨h0, ⟨k + v, s, K1 k h1, fun k' hk' => ?_, by ext <;> simp <;> ring, by ext <;> simp <;> ring⟩, fun b hb => ?_, b + v, B1 b h4, ?_⟩
    · have := h2 _ ((hK k').2 hk'); rw [e] at this; rw [dot_add_left]; linarith
    · have := h3 _ ((hB b).2 hb); rw [e] at this; rw [dot_add_left _ v]; linarith
    · rw [dot_add_left _ v, dot_add_left _ v]; linarith
  · refine .inr (.inl ⟨h0, ⟨k + v, K1 k h1, fun k' hk' => ?_, by ext <;> simp <;> ring⟩, e0 + v, e1 + v, t, B1 _ h3, B1 _ h4, fun b hb => ?_,
      fun b hb => ?_, by ext <;> simp <;> ring⟩)
    · have := h2 _ ((hK k').2 hk'); rw [e] at this; rw [dot_add_left]; linarith
    · have := h5 _ ((hB b).2 hb); rw [e] at this; rw [dot_add_left]; linarith
    · have := h6 _ ((hB b).2 hb); rw [e] at this; rw [dot_add_left]; linarith
  · refine .inr (.inr ⟨h0, B1 _ h1, fun b hb => ?_, by ext <;> simp <;> ring⟩)
    have := h2 _ ((hB b).2 hb); rw [e] at this; rw [dot_add_left]; linarith

/-- **C101, the points, partial.** For every capsule and every box whose sides are not shorter than 2 cm the call is defined
and makes at most four points.  They all have the direction and the distance of `capsule_box_axis`, and their pivots are
what they should be.  There are no points if the distance is above the threshold; otherwise there is one unless the capsule
lies flat along the direction.  Missing: a point in that case, and that the second pivot is between the ends of the edge. -/
theorem capsule_box_points_partial (eps tiny tol r hl : ℝ) (he : 0 ≤ eps) (hti : 0 ≤ tiny) (ht : 0 < tol) (h16 : eps < 16 * (tol * tol))
    (hr : 0 ≤ r) (hh : 0 < hl) (h4 : eps < 4 * hl * hl) (a : Axis) (h : V3 ℝ) (hs : Sized tol h) (c : Ctx) (hc : c.Ok) :
    ∃ l dist n, capsuleBox eps tiny tol r hl a h c = some l ∧ capBoxAxis eps tiny r hl a h c = some (dist, n) ∧ l.length ≤ 4 ∧
      (∀ p ∈ l, CapBoxGood tol r hl a h c n dist p) ∧ (c.thr < dist → l = []) ∧
      (dist ≤ c.thr → tol ≤ |dot (capVertex0 hl a c.posA c.ornA - capVertex1 hl a c.posA c.ornA) n| → l ≠ []) := by
  have hp : PosExt h := ⟨by linarith [hs.1], by linarith [hs.2.1], by linarith [hs.2.2]⟩
  obtain ⟨dist, n, e1, e2, -⟩ := capsule_box_axis eps tiny r hl hti hr hh a h hp c hc
  unfold capsuleBox
  simp only [e1, Option.bind_some]
  by_cases hd : c.thr < dist
  · rw [if_pos hd]
    exact ⟨[], dist, n, rfl, rfl, by simp, by simp, fun _ => rfl, fun h => absurd hd (not_lt.2 h)⟩
  rw [if_neg hd]
  have hc' : c.fromA.Ok := hc
  obtain ⟨l, l1, l2, l3, l4⟩ := capBoxPoints_spec (r := r) he ht h16 hh h4 a hs hc' (x := (dist, n)) e2
  refine ⟨l, dist, n, l1, rfl, l2, ?_, fun h => absurd h hd, fun _ h => l4 ?_⟩
  · intro p hp'
    obtain ⟨p1, p2, p3⟩ := l3 p hp'
    refine ⟨p1, p2, ?_⟩
    have := pivots_shift (v := c.posA) (axisA_from c hl a) (boxB_from c h) p3
    have ea : c.fromA.wA p + c.posA = c.wA p := by unfold Ctx.wA Ctx.fromA toWorldSpace; ext <;> simp <;> ring
    have eb : c.fromA.wB p + c.posA = c.wB p := by unfold Ctx.wB Ctx.fromA toWorldSpace; ext <;> simp <;> ring
    rwa [ea, eb] at this
  · have : capVertex0 hl a c.fromA.posA c.fromA.ornA - capVertex1 hl a c.fromA.posA c.fromA.ornA =
        capVertex0 hl a c.posA c.ornA - capVertex1 hl a c.posA c.ornA := by
      unfold capVertex0 capVertex1 Ctx.fromA; ext <;> simp
    rw [this]; exact h

/-- What the attachment is called when the shapes are in the other order. -/
def otherSide : Att → Att
  | .onA => .onB
  | .onB => .onA
  | .none => .none

/-- **C101, the other order, partial.** The same holds for a box and a capsule; the normal is the one from the capsule to
the box, turned round, and the pivots are exchanged. -/
theorem box_capsule_points_partial (eps tiny tol r hl : ℝ) (he : 0 ≤ eps) (hti : 0 ≤ tiny) (ht : 0 < tol) (h16 : eps < 16 * (tol * tol))
    (hr : 0 ≤ r) (hh : 0 < hl) (h4 : eps < 4 * hl * hl) (h : V3 ℝ) (a : Axis) (hs : Sized tol h) (c : Ctx) (hc : c.Ok) :
    ∃ l dist n, boxCapsule eps tiny tol r hl h a c = some l ∧ lengthSqr n = 1 ∧
      GapAlong (Placed (boxSet h) c.posA c.ornA) (Placed (capsuleSet r hl a) c.posB c.ornB) n dist ∧ l.length ≤ 4 ∧
      (∀ p ∈ l, p.n = n ∧ p.dist = dist ∧ CapBoxPivots tol r (segSet (capVertex0 hl a c.posB c.ornB) (capVertex1 hl a c.posB c.ornB))
        (Placed (boxSet h) c.posA c.ornA) (-n) dist (otherSide p.att) (c.wB p) (c.wA p)) ∧
      (c.thr < dist → l = []) ∧
      (dist ≤ c.thr → tol ≤ |dot (capVertex0 hl a c.posB c.ornB - capVertex1 hl a c.posB c.ornB) n| → l ≠ []) := by
  have hp : PosExt h := ⟨by linarith [hs.1], by linarith [hs.2.1], by linarith [hs.2.2]⟩
  have hc' : c.swapped.Ok := ⟨hc.2.1, hc.1, hc.2.2⟩
  obtain ⟨l, dist, n, l1, l2, l3, l4, l5, l6⟩ := capsule_box_points_partial eps tiny tol r hl he hti ht h16 hr hh h4 a h hs c.swapped hc'
  obtain ⟨dist', n', a1, a2, -, a3, -⟩ := capsule_box_axis eps tiny r hl hti hr hh a h hp c.swapped hc'
  rw [l2] at a1
  simp only [Option.some.injEq, Prod.mk.injEq] at a1
  obtain ⟨rfl, rfl⟩ := a1
  refine ⟨l.map CPoint.swap, dist, -n, by simp [boxCapsule, swapCollide, l1], ?_, gap_flip a3, by simpa using l3, ?_, ?_, ?_⟩
  · rw [show lengthSqr (-n) = lengthSqr n by simp [lengthSqr, dot]]; exact a2
  · intro p hp'
    obtain ⟨q, hq, rfl⟩ := List.mem_map.1 hp'
    obtain ⟨q1, q2, q3⟩ := l4 q hq
    refine ⟨by simp only [CPoint.swap]; rw [q1]; ext <;> simp, q2, ?_⟩
    rw [neg_neg_v]
    have eo : otherSide (CPoint.swap q).att = q.att := by
      simp only [CPoint.swap]; cases q.att <;> rfl
    rw [eo]
    exact q3
  · intro h; rw [l5 h]; rfl
  · intro h1 h2
    have := l6 h1 (by rwa [dot_neg_right, abs_neg] at h2)
    simpa using this

/-- Non-vacuous: the capsule above the cube, with constants close to those of the code. -/
example : (0 : ℝ) ≤ 1e-7 ∧ (1e-7 : ℝ) < 16 * (0.005 * 0.005) ∧ (1e-7 : ℝ) < 4 * 1 * 1 ∧ Sized 0.005 ⟨1, 1, 1⟩ ∧ capAboveCube.Ok := by
  refine ⟨by norm_num, by norm_num, by norm_num, by norm_num [Sized], by norm_num [Ctx.Ok, capAboveCube, Quat.lengthSqr]⟩

end Edyn.Collide
