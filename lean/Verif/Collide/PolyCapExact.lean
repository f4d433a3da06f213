import Verif.Collide.PolyCapMain
import Mathlib.Topology.Order.Compact
import Mathlib.Topology.Instances.Real.Lemmas

/-!
# Contacts between a polyhedron and a capsule: the distance is exact (C95)
-/

namespace Edyn.Collide

open Edyn.Math hiding lengthSqr_nonneg
open V3 Edyn.Geom Edyn.Geom.Poly Edyn.Contact

/-! ## There are closest points -/

/-- The points of a hull, one vertex after the other. -/
def joined : List (V3 ℝ) → Set (ℝ × ℝ × ℝ)
  | [] => ∅
  | v :: l => {(v.x, v.y, v.z)} ∪
      (fun p : ℝ × (ℝ × ℝ × ℝ) => (v.x + p.1 * (p.2.1 - v.x), v.y + p.1 * (p.2.2.1 - v.y), v.z + p.1 * (p.2.2.2 - v.z))) ''
        (Set.Icc (0 : ℝ) 1 ×ˢ joined l)

theorem joined_compact (l : List (V3 ℝ)) : IsCompact (joined l) := by
  induction l with
  | nil => exact isCompact_empty
  | cons v l ih =>
    refine isCompact_singleton.union ((isCompact_Icc.prod ih).image ?_)
    fun_prop

theorem joined_hull (l : List (V3 ℝ)) (x y z : ℝ) (h : (x, y, z) ∈ joined l) : Hull l ⟨x, y, z⟩ := by
  induction l generalizing x y z with
  | nil => exact absurd h (by simp [joined])
  | cons v l ih =>
    rcases h with h | ⟨⟨t, a, b, c⟩, ⟨ht, hp⟩, h⟩
    · have h' : (x, y, z) = (v.x, v.y, v.z) := h
      simp only [Prod.mk.injEq] at h'
      obtain ⟨rfl, rfl, rfl⟩ := h'
      exact .vertex List.mem_cons_self
    · simp only [Prod.mk.injEq] at h
      obtain ⟨rfl, rfl, rfl⟩ := h
      have hw : Hull (v :: l) ⟨a, b, c⟩ := by
        have := ih a b c hp
        clear hp ih
        generalize (⟨a, b, c⟩ : V3 ℝ) = w at this
        induction this with
        | vertex hp => exact .vertex (List.mem_cons_of_mem _ hp)
        | between t _ _ t0 t1 ih1 ih2 => exact .between t ih1 ih2 t0 t1
      have := Hull.between t (.vertex (p := v) List.mem_cons_self) hw ht.1 ht.2
      have e : v + smul t ((⟨a, b, c⟩ : V3 ℝ) - v) = ⟨v.x + t * (a - v.x), v.y + t * (b - v.y), v.z + t * (c - v.z)⟩ := by
        ext <;> simp
      rwa [e] at this

theorem joined_convex (l : List (V3 ℝ)) (x y z x' y' z' s : ℝ) (h : (x, y, z) ∈ joined l) (h' : (x', y', z') ∈ joined l) (s0 : 0 ≤ s)
    (s1 : s ≤ 1) : (x + s * (x' - x), y + s * (y' - y), z + s * (z' - z)) ∈ joined l := by
  induction l generalizing x y z x' y' z' s with
  | nil => exact absurd h (by simp [joined])
  | cons v l ih =>
    have key : ∀ t a b c t' a' b' c' : ℝ, 0 ≤ t → t ≤ 1 → 0 ≤ t' → t' ≤ 1 → (a, b, c) ∈ joined l → (a', b', c') ∈ joined l →
        (v.x + t * (a - v.x) + s * (v.x + t' * (a' - v.x) - (v.x + t * (a - v.x))),
          v.y + t * (b - v.y) + s * (v.y + t' * (b' - v.y) - (v.y + t * (b - v.y))),
          v.z + t * (c - v.z) + s * (v.z + t' * (c' - v.z) - (v.z + t * (c - v.z)))) ∈ joined (v :: l) := by
      intro t a b c t' a' b' c' t0 t1 t0' t1' ha ha'
      have hT0 : 0 ≤ (1 - s) * t := mul_nonneg (by linarith) t0
      have hT1 : 0 ≤ s * t' := mul_nonneg s0 t0'
      rcases eq_or_lt_of_le (add_nonneg hT0 hT1) with hT | hT
      · left
        have e1 : (1 - s) * t = 0 := by linarith
        have e2 : s * t' = 0 := by linarith
        have k : ∀ p q w : ℝ, w + t * (p - w) + s * (w + t' * (q - w) - (w + t * (p - w))) = w := by
          intro p q w
          linear_combination (p - w) * e1 + (q - w) * e2
        rw [Set.mem_singleton_iff, k, k, k]
      · right
        refine ⟨((1 - s) * t + s * t', a + s * t' / ((1 - s) * t + s * t') * (a' - a), b + s * t' / ((1 - s) * t + s * t') * (b' - b),
          c + s * t' / ((1 - s) * t + s * t') * (c' - c)), ⟨⟨hT.le, by nlinarith⟩, ?_⟩, ?_⟩
        · exact ih _ _ _ _ _ _ _ ha ha' (by positivity) (by rw [div_le_one hT]; linarith)
        · have k : ∀ p q w : ℝ, w + ((1 - s) * t + s * t') * (p + s * t' / ((1 - s) * t + s * t') * (q - p) - w) =
              w + t * (p - w) + s * (w + t' * (q - w) - (w + t * (p - w))) := by
            intro p q w
            field_simp
            ring
          simp only [k]
    -- the first vertex is no exception as long as there is another one
    have single : ∀ t' a' b' c' : ℝ, 0 ≤ t' → t' ≤ 1 → (a', b', c') ∈ joined l →
        (v.x + t' * (a' - v.x), v.y + t' * (b' - v.y), v.z + t' * (c' - v.z)) ∈ joined (v :: l) := by
      intro t' a' b' c' t0' t1' ha'
      exact .inr ⟨(t', a', b', c'), ⟨⟨t0', t1'⟩, ha'⟩, rfl⟩
    rcases h with h | ⟨⟨t, a, b, c⟩, ⟨ht, hp⟩, h⟩ <;> rcases h' with h' | ⟨⟨t', a', b', c'⟩, ⟨ht', hp'⟩, h'⟩
    · have e1 : (x, y, z) = (v.x, v.y, v.z) := h
      have e2 : (x', y', z') = (v.x, v.y, v.z) := h'
      simp only [Prod.mk.injEq] at e1 e2
      obtain ⟨rfl, rfl, rfl⟩ := e1
      obtain ⟨rfl, rfl, rfl⟩ := e2
      left; simp
    · have e1 : (x, y, z) = (v.x, v.y, v.z) := h
      simp only [Prod.mk.injEq] at e1 h'
      obtain ⟨rfl, rfl, rfl⟩ := e1
      obtain ⟨rfl, rfl, rfl⟩ := h'
      have := key 0 a' b' c' t' a' b' c' le_rfl zero_le_one ht'.1 ht'.2 hp' hp'
      convert this using 1
      simp
    · have e1 : (x', y', z') = (v.x, v.y, v.z) := h'
      simp only [Prod.mk.injEq] at e1 h
      obtain ⟨rfl, rfl, rfl⟩ := e1
      obtain ⟨rfl, rfl, rfl⟩ := h
      have := key t a b c 0 a b c ht.1 ht.2 le_rfl zero_le_one hp hp
      convert this using 1
      simp
    · simp only [Prod.mk.injEq] at h h'
      obtain ⟨rfl, rfl, rfl⟩ := h
      obtain ⟨rfl, rfl, rfl⟩ := h'
      exact key t a b c t' a' b' c' ht.1 ht.2 ht'.1 ht'.2 hp hp'

theorem hull_joined (l : List (V3 ℝ)) (w : V3 ℝ) (h : Hull l w) : (w.x, w.y, w.z) ∈ joined l := by
  induction h with
  | between t _ _ t0 t1 ih1 ih2 => exact joined_convex l _ _ _ _ _ _ t ih1 ih2 t0 t1
  | @vertex p hp =>
    induction l with
    | nil => simp at hp
    | cons v l ih =>
      rcases List.mem_cons.mp hp with rfl | hp
      · exact .inl rfl
      · exact .inr ⟨(1, p.x, p.y, p.z), ⟨⟨zero_le_one, le_rfl⟩, ih hp⟩, by simp⟩

/-- A polyhedron and a segment have closest points. -/
theorem closest_exists (vs : List (V3 ℝ)) (hv : vs ≠ []) (a b : V3 ℝ) : ∃ p q, ClosestPair (Hull vs) (segSet a b) p q := by
  obtain ⟨v, hv⟩ := List.exists_mem_of_ne_nil _ hv
  have hK : IsCompact (joined vs ×ˢ Set.Icc (0 : ℝ) 1) := (joined_compact vs).prod isCompact_Icc
  obtain ⟨⟨⟨x, y, z⟩, t⟩, ⟨h1, h2⟩, h3⟩ := hK.exists_isMinOn
    (f := fun p : (ℝ × ℝ × ℝ) × ℝ => (p.1.1 - (a.x + p.2 * (b.x - a.x))) * (p.1.1 - (a.x + p.2 * (b.x - a.x))) +
      (p.1.2.1 - (a.y + p.2 * (b.y - a.y))) * (p.1.2.1 - (a.y + p.2 * (b.y - a.y))) +
      (p.1.2.2 - (a.z + p.2 * (b.z - a.z))) * (p.1.2.2 - (a.z + p.2 * (b.z - a.z))))
    ⟨((v.x, v.y, v.z), 0), hull_joined vs v (.vertex hv), le_rfl, zero_le_one⟩ (by fun_prop)
  refine ⟨⟨x, y, z⟩, a + smul t (b - a), joined_hull vs x y z h1, ⟨t, h2.1, h2.2, rfl⟩, ?_⟩
  rintro p _ hp ⟨s, s0, s1, rfl⟩
  have := h3 (show ((p.x, p.y, p.z), s) ∈ _ from ⟨hull_joined vs p hp, s0, s1⟩)
  simp only [Set.mem_setOf_eq] at this
  simpa [lengthSqr, dot] using this

/-! ## Where the closest point is -/

/-- What else the mesh of a convex polyhedron has to be: the points behind all of its faces are those of its hull, the origin
is inside, and its edges are enough to see all vertices from each other. -/
structure PolyClosed (m : PMesh) : Prop where
  inside : ∀ w, (∀ f ∈ m.faces, dot (w - f.2) f.1 ≤ 0) → Hull m.verts w
  around : ∀ f ∈ m.faces, 0 < dot f.2 f.1
  edges : ∃ es, EdgeCone m.verts es ∧ ∀ e ∈ es, ∀ u v, m.verts[e.1]? = some u → m.verts[e.2]? = some v →
    ∃ e' ∈ m.edges, (e'.v0 = u ∧ e'.v1 = v) ∨ (e'.v0 = v ∧ e'.v1 = u)

theorem hull_high {vs : List (V3 ℝ)} {n : V3 ℝ} {h : ℝ} (hv : ∀ v ∈ vs, dot v n ≤ h) {w : V3 ℝ} (hw : Hull vs w) : dot w n ≤ h := by
  have := hull_low (n := -n) (h := -h) (fun v hv' => by rw [dot_neg_right]; linarith [hv v hv']) hw
  rw [dot_neg_right] at this; linarith

/-- A small step along a direction which does not leave the faces at a point stays inside. -/
theorem small_step (fs : List (V3 ℝ × V3 ℝ)) (p w : V3 ℝ) (h : ∀ f ∈ fs, dot (p - f.2) f.1 ≤ 0)
    (hw : ∀ f ∈ fs, dot (p - f.2) f.1 = 0 → dot w f.1 ≤ 0) :
    ∃ s, 0 < s ∧ ∀ t, 0 ≤ t → t ≤ s → ∀ f ∈ fs, dot (p + smul t w - f.2) f.1 ≤ 0 := by
  induction fs with
  | nil => exact ⟨1, one_pos, by simp⟩
  | cons f fs ih =>
    obtain ⟨s, s0, hs⟩ := ih (fun g hg => h g (List.mem_cons_of_mem _ hg)) fun g hg => hw g (List.mem_cons_of_mem _ hg)
    have e : ∀ t, dot (p + smul t w - f.2) f.1 = dot (p - f.2) f.1 + t * dot w f.1 := by
      intro t; simp only [dot_sub_left, dot_add_left, dot_smul_left]; ring
    have h0 := h f List.mem_cons_self
    rcases eq_or_lt_of_le h0 with h1 | h1
    · refine ⟨s, s0, fun t t0 t1 g hg => ?_⟩
      rcases List.mem_cons.mp hg with rfl | hg
      · rw [e, h1]; nlinarith [hw g List.mem_cons_self h1]
      · exact hs t t0 t1 g hg
    · refine ⟨min s (-dot (p - f.2) f.1 / (|dot w f.1| + 1)), ?_, fun t t0 t1 g hg => ?_⟩
      · apply lt_min s0
        apply div_pos (by linarith) (by positivity)
      · rcases List.mem_cons.mp hg with rfl | hg
        · have h2 := t1.trans (min_le_right _ _)
          rw [le_div_iff₀ (by positivity)] at h2
          rw [e]
          nlinarith [le_abs_self (dot w g.1)]
        · exact hs t t0 (t1.trans (min_le_left _ _)) g hg

/-- A sum of generators on the border of a half-space which goes up has such a generator. -/
theorem cone_pick {G : V3 ℝ → Prop} {n t x : V3 ℝ} (hx : Cone G x) (hG : ∀ g, G g → dot g n ≤ 0) :
    dot x n ≤ 0 ∧ (dot x n = 0 → 0 < dot x t → ∃ g, G g ∧ dot g n = 0 ∧ 0 < dot g t) := by
  induction hx with
  | zero => exact ⟨by simp [dot], fun _ h => absurd h (by simp [dot])⟩
  | @add c g s _ hg hs ih =>
    have hgn := hG g hg
    simp only [dot_add_left, dot_smul_left]
    refine ⟨by nlinarith [ih.1], fun h0 h1 => ?_⟩
    have k1 : s * dot g n ≤ 0 := by nlinarith
    have k2 : dot c n = 0 := by linarith [ih.1]
    by_cases hc : 0 < dot c t
    · exact ih.2 k2 hc
    · have k3 : 0 < s * dot g t := by linarith
      have k4 : 0 < s := by
        rcases eq_or_lt_of_le hs with h | h
        · rw [← h] at k3; simp at k3
        · exact h
      refine ⟨g, hg, ?_, pos_of_mul_pos_right k3 hs⟩
      have : s * dot g n = 0 := by linarith
      rcases mul_eq_zero.mp this with h | h
      · linarith
      · exact h

/-- The vertices at the end of a hull along a direction span the points there. -/
theorem hull_border {vs : List (V3 ℝ)} {n : V3 ℝ} {h : ℝ} (hv : ∀ v ∈ vs, dot v n ≤ h) {w : V3 ℝ} (hw : Hull vs w) (hh : dot w n = h) :
    (∀ t : V3 ℝ, ∃ v ∈ vs, dot v n = h ∧ dot v t ≤ dot w t) := by
  induction hw with
  | vertex hp => exact fun t => ⟨_, hp, hh, le_rfl⟩
  | @between a b s ha hb s0 s1 ih1 ih2 =>
    intro t
    have k1 := hull_high hv ha
    have k2 := hull_high hv hb
    simp only [dot_add_left, dot_smul_left, dot_sub_left] at hh ⊢
    rcases eq_or_lt_of_le s0 with rfl | s0'
    · obtain ⟨v, v1, v2, v3⟩ := ih1 (by linarith) t
      exact ⟨v, v1, v2, by linarith⟩
    rcases eq_or_lt_of_le s1 with rfl | s1'
    · obtain ⟨v, v1, v2, v3⟩ := ih2 (by linarith) t
      exact ⟨v, v1, v2, by linarith⟩
    obtain ⟨v, v1, v2, v3⟩ := ih1 (by nlinarith) t
    obtain ⟨u, u1, u2, u3⟩ := ih2 (by nlinarith) t
    rcases le_total (dot a t) (dot b t) with hab | hab
    · exact ⟨v, v1, v2, by nlinarith⟩
    · exact ⟨u, u1, u2, by nlinarith⟩

theorem cross_line {f g u : V3 ℝ} (hc : 0 < lengthSqr (cross f g)) (h1 : dot u f = 0) (h2 : dot u g = 0) :
    u = smul (dot u (cross f g) / lengthSqr (cross f g)) (cross f g) := by
  have e : smul (lengthSqr (cross f g)) u = smul (dot u (cross f g)) (cross f g) := by
    have : smul (lengthSqr (cross f g)) u - smul (dot u (cross f g)) (cross f g) =
        smul (dot u f) (cross g (cross f g)) - smul (dot u g) (cross f (cross f g)) := by
      ext <;> simp [cross, dot, lengthSqr] <;> ring
    rw [h1, h2] at this
    have ex := congrArg V3.x this
    have ey := congrArg V3.y this
    have ez := congrArg V3.z this
    simp only [sub_x, sub_y, sub_z, smul_x, smul_y, smul_z] at ex ey ez
    ext <;> simp only [smul_x, smul_y, smul_z] <;> linarith
  have ex := congrArg V3.x e
  have ey := congrArg V3.y e
  have ez := congrArg V3.z e
  simp only [smul_x, smul_y, smul_z] at ex ey ez
  generalize lengthSqr (cross f g) = L at *
  generalize dot u (cross f g) = k at *
  have hL : L ≠ 0 := hc.ne'
  ext <;> simp only [smul_x, smul_y, smul_z] <;> field_simp <;> linarith

/-- A vertex which is not alone has an edge. -/
theorem cone_nonempty {G : V3 ℝ → Prop} {x : V3 ℝ} (hx : Cone G x) (h : x ≠ 0) : ∃ g, G g := by
  cases hx with
  | zero => exact absurd rfl h
  | add s _ hg _ => exact ⟨_, hg⟩

theorem max_below {l : List (V3 ℝ)} {P : V3 ℝ → Prop} (t : V3 ℝ) (h : ∃ v ∈ l, P v) : ∃ v ∈ l, P v ∧ ∀ w ∈ l, P w → dot w t ≤ dot v t := by
  classical
  induction l with
  | nil => simp at h
  | cons a l ih =>
    by_cases hl : ∃ v ∈ l, P v
    · obtain ⟨v, v1, v2, v3⟩ := ih hl
      by_cases ha : P a ∧ dot v t < dot a t
      · refine ⟨a, List.mem_cons_self, ha.1, fun w hw hp => ?_⟩
        rcases List.mem_cons.mp hw with rfl | hw
        · exact le_rfl
        · exact (v3 w hw hp).trans ha.2.le
      · refine ⟨v, List.mem_cons_of_mem _ v1, v2, fun w hw hp => ?_⟩
        rcases List.mem_cons.mp hw with rfl | hw
        · by_contra hc; exact ha ⟨hp, not_le.mp hc⟩
        · exact v3 w hw hp
    · obtain ⟨v, hv, hp⟩ := h
      rcases List.mem_cons.mp hv with rfl | hv
      · refine ⟨v, List.mem_cons_self, hp, fun w hw hp' => ?_⟩
        rcases List.mem_cons.mp hw with rfl | hw
        · exact le_rfl
        · exact absurd ⟨w, hw, hp'⟩ hl
      · exact absurd ⟨v, hv, hp⟩ hl

theorem seg_flip {a b p : V3 ℝ} (h : segSet a b p) : segSet b a p := by
  obtain ⟨t, t0, t1, rfl⟩ := h
  exact ⟨1 - t, by linarith, by linarith, by ext <;> simp <;> ring⟩

/-- The point of a polyhedron closest to something outside of it is on an edge, or the way to it is against the normal of a
face. -/
theorem closest_feature {m : PMesh} (hm : PolySolid m) (hc : PolyClosed m) {p d : V3 ℝ} (hp : Hull m.verts p)
    (hd : 0 < lengthSqr d) (hs : ∀ w, Hull m.verts w → dot p d ≤ dot w d) :
    (∃ f ∈ m.faces, ∃ k, 0 < k ∧ d = smul k (-f.1)) ∨ ∃ e ∈ m.edges, (e.v0 ∈ m.verts ∧ e.v1 ∈ m.verts) ∧ segSet e.v0 e.v1 p := by
  classical
  have behind : ∀ f ∈ m.faces, ∀ v ∈ m.verts, dot v f.1 ≤ dot f.2 f.1 := by
    intro f hf v hv
    have := hm.face_behind f hf v hv
    rw [dot_sub_left] at this; linarith
  have hp0 : ∀ f ∈ m.faces, dot (p - f.2) f.1 ≤ 0 := by
    intro f hf
    rw [dot_sub_left]; linarith [hull_high (behind f hf) hp]
  have step : ∀ w, (∀ f ∈ m.faces, dot (p - f.2) f.1 = 0 → dot w f.1 ≤ 0) → 0 ≤ dot w d := by
    intro w hw
    obtain ⟨s, s0, h⟩ := small_step m.faces p w hp0 hw
    have := hs _ (hc.inside _ (h s s0.le le_rfl))
    rw [dot_add_left, dot_smul_left] at this
    exact nonneg_of_mul_nonneg_right (by linarith) s0
  have hdd : dot d d = lengthSqr d := rfl
  have act : ∃ f ∈ m.faces, dot (p - f.2) f.1 = 0 := by
    by_contra hn
    push Not at hn
    have := step (-d) fun f hf h0 => absurd h0 (hn f hf)
    rw [dot_neg_left, hdd] at this
    linarith
  obtain ⟨f, hf, hf0⟩ := act
  have fu : dot f.1 f.1 = 1 := hm.face_unit f hf
  by_cases hsame : ∀ g ∈ m.faces, dot (p - g.2) g.1 = 0 → g.1 = f.1
  · left
    have s1 := step (-f.1) fun g hg h0 => by
      rw [hsame g hg h0, dot_neg_left, fu]; norm_num
    have s2 := step (smul (dot d f.1) f.1 - d) fun g hg h0 => by
      rw [hsame g hg h0, dot_sub_left, dot_smul_left, fu]; linarith
    rw [dot_neg_left] at s1
    rw [dot_sub_left, dot_smul_left, hdd] at s2
    have comm : dot f.1 d = dot d f.1 := by simp [dot]; ring
    rw [comm] at s1 s2
    have hz : lengthSqr (d - smul (dot d f.1) f.1) ≤ 0 := by
      have : lengthSqr (d - smul (dot d f.1) f.1) = lengthSqr d - 2 * dot d f.1 * dot d f.1 + dot d f.1 * dot d f.1 * dot f.1 f.1 := by
        simp [lengthSqr, dot]; ring
      rw [this, fu]; linarith
    have hx : d = smul (dot d f.1) f.1 := by
      generalize dot d f.1 = k at hz
      simp only [lengthSqr, dot, sub_x, sub_y, sub_z, smul_x, smul_y, smul_z] at hz
      have h1 : d.x - k * f.1.x = 0 := by
        nlinarith [mul_self_nonneg (d.x - k * f.1.x), mul_self_nonneg (d.y - k * f.1.y), mul_self_nonneg (d.z - k * f.1.z)]
      have h2 : d.y - k * f.1.y = 0 := by
        nlinarith [mul_self_nonneg (d.x - k * f.1.x), mul_self_nonneg (d.y - k * f.1.y), mul_self_nonneg (d.z - k * f.1.z)]
      have h3 : d.z - k * f.1.z = 0 := by
        nlinarith [mul_self_nonneg (d.x - k * f.1.x), mul_self_nonneg (d.y - k * f.1.y), mul_self_nonneg (d.z - k * f.1.z)]
      ext <;> simp only [smul_x, smul_y, smul_z] <;> linarith
    refine ⟨f, hf, -dot d f.1, ?_, ?_⟩
    · by_contra hn
      have : dot d f.1 = 0 := by linarith
      rw [this] at s2; simp at s2; linarith
    · rw [show smul (-dot d f.1) (-f.1) = smul (dot d f.1) f.1 by ext <;> simp]; exact hx
  · right
    push Not at hsame
    obtain ⟨g, hg, hg0, hfg⟩ := hsame
    have gu : dot g.1 g.1 = 1 := hm.face_unit g hg
    have pf : dot p f.1 = dot f.2 f.1 := by rw [dot_sub_left] at hf0; linarith
    have pg : dot p g.1 = dot g.2 g.1 := by rw [dot_sub_left] at hg0; linarith
    have hcr : 0 < lengthSqr (cross f.1 g.1) := by
      by_contra hn
      have h0 : lengthSqr (cross f.1 g.1) = 1 - dot f.1 g.1 * dot f.1 g.1 := by
        have : lengthSqr (cross f.1 g.1) = dot f.1 f.1 * dot g.1 g.1 - dot f.1 g.1 * dot f.1 g.1 := by
          simp [lengthSqr, dot, cross]; ring
        rw [this, fu, gu]; ring
      have h1 : 1 ≤ dot f.1 g.1 * dot f.1 g.1 := by linarith
      have k1 : lengthSqr (f.1 - g.1) = 2 - 2 * dot f.1 g.1 := by
        have : lengthSqr (f.1 - g.1) = dot f.1 f.1 + dot g.1 g.1 - 2 * dot f.1 g.1 := by simp [lengthSqr, dot]; ring
        rw [this, fu, gu]; ring
      have k2 : lengthSqr (f.1 + g.1) = 2 + 2 * dot f.1 g.1 := by
        have : lengthSqr (f.1 + g.1) = dot f.1 f.1 + dot g.1 g.1 + 2 * dot f.1 g.1 := by simp [lengthSqr, dot]; ring
        rw [this, fu, gu]; ring
      have n1 := lengthSqr_nonneg (f.1 - g.1)
      have n2 := lengthSqr_nonneg (f.1 + g.1)
      have zero : ∀ u : V3 ℝ, lengthSqr u ≤ 0 → u.x = 0 ∧ u.y = 0 ∧ u.z = 0 := by
        intro u hu
        simp only [lengthSqr, dot] at hu
        refine ⟨?_, ?_, ?_⟩ <;> nlinarith [mul_self_nonneg u.x, mul_self_nonneg u.y, mul_self_nonneg u.z]
      rcases le_total 0 (dot f.1 g.1) with h | h
      · have : 1 ≤ dot f.1 g.1 := by nlinarith
        obtain ⟨e1, e2, e3⟩ := zero _ (show lengthSqr (f.1 - g.1) ≤ 0 by linarith)
        simp only [sub_x, sub_y, sub_z] at e1 e2 e3
        exact hfg (by ext <;> linarith)
      · have : dot f.1 g.1 ≤ -1 := by nlinarith
        obtain ⟨e1, e2, e3⟩ := zero _ (show lengthSqr (f.1 + g.1) ≤ 0 by linarith)
        simp only [add_x, add_y, add_z] at e1 e2 e3
        have a1 := hc.around f hf
        have a2 := hc.around g hg
        rw [← pf] at a1
        rw [← pg] at a2
        simp only [dot] at a1 a2
        have g1 : g.1.x = -f.1.x := by linarith
        have g2 : g.1.y = -f.1.y := by linarith
        have g3 : g.1.z = -f.1.z := by linarith
        rw [g1, g2, g3] at a2
        linarith
    -- the vertices on both faces
    have both : ∀ v ∈ m.verts, dot v (f.1 + g.1) ≤ dot p (f.1 + g.1) ∧
        (dot v (f.1 + g.1) = dot p (f.1 + g.1) → dot (v - p) f.1 = 0 ∧ dot (v - p) g.1 = 0) := by
      intro v hv
      have b1 := behind f hf v hv
      have b2 := behind g hg v hv
      rw [dot_add_right, dot_add_right, dot_sub_left, dot_sub_left]
      refine ⟨by linarith, fun h => ⟨by linarith, by linarith⟩⟩
    have border := hull_border (n := f.1 + g.1) (fun v hv => (both v hv).1) hp rfl
    obtain ⟨u, u1, ⟨u2, u3⟩, u4⟩ := max_below (l := m.verts)
      (P := fun v => dot v (f.1 + g.1) = dot p (f.1 + g.1) ∧ dot v (cross f.1 g.1) ≤ dot p (cross f.1 g.1)) (cross f.1 g.1)
      (by obtain ⟨v, v1, v2, v3⟩ := border (cross f.1 g.1); exact ⟨v, v1, v2, v3⟩)
    obtain ⟨w, w1, w2, w3⟩ := border (-cross f.1 g.1)
    rw [dot_neg_right, dot_neg_right] at w3
    have onLine : ∀ v ∈ m.verts, dot v (f.1 + g.1) = dot p (f.1 + g.1) →
        v - p = smul (dot (v - p) (cross f.1 g.1) / lengthSqr (cross f.1 g.1)) (cross f.1 g.1) := by
      intro v hv h
      obtain ⟨h1, h2⟩ := (both v hv).2 h
      exact cross_line hcr h1 h2
    obtain ⟨es, cone, listed⟩ := hc.edges
    obtain ⟨i, hi⟩ := List.getElem?_of_mem u1
    -- an edge at the vertex
    have found : ∀ r, (∃ j q, (((i, j) ∈ es ∨ (j, i) ∈ es) ∧ m.verts[j]? = some q) ∧ r = q - u) →
        ∃ q, q ∈ m.verts ∧ r = q - u ∧ (segSet u q p → ∃ e ∈ m.edges, (e.v0 ∈ m.verts ∧ e.v1 ∈ m.verts) ∧ segSet e.v0 e.v1 p) := by
      rintro r ⟨j, q, ⟨h1, h2⟩, h3⟩
      have hq := List.mem_of_getElem? h2
      refine ⟨q, hq, h3, fun h => ?_⟩
      rcases h1 with h1 | h1
      · obtain ⟨e, e1, e2 | e2⟩ := listed _ h1 u q hi h2
        · exact ⟨e, e1, by rw [e2.1, e2.2]; first | exact ⟨⟨u1, hq⟩, h⟩ | exact ⟨⟨hq, u1⟩, h⟩⟩
        · exact ⟨e, e1, by rw [e2.1, e2.2]; first | exact ⟨⟨u1, hq⟩, seg_flip h⟩ | exact ⟨⟨hq, u1⟩, seg_flip h⟩⟩
      · obtain ⟨e, e1, e2 | e2⟩ := listed _ h1 q u h2 hi
        · exact ⟨e, e1, by rw [e2.1, e2.2]; first | exact ⟨⟨u1, hq⟩, seg_flip h⟩ | exact ⟨⟨hq, u1⟩, seg_flip h⟩⟩
        · exact ⟨e, e1, by rw [e2.1, e2.2]; first | exact ⟨⟨u1, hq⟩, h⟩ | exact ⟨⟨hq, u1⟩, h⟩⟩
    rcases eq_or_lt_of_le u3 with ueq | ult
    · -- the point is the vertex
      have eu : u = p := by
        have := onLine u u1 u2
        rw [dot_sub_left, ueq, sub_self, zero_div] at this
        have ex := congrArg V3.x this
        have ey := congrArg V3.y this
        have ez := congrArg V3.z this
        simp only [sub_x, sub_y, sub_z, smul_x, smul_y, smul_z, zero_mul] at ex ey ez
        ext <;> linarith
      have other : ∃ v ∈ m.verts, v ≠ u := by
        by_contra hn
        push Not at hn
        have h0 : Hull m.verts 0 := hc.inside 0 fun f' hf' => by
          have := hc.around f' hf'
          rw [dot_sub_left, show dot (0 : V3 ℝ) f'.1 = 0 by simp [dot]]; linarith
        have hcone := hull_low (n := f.1) (h := dot u f.1) (fun v hv => by rw [hn v hv]) h0
        rw [show dot (0 : V3 ℝ) f.1 = 0 by simp [dot], eu, pf] at hcone
        linarith [hc.around f hf]
      obtain ⟨v, v1, v2⟩ := other
      obtain ⟨r, hr⟩ := cone_nonempty (cone i u hi v v1) (fun h => v2 (by
        have ex := congrArg V3.x h
        have ey := congrArg V3.y h
        have ez := congrArg V3.z h
        simp only [sub_x, sub_y, sub_z, zero_x, zero_y, zero_z] at ex ey ez
        ext <;> linarith))
      obtain ⟨q, -, -, h⟩ := found r hr
      exact h ⟨0, le_rfl, zero_le_one, by rw [← eu]; ext <;> simp⟩
    · -- there is an edge along the line
      obtain ⟨-, pick⟩ := cone_pick (n := f.1 + g.1) (t := cross f.1 g.1) (cone i u hi w w1) (by
        rintro _ ⟨j, q, ⟨-, h2⟩, rfl⟩
        rw [dot_sub_left, u2]
        linarith [(both q (List.mem_of_getElem? h2)).1])
      obtain ⟨r, hr, r0, rt⟩ := pick (by rw [dot_sub_left, u2, w2, sub_self]) (by rw [dot_sub_left]; linarith)
      obtain ⟨q, q1, rfl, h⟩ := found r hr
      have q2 : dot q (f.1 + g.1) = dot p (f.1 + g.1) := by rw [dot_sub_left, u2] at r0; linarith
      rw [dot_sub_left] at rt
      have q3 : dot p (cross f.1 g.1) < dot q (cross f.1 g.1) := by
        by_contra hn
        have := u4 q q1 ⟨q2, not_lt.mp hn⟩
        linarith
      apply h
      have e1 := onLine u u1 u2
      have e2 := onLine q q1 q2
      rw [dot_sub_left] at e1 e2
      generalize dot u (cross f.1 g.1) = a at *
      generalize dot q (cross f.1 g.1) = b at *
      generalize dot p (cross f.1 g.1) = c at *
      generalize lengthSqr (cross f.1 g.1) = L at *
      generalize cross f.1 g.1 = t at *
      have hba : 0 < b - a := by linarith
      refine ⟨(c - a) / (b - a), div_nonneg (by linarith) hba.le, by rw [div_le_one hba]; linarith, ?_⟩
      have key : ∀ pz uz qz tz : ℝ, uz - pz = (a - c) / L * tz → qz - pz = (b - c) / L * tz → pz = uz + (c - a) / (b - a) * (qz - uz) := by
        intro pz uz qz tz h1 h2
        have h3 : qz - uz = (b - a) / L * tz := by
          have : qz - uz = (b - c) / L * tz - (a - c) / L * tz := by linarith
          rw [this]; ring
        rw [h3]
        have h4 : (c - a) / (b - a) * ((b - a) / L * tz) = (c - a) / L * tz := by field_simp
        rw [h4]
        have h5 : (c - a) / L * tz = -((a - c) / L * tz) := by ring
        rw [h5]; linarith
      have e1x := congrArg V3.x e1
      have e1y := congrArg V3.y e1
      have e1z := congrArg V3.z e1
      have e2x := congrArg V3.x e2
      have e2y := congrArg V3.y e2
      have e2z := congrArg V3.z e2
      simp only [sub_x, sub_y, sub_z, smul_x, smul_y, smul_z] at e1x e1y e1z e2x e2y e2z
      ext <;> simp only [add_x, add_y, add_z, sub_x, sub_y, sub_z, smul_x, smul_y, smul_z]
      · exact key _ _ _ _ e1x e2x
      · exact key _ _ _ _ e1y e2y
      · exact key _ _ _ _ e1z e2z

/-! ## The distance is exact -/

/-- The shapes are apart along the step between the closest points by the length of it without the radius. -/
theorem closest_gap {KA KB : V3 ℝ → Prop} (hA : Convex KA) (hB : Convex KB) {p q : V3 ℝ} (h : ClosestPair KA KB p q) {r D : ℝ}
    (hr : 0 ≤ r) (hD : 0 < D) (hDD : D * D = lengthSqr (p - q)) :
    ∃ n, lengthSqr n = 1 ∧ p - q = smul D n ∧ (∀ w, KA w → dot p n ≤ dot w n) ∧ (∀ w, KB w → dot w n ≤ dot q n) ∧
      GapAlong KA (Inflate KB r) n (D - r) := by
  obtain ⟨g1, g2, g3, -⟩ := inflate_good hA hB h le_rfl hr hD hDD
  have eB := closest_extreme hB h.2.1 (fun v hv => by
    have := h.2.2 p v h.1 hv
    rwa [show lengthSqr (q - p) = lengthSqr (p - q) by simp [lengthSqr, dot]; ring,
      show lengthSqr (v - p) = lengthSqr (p - v) by simp [lengthSqr, dot]; ring]) hD
  have ep : p - q = smul D (smul (1 / D) (p - q)) := by ext <;> simp <;> field_simp
  rw [inflate_zero, show p - smul 0 (smul (1 / D) (p - q)) = p by ext <;> simp] at g2
  generalize smul (1 / D) (p - q) = n at *
  have hA' : ∀ w, KA w → dot p n ≤ dot w n := fun w hw => by
    have := g2.2 w hw
    rw [dot_neg_right, dot_neg_right] at this; linarith
  have hpq : dot (p - q) n = D := by rw [ep, dot_smul_left, show dot n n = 1 from g1, mul_one]
  have hval : dot (p - (q + smul r n)) n = D - r := by
    rw [dot_sub_left, dot_add_left, dot_smul_left, show dot n n = 1 from g1]
    rw [dot_sub_left] at hpq; linarith
  refine ⟨n, g1, ep, hA', eB.2, fun a b ha hb => ?_, p, _, h.1, g3.1, hval⟩
  rw [dot_sub_left] at hval ⊢
  linarith [hA' a ha, g3.2 b hb]

theorem axis_center (hl : ℝ) (a : Axis) (pos : V3 ℝ) (orn : Quat ℝ) :
    segSet (capVertex0 hl a pos orn) (capVertex1 hl a pos orn) pos :=
  ⟨1 / 2, by norm_num, by norm_num, by simp only [capVertex0, capVertex1]; ext <;> simp <;> ring⟩

/-- The unit vector along which a step is as long as it is. -/
theorem same_dir {n n' : V3 ℝ} (hn : lengthSqr n = 1) (hn' : lengthSqr n' = 1) (h : 1 ≤ dot n n') : n' = n := by
  have h1 : lengthSqr (n' - n) = lengthSqr n' + lengthSqr n - 2 * dot n n' := by simp [lengthSqr, dot]; ring
  have h2 : lengthSqr (n' - n) = 0 := le_antisymm (by rw [h1, hn, hn']; linarith) (lengthSqr_nonneg _)
  have h3 := lengthSqr_eq_zero h2
  have ex := congrArg V3.x h3
  have ey := congrArg V3.y h3
  have ez := congrArg V3.z h3
  simp only [sub_x, sub_y, sub_z, zero_x, zero_y, zero_z] at ex ey ez
  ext <;> linarith

/-- **C95, the distance between a polyhedron and a capsule, partial.** As long as the axis of the capsule is outside of
the polyhedron, the normal of the points is the direction from the axis to the point of the polyhedron closest to it and the
distance is the distance between the shapes, so the points are left out exactly when the shapes are not within the
threshold.  Missing: that there is a point whenever the shapes are within the threshold, and capsules whose axis enters the
polyhedron. -/
theorem polyhedron_capsule_distance_partial (K : Consts ℝ) (hK : 0 ≤ K.tiny) (k kh : ℕ) (eps tol : ℝ) (he : 0 ≤ eps) (ht : 0 < tol)
    (m : PMesh) (hm : PolySolid m) (hcl : PolyClosed m) (hk : m.verts.length ≤ k) (hkh : m.verts.length < kh) (r hl : ℝ) (hr : 0 ≤ r)
    (hh : 0 < hl) (h4 : eps < 4 * hl * hl) (a : Axis) (c : Ctx) (hc : c.Ok) (hclear : CapClear eps m hl a c)
    (hout : ∀ v w, Placed (Hull m.verts) c.posA c.ornA v → segSet (capVertex0 hl a c.posB c.ornB) (capVertex1 hl a c.posB c.ornB) w →
      K.tiny < lengthSqr (v - w)) :
    ∃ l n p q dist, polyCapsule K k kh eps tol m r hl a c = some l ∧ lengthSqr n = 1 ∧
      ClosestPair (Placed (Hull m.verts) c.posA c.ornA) (segSet (capVertex0 hl a c.posB c.ornB) (capVertex1 hl a c.posB c.ornB)) p q ∧
      0 < dist + r ∧ p - q = smul (dist + r) n ∧
      (dist ≤ c.thr ↔ Near (Placed (Hull m.verts) c.posA c.ornA) (Placed (capsuleSet r hl a) c.posB c.ornB) c.thr) ∧
      (c.thr < dist → l = []) ∧ ∀ x ∈ l, PolyCapGood eps tol m r hl a c n dist x := by
  obtain ⟨l, n, dist, e1, e2, e3, e4, e5, -, e7, -⟩ := polyhedron_capsule_partial K hK k kh eps tol he ht m hm hk hkh r hl hr hh h4 a c hc
  obtain ⟨oA, oB, ht0⟩ := id hc
  obtain ⟨b0, b1⟩ := vertex_back c hc hl a
  obtain ⟨p', q', hpq'⟩ := closest_exists m.verts hm.some_vertex
    (capVertex0 hl a (toObjectSpace c.posB c.posA c.ornA) (c.ornA.conjugate * c.ornB))
    (capVertex1 hl a (toObjectSpace c.posB c.posA c.ornA) (c.ornA.conjugate * c.ornB))
  have hcap := capsule_inflate r hl hh a c.posB oB
  have pair : ClosestPair (Placed (Hull m.verts) c.posA c.ornA) (segSet (capVertex0 hl a c.posB c.ornB) (capVertex1 hl a c.posB c.ornB))
      (move c.posA c.ornA p') (move c.posA c.ornA q') := by
    obtain ⟨h1, ⟨t, t0, t1, h2⟩, h3⟩ := hpq'
    refine ⟨⟨p', h1, rfl⟩, ⟨t, t0, t1, by rw [h2, move_along, b0, b1]⟩, ?_⟩
    rintro _ _ ⟨v, hv, rfl⟩ ⟨s, s0, s1, rfl⟩
    have := h3 v _ hv ⟨s, s0, s1, rfl⟩
    rw [← b0, ← b1, ← move_along, move_sub, show c.posA + Quat.rotate c.ornA v = move c.posA c.ornA v from rfl, move_sub,
      rotate_length _ oA, rotate_length _ oA]
    exact this
  have hD2 := hout _ _ pair.1 pair.2.1
  have hcA := placed_convex (hull_convex m.verts) c.posA c.ornA
  have hcB := seg_convex (capVertex0 hl a c.posB c.ornB) (capVertex1 hl a c.posB c.ornB)
  have hpos : 0 < lengthSqr (move c.posA c.ornA p' - move c.posA c.ornA q') := lt_of_le_of_lt hK hD2
  obtain ⟨D, hD, hDD⟩ : ∃ D, 0 < D ∧ D * D = lengthSqr (move c.posA c.ornA p' - move c.posA c.ornA q') :=
    ⟨_, Real.sqrt_pos.mpr hpos, Real.mul_self_sqrt hpos.le⟩
  obtain ⟨n0, n1, n2, n3, n4, n5⟩ := closest_gap hcA hcB pair hr hD hDD
  rw [← hcap] at n5
  have n2' : p' - q' = smul D (Quat.rotate c.ornA.conjugate n0) := by
    rw [← rotate_smul, ← n2, move_sub, (rotate_conjugate c.ornA oA _).1]
  have hcomp : CapCompared K.tiny m hl a c n0 := by
    rcases closest_feature (d := p' - q') hm hcl hpq'.1 (by rw [← rotate_length c.ornA oA, ← move_sub]; exact hpos) (fun w hw => by
      have := n3 _ ⟨w, hw, rfl⟩
      have e : ∀ v, dot (c.posA + Quat.rotate c.ornA v) n0 = dot c.posA n0 + dot v (Quat.rotate c.ornA.conjugate n0) := by
        intro v
        rw [dot_add_left]
        congr 1
        have := rotate_dot (Quat.conjugate c.ornA) (conjugate_unit oA) (Quat.rotate c.ornA v) n0
        rw [(rotate_conjugate c.ornA oA v).1] at this
        exact this.symm
      rw [show move c.posA c.ornA p' = c.posA + Quat.rotate c.ornA p' from rfl, e, e] at this
      rw [n2', dot_smul_right, dot_smul_right]
      exact mul_le_mul_of_nonneg_left (by linarith) hD.le) with ⟨f, hf, k, k0, hfk⟩ | ⟨e, hee, ⟨v0, v1⟩, hseg⟩
    · have : n0 = -Quat.rotate c.ornA f.1 := by
        rw [n2'] at hfk
        have hk2 : k = D := by
          have l1 := congrArg lengthSqr hfk
          have ls : ∀ (s : ℝ) (v : V3 ℝ), lengthSqr (smul s v) = s * s * lengthSqr v := by
            intro s v; simp [lengthSqr, dot]; ring
          rw [ls, ls, rotate_unit (conjugate_unit oA) n1, neg_unit (hm.face_unit f hf)] at l1
          nlinarith
        rw [hk2] at hfk
        have h2 : Quat.rotate c.ornA.conjugate n0 = -f.1 := by
          generalize Quat.rotate c.ornA.conjugate n0 = u at hfk
          have ex := congrArg V3.x hfk
          have ey := congrArg V3.y hfk
          have ez := congrArg V3.z hfk
          simp only [smul_x, smul_y, smul_z] at ex ey ez
          ext
          · exact mul_left_cancel₀ hD.ne' ex
          · exact mul_left_cancel₀ hD.ne' ey
          · exact mul_left_cancel₀ hD.ne' ez
        have h3 := congrArg (Quat.rotate c.ornA) h2
        rw [(rotate_conjugate c.ornA oA n0).2, rotate_neg] at h3
        exact h3
      rw [this]; exact .face hf
    · have h0 : Hull m.verts 0 := hcl.inside 0 fun f' hf' => by
        have := hcl.around f' hf'
        rw [dot_sub_left, show dot (0 : V3 ℝ) f'.1 = 0 by simp [dot]]; linarith
      have hA0 := n3 c.posA ⟨0, h0, by rw [show Quat.rotate c.ornA 0 = (0 : V3 ℝ) by ext <;> simp [Quat.rotate]]; ext <;> simp⟩
      have hB0 := n4 c.posB (axis_center hl a c.posB c.ornB)
      have hneg : dot (c.posB - c.posA) n0 < 0 := by
        have := congrArg (fun v => dot v n0) n2
        simp only [dot_sub_left, dot_smul_left, show dot n0 n0 = 1 from n1, mul_one] at this
        rw [dot_sub_left]; linarith
      refine .edge (p := move c.posA c.ornA p') (q := move c.posA c.ornA q') (k := D) hee ⟨?_, pair.2.1, ?_⟩ hD2 n1 n2 hneg.le
        (fun _ => hD)
      · obtain ⟨t, t0, t1, h⟩ := hseg
        exact ⟨t, t0, t1, by rw [h, move_along]; rfl⟩
      · rintro _ _ ⟨t, t0, t1, rfl⟩ hw
        exact pair.2.2 _ _ (hcA _ _ ⟨_, .vertex v0, rfl⟩ ⟨_, .vertex v1, rfl⟩ t t0 t1) hw
  have hge := e4 hclear n0 _ hcomp n5
  -- the direction found is no better
  have hle := e3.1 _ (move c.posA c.ornA q' + smul r n) pair.1 (by
    rw [hcap]; exact ⟨_, pair.2.1, by
      rw [show lengthSqr (move c.posA c.ornA q' + smul r n - move c.posA c.ornA q') = r * r * lengthSqr n by
        simp [lengthSqr, dot]; ring, e2, mul_one]⟩)
  have hexp : dot (move c.posA c.ornA p' - (move c.posA c.ornA q' + smul r n)) n = D * dot n0 n - r := by
    have h1 : dot (move c.posA c.ornA p' - (move c.posA c.ornA q' + smul r n)) n =
        dot (move c.posA c.ornA p' - move c.posA c.ornA q') n - r * dot n n := by simp [dot]; ring
    rw [h1, n2, dot_smul_left, show dot n n = 1 from e2, mul_one]
  rw [hexp] at hle
  have hn : n = n0 := same_dir n1 e2 (by nlinarith)
  subst hn
  have hdist : dist = D - r := by
    rw [show dot n n = 1 from n1, mul_one] at hle; linarith
  subst hdist
  have near := inflate_near pair (rA := 0) le_rfl hr ht0
  rw [inflate_zero, ← hcap, ← hDD] at near
  refine ⟨l, n, _, _, D - r, e1, e2, pair, by linarith, by rw [show D - r + r = D by ring]; exact n2, ?_, fun h => (e5 h).1, e7⟩
  rw [near]
  constructor
  · intro h; nlinarith
  · intro h
    by_contra hcon
    push Not at hcon
    nlinarith

end Edyn.Collide
