import Verif.Collide.BoxBox

/-!
# The parts of contact generation between two boxes (C87)
-/

namespace Edyn.Collide

open Edyn.Math hiding lengthSqr_nonneg
open V3 Edyn.Geom Edyn.Contact

/-! ## Folds -/

/-- A loop which cannot fail keeps an invariant, and a goal once it is reached. -/
theorem fold_hit {α β : Type} (f : β → α → Option β) (Q H : β → Prop) (T : α → Prop) : ∀ (xs : List α),
    (∀ b, Q b → ∀ x ∈ xs, ∃ b', f b x = some b' ∧ Q b' ∧ (H b → H b') ∧ (T x → H b')) → ∀ b, Q b →
    ∃ b', xs.foldlM f b = some b' ∧ Q b' ∧ ((H b ∨ ∃ x ∈ xs, T x) → H b') := by
  intro xs
  induction xs with
  | nil =>
    intro _ b hb
    refine ⟨b, rfl, hb, ?_⟩
    rintro (h | ⟨x, hx, _⟩)
    · exact h
    · simp at hx
  | cons x xs ih =>
    intro hs b hb
    obtain ⟨b1, e1, q1, k1, t1⟩ := hs b hb x (by simp)
    obtain ⟨b2, e2, q2, k2⟩ := ih (fun b hb y hy => hs b hb y (by simp [hy])) b1 q1
    refine ⟨b2, ?_, q2, ?_⟩
    · rw [List.foldlM_cons, e1]; exact e2
    · rintro (h | ⟨y, hy, hT⟩)
      · exact k2 (.inl (k1 h))
      · rcases List.mem_cons.1 hy with rfl | hy
        · exact k2 (.inl (t1 hT))
        · exact k2 (.inr ⟨y, hy, hT⟩)

/-- A loop each of whose steps adds at most one of four points. -/
theorem fold_count {α : Type} (f : List Point → α → Option (List Point)) (P : Point → Prop) (T : α → Prop) : ∀ (xs : List α),
    (∀ l, l.length < 4 → (∀ p ∈ l, P p) → ∀ x ∈ xs, ∃ l', f l x = some l' ∧ l'.length ≤ l.length + 1 ∧ (∀ p ∈ l', P p) ∧
      (l ≠ [] → l' ≠ []) ∧ (T x → l' ≠ [])) → ∀ l, l.length + xs.length ≤ 4 → (∀ p ∈ l, P p) →
    ∃ l', xs.foldlM f l = some l' ∧ l'.length ≤ l.length + xs.length ∧ (∀ p ∈ l', P p) ∧
      ((l ≠ [] ∨ ∃ x ∈ xs, T x) → l' ≠ []) := by
  intro xs
  induction xs with
  | nil =>
    intro _ l hl hb
    refine ⟨l, rfl, by simp, hb, ?_⟩
    rintro (h | ⟨x, hx, _⟩)
    · exact h
    · simp at hx
  | cons x xs ih =>
    intro hs l hl hb
    simp only [List.length_cons] at hl
    obtain ⟨l1, e1, n1, q1, k1, t1⟩ := hs l (by omega) hb x (by simp)
    obtain ⟨l2, e2, n2, q2, k2⟩ := ih (fun b hb hq y hy => hs b hb hq y (by simp [hy])) l1 (by omega) q1
    refine ⟨l2, ?_, by simp only [List.length_cons]; omega, q2, ?_⟩
    · rw [List.foldlM_cons, e1]; exact e2
    · rintro (h | ⟨y, hy, hT⟩)
      · exact k2 (.inl (k1 h))
      · rcases List.mem_cons.1 hy with rfl | hy
        · exact k2 (.inl (t1 hT))
        · exact k2 (.inr ⟨y, hy, hT⟩)

theorem maybeAdd_spec (K : Consts ℝ) (P : Point → Prop) (l : List Point) (p : Point) (hl : l.length ≤ 4) (h : ∀ q ∈ l, P q) (hp : P p) :
    (maybeAdd K l p).length ≤ 4 ∧ (∀ q ∈ maybeAdd K l p, P q) ∧ maybeAdd K l p ≠ [] := by
  have hne : maybeAdd K l p ≠ [] := by
    cases l with
    | nil => simp [maybeAdd, insertionPoint]
    | cons q l =>
      rcases maybeAdd_cases K (q :: l) p with e | ⟨e, h4⟩ | ⟨i, hi, e⟩ <;> rw [e]
      · simp
      · simp
      · intro hc; have := congrArg List.length hc; simp at this
  rcases maybeAdd_cases K l p with e | ⟨e, h4⟩ | ⟨i, hi, e⟩
  · exact ⟨by rw [e]; exact hl, by rw [e]; exact h, hne⟩
  · refine ⟨by rw [e]; simp; omega, ?_, hne⟩
    rw [e]
    intro q hq
    rcases List.mem_append.1 hq with hq | hq
    · exact h q hq
    · simp only [List.mem_singleton] at hq; rw [hq]; exact hp
  · refine ⟨by rw [e]; simpa using hl, ?_, hne⟩
    rw [e]
    intro q hq
    rcases List.mem_or_eq_of_mem_set hq with hq | rfl
    · exact h q hq
    · exact hp

theorem addPoint_spec (P : Point → Prop) (l : List Point) (p : Point) (hl : l.length < 4) (h : ∀ q ∈ l, P q) (hp : P p) :
    ∃ l', addPoint l p = some l' ∧ l'.length ≤ l.length + 1 ∧ (∀ q ∈ l', P q) ∧ l' ≠ [] := by
  refine ⟨l ++ [p], by unfold addPoint; rw [if_pos hl], by simp, ?_, by simp⟩
  intro q hq
  rcases List.mem_append.1 hq with hq | hq
  · exact h q hq
  · simp only [List.mem_singleton] at hq; rw [hq]; exact hp

/-! ## Over a face -/

/-- The point is over the face, within the tolerance of `point_in_polygonal_prism`. -/
def FaceAt.Over (F : FaceAt) (eps : ℝ) (p : V3 ℝ) : Prop :=
  2 * F.hz * (|dot (p - F.center) F.x| - F.hx) ≤ eps ∧ 2 * F.hx * (|dot (p - F.center) F.z| - F.hz) ≤ eps

/-- The parameters at which a segment is cut. -/
noncomputable def FaceAt.cuts (F : FaceAt) (eps : ℝ) (e0 e1 : V3 ℝ) : List ℝ :=
  lineAabb eps (F.flat e0) (F.flat e1) ⟨-F.hx, -F.hz⟩ ⟨F.hx, F.hz⟩

/-- A segment is cut by the border of a face. -/
def FaceAt.Cut (F : FaceAt) (eps : ℝ) (e0 e1 : V3 ℝ) (s : ℝ) : Prop := s ∈ F.cuts eps e0 e1 ∧ 0 ≤ s ∧ s ≤ 1

theorem addParam_length {eps : ℝ} {l : List ℝ} {t : ℝ} (h : l.length ≤ 1) : (addParam eps l t).length ≤ 2 := by
  unfold addParam
  match l, h with
  | [], _ => simp
  | [s], _ => dsimp only; split_ifs <;> simp

theorem lineAabb_length (eps : ℝ) (p0 p1 mn mx : V2) : (lineAabb eps p0 p1 mn mx).length ≤ 2 := by
  unfold lineAabb
  simp only
  by_cases a1 : |(sub2 p1 p0).x| < eps
  · rw [if_pos a1]; split_ifs <;> simp
  rw [if_neg a1]
  by_cases a2 : |(sub2 p1 p0).y| < eps
  · rw [if_pos a2]; split_ifs <;> simp
  rw [if_neg a2]
  have add : ∀ (c : Prop) [Decidable c] (l : List ℝ) (t : ℝ), l.length ≤ 1 → (if c then addParam eps l t else l).length ≤ 2 := by
    intro c _ l t hl
    split_ifs
    · exact addParam_length hl
    · omega
  have h1 : ∀ (c : Prop) [Decidable c] (t : ℝ), (if c then [t] else []).length ≤ 1 := by
    intro c _ t; split_ifs <;> simp
  have h2 := add (mn.y < p0.y + (sub2 p1 p0).y * ((sub2 mx p0).x / (sub2 p1 p0).x) ∧
    p0.y + (sub2 p1 p0).y * ((sub2 mx p0).x / (sub2 p1 p0).x) ≤ mx.y) _ ((sub2 mx p0).x / (sub2 p1 p0).x)
    (h1 (mn.y ≤ p0.y + (sub2 p1 p0).y * ((sub2 mn p0).x / (sub2 p1 p0).x) ∧
      p0.y + (sub2 p1 p0).y * ((sub2 mn p0).x / (sub2 p1 p0).x) < mx.y) ((sub2 mn p0).x / (sub2 p1 p0).x))
  generalize (if mn.y < p0.y + (sub2 p1 p0).y * ((sub2 mx p0).x / (sub2 p1 p0).x) ∧
    p0.y + (sub2 p1 p0).y * ((sub2 mx p0).x / (sub2 p1 p0).x) ≤ mx.y then _ else _ : List ℝ) = l2 at h2 ⊢
  by_cases b2 : l2.length = 2
  · rw [if_pos b2]; exact h2
  rw [if_neg b2]
  have h3 := add (mn.x ≤ p0.x + (sub2 p1 p0).x * ((sub2 mn p0).y / (sub2 p1 p0).y) ∧
    p0.x + (sub2 p1 p0).x * ((sub2 mn p0).y / (sub2 p1 p0).y) < mx.x) l2 ((sub2 mn p0).y / (sub2 p1 p0).y) (by omega)
  generalize (if mn.x ≤ p0.x + (sub2 p1 p0).x * ((sub2 mn p0).y / (sub2 p1 p0).y) ∧
    p0.x + (sub2 p1 p0).x * ((sub2 mn p0).y / (sub2 p1 p0).y) < mx.x then _ else _ : List ℝ) = l3 at h3 ⊢
  by_cases b3 : l3.length = 2
  · rw [if_pos b3]; exact h3
  rw [if_neg b3]
  exact add _ l3 _ (by omega)

open Classical in
theorem inside_may {eps : ℝ} {K : Consts ℝ} {F : FaceAt} {S : V3 ℝ → Prop} (hF : F.Of S) {P : Point → Prop} {mk : V3 ℝ → Point}
    {vs : List (V3 ℝ)} (hP : ∀ v ∈ vs, F.Over eps v → P (mk v)) {l : List Point} (hl : l.length ≤ 4) (h : ∀ q ∈ l, P q) :
    ∃ l', addInside eps (mayAdd K) F mk vs l = some l' ∧ l'.length ≤ 4 ∧ (∀ q ∈ l', P q) ∧
      ((l ≠ [] ∨ ∃ v ∈ vs, F.Over eps v) → l' ≠ []) := by
  unfold addInside
  have := fold_hit (fun l v => (pointInPrism eps F.verts F.normal v).bind fun P => if P then mayAdd K l (mk v) else some l)
    (fun l => l.length ≤ 4 ∧ ∀ q ∈ l, P q) (fun l => l ≠ []) (F.Over eps) vs ?_ l ⟨hl, h⟩
  · obtain ⟨l', e, ⟨q1, q2⟩, k⟩ := this
    exact ⟨l', e, q1, q2, k⟩
  · rintro b ⟨b1, b2⟩ v hv
    obtain ⟨Q, e, hQ⟩ := hF.inside eps v
    simp only [e, Option.bind_some]
    by_cases hq : Q
    · rw [if_pos hq]
      obtain ⟨m1, m2, m3⟩ := maybeAdd_spec K P b (mk v) b1 b2 (hP v hv (hQ.1 hq))
      exact ⟨_, rfl, ⟨m1, m2⟩, fun _ => m3, fun _ => m3⟩
    · rw [if_neg hq]
      exact ⟨b, rfl, ⟨b1, b2⟩, id, fun hT => absurd (hQ.2 hT) hq⟩

theorem inside_add {eps : ℝ} {F : FaceAt} {S : V3 ℝ → Prop} (hF : F.Of S) {P : Point → Prop} {mk : V3 ℝ → Point}
    {vs : List (V3 ℝ)} (hP : ∀ v ∈ vs, F.Over eps v → P (mk v)) {l : List Point} (hl : l.length + vs.length ≤ 4) (h : ∀ q ∈ l, P q) :
    ∃ l', addInside eps addPoint F mk vs l = some l' ∧ l'.length ≤ l.length + vs.length ∧ (∀ q ∈ l', P q) ∧
      ((l ≠ [] ∨ ∃ v ∈ vs, F.Over eps v) → l' ≠ []) := by
  unfold addInside
  refine fold_count _ P (F.Over eps) vs ?_ l hl h
  intro b b1 b2 v hv
  obtain ⟨Q, e, hQ⟩ := hF.inside eps v
  simp only [e, Option.bind_some]
  by_cases hq : Q
  · rw [if_pos hq]
    obtain ⟨l', m0, m1, m2, m3⟩ := addPoint_spec P b (mk v) b1 b2 (hP v hv (hQ.1 hq))
    exact ⟨l', m0, m1, m2, fun _ => m3, fun _ => m3⟩
  · rw [if_neg hq]
    exact ⟨b, rfl, by omega, b2, id, fun hT => absurd (hQ.2 hT) hq⟩

theorem cross_may {eps : ℝ} {K : Consts ℝ} {F : FaceAt} {P : Point → Prop} {mk : V3 ℝ → Point} {e0 e1 : V3 ℝ}
    (hP : ∀ s, F.Cut eps e0 e1 s → P (mk (smul (1 - s) e0 + smul s e1))) {l : List Point} (hl : l.length ≤ 4) (h : ∀ q ∈ l, P q) :
    ∃ l', addCross eps (mayAdd K) F mk e0 e1 l = some l' ∧ l'.length ≤ 4 ∧ (∀ q ∈ l', P q) ∧
      ((l ≠ [] ∨ ∃ s, F.Cut eps e0 e1 s) → l' ≠ []) := by
  unfold addCross
  have := fold_hit (fun l s => if s < 0 ∨ 1 < s then some l else mayAdd K l (mk (smul (1 - s) e0 + smul s e1)))
    (fun l => l.length ≤ 4 ∧ ∀ q ∈ l, P q) (fun l => l ≠ []) (fun s => 0 ≤ s ∧ s ≤ 1) (F.cuts eps e0 e1) ?_ l ⟨hl, h⟩
  · obtain ⟨l', e, ⟨q1, q2⟩, k⟩ := this
    refine ⟨l', e, q1, q2, fun hk => k ?_⟩
    rcases hk with hk | ⟨s, hs⟩
    · exact .inl hk
    · exact .inr ⟨s, hs⟩
  · rintro b ⟨b1, b2⟩ s hs
    by_cases hq : s < 0 ∨ 1 < s
    · simp only [if_pos hq]
      refine ⟨b, rfl, ⟨b1, b2⟩, id, ?_⟩
      rintro ⟨h0, h1⟩
      rcases hq with hq | hq <;> linarith
    · simp only [if_neg hq]
      simp only [not_or, not_lt] at hq
      obtain ⟨m1, m2, m3⟩ := maybeAdd_spec K P b _ b1 b2 (hP s ⟨hs, hq⟩)
      exact ⟨_, rfl, ⟨m1, m2⟩, fun _ => m3, fun _ => m3⟩

theorem cross_add {eps : ℝ} {F : FaceAt} {P : Point → Prop} {mk : V3 ℝ → Point} {e0 e1 : V3 ℝ}
    (hP : ∀ s, F.Cut eps e0 e1 s → P (mk (smul (1 - s) e0 + smul s e1))) {l : List Point} (hl : l.length ≤ 2) (h : ∀ q ∈ l, P q) :
    ∃ l', addCross eps addPoint F mk e0 e1 l = some l' ∧ l'.length ≤ 4 ∧ (∀ q ∈ l', P q) ∧
      ((l ≠ [] ∨ ∃ s, F.Cut eps e0 e1 s) → l' ≠ []) := by
  have hc := lineAabb_length eps (F.flat e0) (F.flat e1) ⟨-F.hx, -F.hz⟩ ⟨F.hx, F.hz⟩
  unfold addCross
  have := fold_count (fun l s => if s < 0 ∨ 1 < s then some l else addPoint l (mk (smul (1 - s) e0 + smul s e1)))
    P (fun s => 0 ≤ s ∧ s ≤ 1) (F.cuts eps e0 e1) ?_ l (by unfold FaceAt.cuts; omega) h
  · obtain ⟨l', e, q1, q2, k⟩ := this
    refine ⟨l', e, by unfold FaceAt.cuts at q1; omega, q2, fun hk => k ?_⟩
    rcases hk with hk | ⟨s, hs⟩
    · exact .inl hk
    · exact .inr ⟨s, hs⟩
  · intro b b1 b2 s hs
    by_cases hq : s < 0 ∨ 1 < s
    · simp only [if_pos hq]
      refine ⟨b, rfl, by omega, b2, id, ?_⟩
      rintro ⟨h0, h1⟩
      rcases hq with hq | hq <;> linarith
    · simp only [if_neg hq]
      simp only [not_or, not_lt] at hq
      obtain ⟨l', m0, m1, m2, m3⟩ := addPoint_spec P b _ b1 b2 (hP s ⟨hs, hq⟩)
      exact ⟨l', m0, m1, m2, fun _ => m3, fun _ => m3⟩

/-! ## The cases -/

/-- The sides of a face, in order. -/
def FaceAt.edges (F : FaceAt) : List (V3 ℝ × V3 ℝ) := [(F.v0, F.v1), (F.v1, F.v2), (F.v2, F.v3), (F.v3, F.v0)]

theorem faceFace_spec {eps : ℝ} {K : Consts ℝ} {FA FB : FaceAt} {SA SB : V3 ℝ → Prop} (hA : FA.Of SA) (hB : FB.Of SB)
    {mk : V3 ℝ → V3 ℝ → Point} {P : Point → Prop}
    (h1 : ∀ v ∈ FB.verts, FA.Over eps v → P (mk (projectPlane v FA.v0 FA.normal) v))
    (h2 : ∀ v ∈ FA.verts, FB.Over eps v → P (mk v (projectPlane v FB.v0 FB.normal)))
    (h3 : ∀ e ∈ FB.edges, ∀ s, FA.Cut eps e.1 e.2 s → P (mk (projectPlane (smul (1 - s) e.1 + smul s e.2) FA.center FA.normal)
      (smul (1 - s) e.1 + smul s e.2))) :
    ∃ l, faceFace eps K FA FB mk = some l ∧ l.length ≤ 4 ∧ (∀ q ∈ l, P q) ∧
      (((∃ v ∈ FB.verts, FA.Over eps v) ∨ (∃ v ∈ FA.verts, FB.Over eps v) ∨ ∃ e ∈ FB.edges, ∃ s, FA.Cut eps e.1 e.2 s) → l ≠ []) := by
  unfold faceFace
  obtain ⟨l1, e1, n1, p1, k1⟩ := inside_may (K := K) hA (l := []) h1 (by simp) (by simp)
  obtain ⟨l2, e2, n2, p2, k2⟩ := inside_may (K := K) hB (l := l1) h2 n1 p1
  rw [e1, Option.bind_some, e2, Option.bind_some]
  by_cases h4 : l2.length < 4
  · rw [if_pos h4]
    have := fold_hit (fun l (e : V3 ℝ × V3 ℝ) => addCross eps (mayAdd K) FA (fun q => mk (projectPlane q FA.center FA.normal) q) e.1 e.2 l)
      (fun l => l.length ≤ 4 ∧ ∀ q ∈ l, P q) (fun l => l ≠ []) (fun e => ∃ s, FA.Cut eps e.1 e.2 s) FB.edges ?_ l2 ⟨n2, p2⟩
    · obtain ⟨l3, e3, ⟨n3, p3⟩, k3⟩ := this
      refine ⟨l3, e3, n3, p3, ?_⟩
      rintro (h | h | h)
      · exact k3 (.inl (k2 (.inl (k1 (.inr h)))))
      · exact k3 (.inl (k2 (.inr h)))
      · exact k3 (.inr h)
    · rintro b ⟨b1, b2⟩ e he
      obtain ⟨l', m0, m1, m2, m3⟩ := cross_may (K := K) (F := FA) (P := P)
        (mk := fun q => mk (projectPlane q FA.center FA.normal) q) (h3 e he) b1 b2
      exact ⟨l', m0, ⟨m1, m2⟩, fun h => m3 (.inl h), fun h => m3 (.inr h)⟩
  · rw [if_neg h4]
    refine ⟨l2, rfl, n2, p2, fun _ hc => ?_⟩
    rw [hc] at h4; simp at h4

theorem faceEdge_spec {eps : ℝ} {F : FaceAt} {S : V3 ℝ → Prop} (hF : F.Of S) {sep e0 e1 : V3 ℝ}
    {mk : V3 ℝ → V3 ℝ → Point} {P : Point → Prop}
    (h1 : ∀ v ∈ [e0, e1], F.Over eps v → P (mk (projectPlane v F.v0 F.normal) v))
    (h3 : ∀ s, F.Cut eps e0 e1 s → P (mk (projectPlane (smul (1 - s) e0 + smul s e1) F.center sep) (smul (1 - s) e0 + smul s e1))) :
    ∃ l, faceEdge eps F sep e0 e1 mk = some l ∧ l.length ≤ 4 ∧ (∀ q ∈ l, P q) ∧
      ((F.Over eps e0 ∨ F.Over eps e1 ∨ ∃ s, F.Cut eps e0 e1 s) → l ≠ []) := by
  unfold faceEdge
  obtain ⟨l1, e1', n1, p1, k1⟩ := inside_add hF (l := []) h1 (by simp) (by simp)
  rw [e1', Option.bind_some]
  by_cases h4 : l1.length < 2
  · rw [if_pos h4]
    obtain ⟨l', m0, m1, m2, m3⟩ := cross_add (F := F) (P := P) (mk := fun q => mk (projectPlane q F.center sep) q) h3 (by omega) p1
    refine ⟨l', m0, m1, m2, ?_⟩
    rintro (h | h | h)
    · exact m3 (.inl (k1 (.inr ⟨e0, by simp, h⟩)))
    · exact m3 (.inl (k1 (.inr ⟨e1, by simp, h⟩)))
    · exact m3 (.inr h)
  · rw [if_neg h4]
    simp only [List.length_nil, List.length_cons] at n1
    refine ⟨l1, rfl, by omega, p1, fun _ hc => ?_⟩
    rw [hc] at h4; simp at h4

/-- The point is on the segment. -/
def OnSeg (e : V3 ℝ × V3 ℝ) (p : V3 ℝ) : Prop := ∃ s, 0 ≤ s ∧ s ≤ 1 ∧ p = e.1 + smul s (e.2 - e.1)

theorem clampUnit_mem (x : ℝ) : 0 ≤ clampUnit x ∧ clampUnit x ≤ 1 := by
  unfold clampUnit
  split_ifs <;> constructor <;> linarith

theorem edgeEdge_spec {eps : ℝ} {a b : V3 ℝ × V3 ℝ} (ha : eps < lengthSqr (a.2 - a.1)) (hb : eps < lengthSqr (b.2 - b.1)) (he : 0 ≤ eps)
    {mk : V3 ℝ → V3 ℝ → Point} {P : Point → Prop} (h : ∀ p q, OnSeg a p → OnSeg b q → P (mk p q)) :
    ∃ l, edgeEdge eps a b mk = some l ∧ l.length ≤ 4 ∧ (∀ q ∈ l, P q) ∧ l ≠ [] := by
  have ha' : ¬ dot (a.2 - a.1) (a.2 - a.1) ≤ eps := not_le.2 ha
  have hb' : ¬ dot (b.2 - b.1) (b.2 - b.1) ≤ eps := not_le.2 hb
  have hpa : 0 < dot (a.2 - a.1) (a.2 - a.1) := lt_of_le_of_lt he ha
  have hpb : 0 < dot (b.2 - b.1) (b.2 - b.1) := lt_of_le_of_lt he hb
  have fin : ∀ s b' c f, 0 ≤ s ∧ s ≤ 1 → let r := segFinish (dot (a.2 - a.1) (a.2 - a.1)) b' c (dot (b.2 - b.1) (b.2 - b.1)) f s
      (0 ≤ r.1 ∧ r.1 ≤ 1) ∧ 0 ≤ r.2 ∧ r.2 ≤ 1 := by
    intro s b' c f hs
    unfold segFinish
    simp only
    split_ifs with k1 k2
    · exact ⟨clampUnit_mem _, le_refl _, by norm_num⟩
    · exact ⟨clampUnit_mem _, by norm_num, le_refl _⟩
    · exact ⟨hs, div_nonneg (not_lt.1 k1) hpb.le, (div_le_one hpb).2 (not_lt.1 k2)⟩
  have seg : OnSeg a (closestSegSeg eps true a.1 a.2 b.1 b.2).c1 ∧ OnSeg b (closestSegSeg eps true a.1 a.2 b.1 b.2).c2 ∧
      ((closestSegSeg eps true a.1 a.2 b.1 b.2).num = some 1 ∨ (closestSegSeg eps true a.1 a.2 b.1 b.2).num = some 2 ∧
        ∃ q, (closestSegSeg eps true a.1 a.2 b.1 b.2).second = some q ∧ OnSeg a q.2.2.1 ∧ OnSeg b q.2.2.2) := by
    unfold closestSegSeg
    simp only [ha', hb', if_false, false_and, if_true]
    split_ifs with k1 k2
    · obtain ⟨s1, s2⟩ := fin (clampUnit _) _ _ _ (clampUnit_mem _)
      exact ⟨⟨_, s1.1, s1.2, rfl⟩, ⟨_, s2.1, s2.2, rfl⟩, .inl rfl⟩
    · obtain ⟨s1, s2⟩ := fin (clampUnit _) _ _ _ (clampUnit_mem _)
      exact ⟨⟨_, s1.1, s1.2, rfl⟩, ⟨_, s2.1, s2.2, rfl⟩, .inr ⟨rfl, _, rfl, ⟨_, (clampUnit_mem _).1, (clampUnit_mem _).2, rfl⟩,
        ⟨_, (clampUnit_mem _).1, (clampUnit_mem _).2, rfl⟩⟩⟩
    · obtain ⟨s1, s2⟩ := fin (clampUnit _) _ _ _ (clampUnit_mem _)
      exact ⟨⟨_, s1.1, s1.2, rfl⟩, ⟨_, s2.1, s2.2, rfl⟩, .inl rfl⟩
  unfold edgeEdge
  simp only
  generalize closestSegSeg eps true a.1 a.2 b.1 b.2 = r at seg ⊢
  obtain ⟨s1, s2, s3 | ⟨s3, q, s4, s5, s6⟩⟩ := seg
  · rw [s3]
    refine ⟨[mk r.c1 r.c2], by simp [addPoint], by simp, ?_, by simp⟩
    intro q hq
    simp only [List.mem_singleton] at hq
    subst hq
    exact h _ _ s1 s2
  · rw [s3, s4]
    refine ⟨[mk r.c1 r.c2, mk q.2.2.1 q.2.2.2], by simp [addPoint], by simp, ?_, by simp⟩
    intro q hq
    simp only [List.mem_cons, List.not_mem_nil, or_false] at hq
    rcases hq with rfl | rfl
    · exact h _ _ s1 s2
    · exact h _ _ s5 s6

end Edyn.Collide
