import Verif.Geom.Raycast

/-!
# Casting a segment against polyhedra (C70)

`shape_raycast` of a polyhedron, `src/edyn/collision/raycast.cpp` 259-321.
-/

namespace Edyn.Geom

open Edyn.Math V3

/-! ## Model -/

/-- The range of parameters and the entered face (`none`: `SIZE_MAX`). -/
structure PolyState where
  t0 : ℝ
  t1 : ℝ
  face : Option ℕ

/-- The update of the range for a face which is not parallel, `raycast.cpp` 288-299. -/
noncomputable def polyUpdate (denom t : ℝ) (i : ℕ) (st : PolyState) : PolyState :=
  if denom < 0 then (if st.t0 < t then ⟨t, st.t1, some i⟩ else st)
  else (if t < st.t1 then ⟨st.t0, t, st.face⟩ else st)

/-- One face of the loop, `raycast.cpp` 270-305: `v` is the first vertex of the face with index `i`, `n` its
normal; `none`: no intersection. -/
noncomputable def polyStep (eps : ℝ) (p0 d : V3 ℝ) (i : ℕ) (v n : V3 ℝ) (st : PolyState) : Option PolyState :=
  let dist := dot (v - p0) n
  let denom := dot n d
  if |denom| < eps then (if 0 < dist then none else some st) else
  let st' := polyUpdate denom (dist / denom) i st
  if st'.t1 < st'.t0 then none else some st'

/-- The loop over the faces, from the face with index `i`. -/
noncomputable def polyLoop (eps : ℝ) (p0 d : V3 ℝ) : ℕ → List (V3 ℝ × V3 ℝ) → PolyState → Option PolyState
  | _, [], st => some st
  | i, (v, n) :: fs, st => (polyStep eps p0 d i v n st).bind fun st' => polyLoop eps p0 d (i + 1) fs st'

/-- `shape_raycast` of a polyhedron, `raycast.cpp` 259-321, for the faces given by their first vertex and their
normal. -/
noncomputable def polyRay (eps big : ℝ) (faces : List (V3 ℝ × V3 ℝ)) (pos : V3 ℝ) (orn : Quat ℝ) (q0 q1 : V3 ℝ) :
    RayRes :=
  let p0 := toObjectSpace q0 pos orn
  let p1 := toObjectSpace q1 pos orn
  match polyLoop eps p0 (p1 - p0) 0 faces ⟨-big, big, none⟩ with
  | none => some none
  | some st =>
    if (st.t0 < 0 ∧ st.t1 < 0) ∨ (1 < st.t0 ∧ 1 < st.t1) then some none else
    (st.face.bind fun i => faces[i]?).map fun f => some ⟨clampUnit st.t0, some (Quat.rotate orn f.2)⟩

/-! ## Specification -/

/-- A polyhedron: the points behind all faces. -/
def polySet (faces : List (V3 ℝ × V3 ℝ)) : Shape := fun q => ∀ f ∈ faces, dot f.2 (q - f.1) ≤ 0

/-- The full statement for polyhedra (for `big` large enough). -/
def PolyRayFull (eps big : ℝ) : Prop :=
  ∀ (faces : List (V3 ℝ × V3 ℝ)) (pos : V3 ℝ) (orn : Quat ℝ) (q0 q1 : V3 ℝ), orn.lengthSqr = 1 → q0 ≠ q1 →
    (∀ f ∈ faces, lengthSqr f.2 = 1) → (∃ R, ∀ q, polySet faces q → lengthSqr q ≤ R) →
    RayExact (Placed (polySet faces) pos orn) q0 q1 (polyRay eps big faces pos orn q0 q1)

/-! ## Proof -/

/-- What a state of the loop means. -/
structure PolyInv (big : ℝ) (p0 p1 : V3 ℝ) (all seen : List (V3 ℝ × V3 ℝ)) (st : PolyState) : Prop where
  range : ∀ t, (st.t0 ≤ t ∧ t ≤ st.t1) ↔ ((-big ≤ t ∧ t ≤ big) ∧ polySet seen (along p0 p1 t))
  lower : -big ≤ st.t0
  le : st.t0 ≤ st.t1
  face : -big < st.t0 → ∃ i f, st.face = some i ∧ all[i]? = some f ∧ dot f.2 (along p0 p1 st.t0 - f.1) = 0
  enter : st.face = none → ∀ f ∈ seen, dot f.2 (p1 - p0) < 0 → dot (f.1 - p0) f.2 / dot f.2 (p1 - p0) ≤ -big
  valid : ∀ i, st.face = some i → ∃ f, all[i]? = some f

theorem polySet_append (a : List (V3 ℝ × V3 ℝ)) (f : V3 ℝ × V3 ℝ) (q : V3 ℝ) :
    polySet (a ++ [f]) q ↔ polySet a q ∧ dot f.2 (q - f.1) ≤ 0 := by
  simp only [polySet, List.mem_append, List.mem_singleton]
  constructor
  · intro h
    exact ⟨fun g hg => h g (.inl hg), h f (.inr rfl)⟩
  · rintro ⟨h1, h2⟩ g (hg | rfl)
    · exact h1 g hg
    · exact h2

theorem polyStep_inv {eps big : ℝ} (he : 0 < eps) {p0 p1 : V3 ℝ} {i : ℕ} {v n : V3 ℝ}
    {all seen : List (V3 ℝ × V3 ℝ)} {st : PolyState} (hi : PolyInv big p0 p1 all seen st)
    (hd : eps ≤ |dot n (p1 - p0)|) (hall : all[i]? = some (v, n)) :
    (∀ st', polyStep eps p0 (p1 - p0) i v n st = some st' → PolyInv big p0 p1 all (seen ++ [(v, n)]) st') ∧
    (polyStep eps p0 (p1 - p0) i v n st = none → ∀ t, -big ≤ t → t ≤ big →
      ¬ polySet (seen ++ [(v, n)]) (along p0 p1 t)) := by
  have hplane : ∀ t, dot n (along p0 p1 t - v) = t * dot n (p1 - p0) - dot (v - p0) n := by
    intro t; simp [dot, along]; ring
  unfold polyStep
  rw [if_neg (not_lt.2 hd)]
  simp only
  have hd0 : dot n (p1 - p0) ≠ 0 := by
    intro h; rw [h, abs_zero] at hd; linarith
  generalize hden : dot n (p1 - p0) = den at *
  generalize hdist : dot (v - p0) n = dist at *
  have root : dist / den * den = dist := div_mul_cancel₀ _ hd0
  rcases lt_or_gt_of_ne hd0 with hneg | hpos
  · have hface : ∀ t, dot n (along p0 p1 t - v) ≤ 0 ↔ dist / den ≤ t := by
      intro t
      rw [hplane, div_le_iff_of_neg hneg]
      constructor <;> intro h <;> linarith
    by_cases hc : st.t0 < dist / den
    · have hst : polyUpdate den (dist / den) i st = ⟨dist / den, st.t1, some i⟩ := by
        unfold polyUpdate; rw [if_pos hneg, if_pos hc]
      rw [hst]
      simp only
      have rng : ∀ t, (dist / den ≤ t ∧ t ≤ st.t1) ↔
          ((-big ≤ t ∧ t ≤ big) ∧ polySet (seen ++ [(v, n)]) (along p0 p1 t)) := by
        intro t
        rw [polySet_append, hface, ← and_assoc, ← hi.range]
        constructor
        · rintro ⟨a, b⟩; exact ⟨⟨by linarith, b⟩, a⟩
        · rintro ⟨⟨a, b⟩, c⟩; exact ⟨c, b⟩
      split
      · rename_i hgt
        refine ⟨by simp, fun _ t h1 h2 hp => ?_⟩
        have := (rng t).2 ⟨⟨h1, h2⟩, hp⟩
        linarith [this.1, this.2]
      · rename_i hgt
        refine ⟨?_, by simp⟩
        intro st' e
        rw [Option.some_inj] at e
        subst e
        refine ⟨rng, by linarith [hi.lower], not_lt.1 hgt, fun _ => ⟨i, (v, n), rfl, hall, ?_⟩, by simp, ?_⟩
        · simp only [hplane, root, sub_self]
        · intro j hj
          rw [Option.some_inj] at hj
          subst hj
          exact ⟨_, hall⟩
    · have hst : polyUpdate den (dist / den) i st = st := by
        unfold polyUpdate; rw [if_pos hneg, if_neg hc]
      rw [hst]
      have rng : ∀ t, (st.t0 ≤ t ∧ t ≤ st.t1) ↔
          ((-big ≤ t ∧ t ≤ big) ∧ polySet (seen ++ [(v, n)]) (along p0 p1 t)) := by
        intro t
        rw [polySet_append, hface, ← and_assoc, ← hi.range]
        constructor
        · rintro ⟨a, b⟩; exact ⟨⟨a, b⟩, by linarith⟩
        · rintro ⟨⟨a, b⟩, c⟩; exact ⟨a, b⟩
      rw [if_neg (not_lt.2 hi.le)]
      refine ⟨?_, by simp⟩
      intro st' e
      rw [Option.some_inj] at e
      subst e
      refine ⟨rng, hi.lower, hi.le, hi.face, ?_, hi.valid⟩
      intro hnone f hf hfn
      rcases List.mem_append.1 hf with hf | hf
      · exact hi.enter hnone f hf hfn
      · rw [List.mem_singleton] at hf
        subst hf
        simp only [hden, hdist] at hfn ⊢
        have hlow : st.t0 ≤ -big := by
          by_contra hcon
          obtain ⟨j, _, hj, _⟩ := hi.face (not_le.1 hcon)
          rw [hnone] at hj
          exact absurd hj (by simp)
        linarith
  · have hnn : ¬ den < 0 := by linarith
    have hface : ∀ t, dot n (along p0 p1 t - v) ≤ 0 ↔ t ≤ dist / den := by
      intro t
      rw [hplane, le_div_iff₀ hpos]
      constructor <;> intro h <;> linarith
    have keep : st.face = none → ∀ f ∈ seen ++ [(v, n)], dot f.2 (p1 - p0) < 0 →
        dot (f.1 - p0) f.2 / dot f.2 (p1 - p0) ≤ -big := by
      intro hnone f hf hfn
      rcases List.mem_append.1 hf with hf | hf
      · exact hi.enter hnone f hf hfn
      · rw [List.mem_singleton] at hf
        subst hf
        simp only [hden] at hfn
        linarith
    by_cases hc : dist / den < st.t1
    · have hst : polyUpdate den (dist / den) i st = ⟨st.t0, dist / den, st.face⟩ := by
        unfold polyUpdate; rw [if_neg hnn, if_pos hc]
      rw [hst]
      simp only
      have rng : ∀ t, (st.t0 ≤ t ∧ t ≤ dist / den) ↔
          ((-big ≤ t ∧ t ≤ big) ∧ polySet (seen ++ [(v, n)]) (along p0 p1 t)) := by
        intro t
        rw [polySet_append, hface, ← and_assoc, ← hi.range]
        constructor
        · rintro ⟨a, b⟩; exact ⟨⟨a, by linarith⟩, b⟩
        · rintro ⟨⟨a, b⟩, c⟩; exact ⟨a, c⟩
      split
      · rename_i hgt
        refine ⟨by simp, fun _ t h1 h2 hp => ?_⟩
        have := (rng t).2 ⟨⟨h1, h2⟩, hp⟩
        linarith [this.1, this.2]
      · rename_i hgt
        refine ⟨?_, by simp⟩
        intro st' e
        rw [Option.some_inj] at e
        subst e
        exact ⟨rng, hi.lower, not_lt.1 hgt, hi.face, keep, hi.valid⟩
    · have hst : polyUpdate den (dist / den) i st = st := by
        unfold polyUpdate; rw [if_neg hnn, if_neg hc]
      rw [hst]
      have rng : ∀ t, (st.t0 ≤ t ∧ t ≤ st.t1) ↔
          ((-big ≤ t ∧ t ≤ big) ∧ polySet (seen ++ [(v, n)]) (along p0 p1 t)) := by
        intro t
        rw [polySet_append, hface, ← and_assoc, ← hi.range]
        constructor
        · rintro ⟨a, b⟩; exact ⟨⟨a, b⟩, by linarith⟩
        · rintro ⟨⟨a, b⟩, c⟩; exact ⟨a, b⟩
      rw [if_neg (not_lt.2 hi.le)]
      refine ⟨?_, by simp⟩
      intro st' e
      rw [Option.some_inj] at e
      subst e
      exact ⟨rng, hi.lower, hi.le, hi.face, keep, hi.valid⟩

theorem polyLoop_inv {eps big : ℝ} (he : 0 < eps) {p0 p1 : V3 ℝ} {all : List (V3 ℝ × V3 ℝ)} :
    ∀ (rest seen : List (V3 ℝ × V3 ℝ)) (st : PolyState), all = seen ++ rest → PolyInv big p0 p1 all seen st →
      (∀ f ∈ rest, eps ≤ |dot f.2 (p1 - p0)|) →
      (∀ st', polyLoop eps p0 (p1 - p0) seen.length rest st = some st' → PolyInv big p0 p1 all all st') ∧
      (polyLoop eps p0 (p1 - p0) seen.length rest st = none → ∀ t, -big ≤ t → t ≤ big →
        ¬ polySet all (along p0 p1 t)) := by
  intro rest
  induction rest with
  | nil =>
    intro seen st hall hi _
    rw [List.append_nil] at hall
    subst hall
    constructor
    · intro st' h
      rw [polyLoop, Option.some_inj] at h
      exact h ▸ hi
    · intro h
      rw [polyLoop] at h
      simp at h
  | cons f fs ih =>
    obtain ⟨v, n⟩ := f
    intro seen st hall hi hd
    have hget : all[seen.length]? = some (v, n) := by rw [hall]; simp
    obtain ⟨s1, s2⟩ := polyStep_inv he hi (hd (v, n) (by simp)) hget
    rw [polyLoop]
    have hall' : all = (seen ++ [(v, n)]) ++ fs := by rw [hall]; simp
    have hlen : (seen ++ [(v, n)]).length = seen.length + 1 := by simp
    cases hstep : polyStep eps p0 (p1 - p0) seen.length v n st with
    | none =>
      refine ⟨by simp, fun _ t h1 h2 hp => s2 hstep t h1 h2 ?_⟩
      intro g hg
      apply hp
      rw [hall']
      exact List.mem_append_left _ hg
    | some st1 =>
      simp only [Option.bind_some]
      have := ih (seen ++ [(v, n)]) st1 hall' (s1 _ hstep) (fun g hg => hd g (by simp [hg]))
      rw [hlen] at this
      exact this

/-- **C70, polyhedra.** Proved for segments which are not parallel to any face: the result is exact, with a
fraction between 0 and 1, also for segments which start inside, end inside, end before or lie behind the
polyhedron; the assertion fails only if no face is entered in the range of the scalar type.  Missing: segments
parallel to a face (`poly_ray_refuted`, `poly_ray_parallel_hit`). -/
theorem poly_ray_partial (eps big : ℝ) (he : 0 < eps) (hb : 1 ≤ big) (faces : List (V3 ℝ × V3 ℝ)) (pos : V3 ℝ)
    (orn : Quat ℝ) (q0 q1 : V3 ℝ) (ho : orn.lengthSqr = 1) (hu : ∀ f ∈ faces, lengthSqr f.2 = 1)
    (hd : ∀ f ∈ faces, eps ≤ |dot f.2 (toObjectSpace q1 pos orn - toObjectSpace q0 pos orn)|)
    (hent : ∃ f ∈ faces, dot f.2 (toObjectSpace q1 pos orn - toObjectSpace q0 pos orn) < 0 ∧
      -big < dot (f.1 - toObjectSpace q0 pos orn) f.2 /
        dot f.2 (toObjectSpace q1 pos orn - toObjectSpace q0 pos orn)) :
    RayExact (Placed (polySet faces) pos orn) q0 q1 (polyRay eps big faces pos orn q0 q1) := by
  unfold polyRay
  simp only
  set p0 := toObjectSpace q0 pos orn with hp0
  set p1 := toObjectSpace q1 pos orn with hp1
  have i0 : PolyInv big p0 p1 faces [] ⟨-big, big, none⟩ :=
    ⟨fun t => by simp [polySet], le_refl _, by simp only; linarith, fun h => absurd h (lt_irrefl _), by simp, by simp⟩
  obtain ⟨l1, l2⟩ := polyLoop_inv he faces [] _ (by simp) i0 hd
  simp only [List.length_nil] at l1 l2
  have hp00 : along p0 p1 0 = p0 := by ext <;> simp [along]
  cases hl : polyLoop eps p0 (p1 - p0) 0 faces ⟨-big, big, none⟩ with
  | none =>
    refine ⟨by simp, by simp, fun _ => ?_, by simp⟩
    rw [misses_placed ho]
    intro t h0 h1 ht
    exact l2 hl t (by linarith) (by linarith) ht
  | some st =>
    have inv := l1 st hl
    simp only
    by_cases hr : (st.t0 < 0 ∧ st.t1 < 0) ∨ (1 < st.t0 ∧ 1 < st.t1)
    · rw [if_pos hr]
      refine ⟨by simp, by simp, fun _ => ?_, by simp⟩
      rw [misses_placed ho]
      intro t h0 h1 ht
      have := (inv.range t).2 ⟨⟨by linarith, by linarith⟩, ht⟩
      rcases hr with h | h <;> linarith [this.1, this.2, h.1, h.2]
    rw [if_neg hr]
    have hle := inv.le
    have ht1 : 0 ≤ st.t1 := by
      by_contra hcon
      exact hr (.inl ⟨by linarith, by linarith⟩)
    have ht0 : st.t0 ≤ 1 := by
      by_contra hcon
      exact hr (.inr ⟨by linarith, by linarith⟩)
    have hface : ∃ i f, st.face = some i ∧ faces[i]? = some f := by
      cases hf : st.face with
      | none =>
        obtain ⟨f, hfm, hfn, hfb⟩ := hent
        have := inv.enter hf f hfm hfn
        linarith
      | some i =>
        obtain ⟨f, hf'⟩ := inv.valid i hf
        exact ⟨i, f, rfl, hf'⟩
    obtain ⟨i, f, hi, hf⟩ := hface
    have hres : (st.face.bind fun i => faces[i]?) = some f := by rw [hi]; simpa using hf
    rw [hres]
    simp only [Option.map_some]
    have hclamp : clampUnit st.t0 = max 0 st.t0 := by
      unfold clampUnit
      split
      · rename_i h; rw [max_eq_left h.le]
      · rename_i h
        rw [if_neg (not_lt.2 ht0), max_eq_right (not_lt.1 h)]
    refine ⟨?_, ?_, by simp, by simp⟩
    · intro h hh
      simp only [Option.some_inj] at hh
      subst hh
      rw [firstHit_placed ho]
      simp only [hclamp]
      refine ⟨le_max_left _ _, max_le (by norm_num) ht0, ?_, ?_⟩
      · exact ((inv.range _).1 ⟨le_max_right _ _, max_le ht1 inv.le⟩).2
      · intro s h0 hs hS
        have := (inv.range s).2 ⟨⟨by linarith, by linarith [max_le (zero_le_one) ht0]⟩, hS⟩
        rcases lt_max_iff.1 hs with h' | h'
        · linarith
        · linarith [this.1]
    · intro h hh hout
      simp only [Option.some_inj] at hh
      subst hh
      refine ⟨_, rfl, ?_⟩
      apply outward_placed ho
      rw [placed_iff _ _ ho] at hout
      simp only [hclamp, toObject_along]
      have hpos : 0 < st.t0 := by
        by_contra hcon
        apply hout
        have := ((inv.range 0).1 ⟨not_lt.1 hcon, ht1⟩).2
        rwa [hp00] at this
      rw [max_eq_right hpos.le]
      obtain ⟨j, g, hj, hg, hzero⟩ := inv.face (by linarith)
      have hjg : g = f := by
        rw [hi, Option.some_inj] at hj
        subst hj
        rw [hf, Option.some_inj] at hg
        exact hg.symm
      subst hjg
      have hmem : g ∈ faces := List.mem_of_getElem? hf
      refine ⟨hu g hmem, ?_⟩
      intro q hq
      have h1 := hq g hmem
      have : dot g.2 (q - along p0 p1 st.t0) = dot g.2 (q - g.1) - dot g.2 (along p0 p1 st.t0 - g.1) := by
        simp [dot]; ring
      rw [← hp0, ← hp1, this, hzero]
      linarith

/-- In a bounded polyhedron every line which is not parallel to a face enters through some face. -/
theorem poly_enters {faces : List (V3 ℝ × V3 ℝ)} {d q : V3 ℝ} {R : ℝ} (hR : ∀ q, polySet faces q → lengthSqr q ≤ R)
    (hq : polySet faces q) (hd : 0 < lengthSqr d) (hp : ∀ f ∈ faces, dot f.2 d ≠ 0) :
    ∃ f ∈ faces, dot f.2 d < 0 := by
  by_contra hcon
  push Not at hcon
  have hmove : ∀ s, 0 ≤ s → polySet faces (q - smul s d) := by
    intro s hs f hf
    have h1 := hq f hf
    have h2 := mul_nonneg hs (hcon f hf)
    have : dot f.2 (q - smul s d - f.1) = dot f.2 (q - f.1) - s * dot f.2 d := by simp [dot]; ring
    rw [this]; linarith
  -- the squared length of `q - s d` is a quadratic polynomial with positive leading coefficient
  set L := lengthSqr d
  set b := dot q d
  have hlen : ∀ s, lengthSqr (q - smul s d) = lengthSqr q - 2 * s * b + s * s * L := by
    intro s; simp [lengthSqr, dot, L, b]; ring
  have hR0 : 0 ≤ R := le_trans (lengthSqr_nonneg _) (hR q hq)
  set s := (2 * |b| + R + 1) / L + 1 with hs
  have hs0 : 1 ≤ s := by
    have : 0 ≤ (2 * |b| + R + 1) / L := div_nonneg (by positivity) hd.le
    linarith
  have hsL : 2 * |b| + R + 1 ≤ s * L := by
    rw [hs, add_mul, div_mul_cancel₀ _ hd.ne']; linarith
  have h1 := hR _ (hmove s (by linarith))
  rw [hlen] at h1
  have h2 := lengthSqr_nonneg q
  have h3 := le_abs_self b
  have : s * (2 * |b| + R + 1) ≤ s * (s * L) := mul_le_mul_of_nonneg_left hsL (by linarith)
  nlinarith

/-! ## Witnesses -/

/-- The faces of a cube. -/
noncomputable def cubeFaces : List (V3 ℝ × V3 ℝ) :=
  [(⟨1, 1, 1⟩, ⟨1, 0, 0⟩), (⟨-1, 1, 1⟩, ⟨-1, 0, 0⟩), (⟨1, 1, 1⟩, ⟨0, 1, 0⟩), (⟨1, -1, 1⟩, ⟨0, -1, 0⟩),
   (⟨1, 1, 1⟩, ⟨0, 0, 1⟩), (⟨1, 1, -1⟩, ⟨0, 0, -1⟩)]

theorem cube_is_box (q : V3 ℝ) : polySet cubeFaces q ↔ boxSet ⟨1, 1, 1⟩ q := by
  simp only [polySet, cubeFaces, List.mem_cons, List.not_mem_nil, or_false, forall_eq_or_imp, forall_eq, boxSet, abs_le]
  simp [dot]
  constructor
  · rintro ⟨a, b, c, d, e, f⟩; refine ⟨⟨?_, ?_⟩, ⟨?_, ?_⟩, ?_, ?_⟩ <;> linarith
  · rintro ⟨⟨a, b⟩, ⟨c, d⟩, e, f⟩; refine ⟨?_, ?_, ?_, ?_, ?_, ?_⟩ <;> linarith

theorem toObject_id (v : V3 ℝ) : toObjectSpace v ⟨0, 0, 0⟩ ⟨0, 0, 0, 1⟩ = v := by
  ext <;> simp [toObjectSpace, Quat.rotate, Quat.conjugate]

/-- A segment through the centre of a cube, perpendicular to two of its faces, is reported as a miss: for the
faces parallel to it the distance has the wrong sign. -/
theorem cube_perpendicular_missed (eps big : ℝ) (he : 0 < eps) (he2 : eps ≤ 1) (hb : 100 ≤ big) :
    polyRay eps big cubeFaces ⟨0, 0, 0⟩ ⟨0, 0, 0, 1⟩ ⟨-5, 0, 0⟩ ⟨5, 0, 0⟩ = some none := by
  unfold polyRay
  simp only [toObject_id]
  have hd : (⟨5, 0, 0⟩ - ⟨-5, 0, 0⟩ : V3 ℝ) = ⟨10, 0, 0⟩ := by ext <;> simp; norm_num
  rw [hd]
  have s1 : polyStep eps ⟨-5, 0, 0⟩ ⟨10, 0, 0⟩ 0 ⟨1, 1, 1⟩ ⟨1, 0, 0⟩ ⟨-big, big, none⟩
      = some ⟨-big, 3 / 5, none⟩ := by
    unfold polyStep
    have e1 : dot (⟨1, 0, 0⟩ : V3 ℝ) ⟨10, 0, 0⟩ = 10 := by simp [dot]
    have e2 : dot ((⟨1, 1, 1⟩ : V3 ℝ) - ⟨-5, 0, 0⟩) ⟨1, 0, 0⟩ = 6 := by simp [dot]; norm_num
    simp only [e1, e2]
    rw [if_neg (by norm_num; linarith)]
    unfold polyUpdate
    simp only [if_neg (by norm_num : ¬ (10 : ℝ) < 0), if_pos (show (6 / 10 : ℝ) < big by linarith)]
    rw [if_neg (by linarith)]
    norm_num
  have s2 : polyStep eps ⟨-5, 0, 0⟩ ⟨10, 0, 0⟩ 1 ⟨-1, 1, 1⟩ ⟨-1, 0, 0⟩ ⟨-big, 3 / 5, none⟩
      = some ⟨2 / 5, 3 / 5, some 1⟩ := by
    unfold polyStep
    have e1 : dot (⟨-1, 0, 0⟩ : V3 ℝ) ⟨10, 0, 0⟩ = -10 := by simp [dot]
    have e2 : dot ((⟨-1, 1, 1⟩ : V3 ℝ) - ⟨-5, 0, 0⟩) ⟨-1, 0, 0⟩ = -4 := by simp [dot]; norm_num
    simp only [e1, e2]
    rw [if_neg (by norm_num; linarith)]
    unfold polyUpdate
    simp only [if_pos (by norm_num : (-10 : ℝ) < 0), if_pos (show -big < (-4 / -10 : ℝ) by linarith)]
    rw [if_neg (by norm_num)]
    norm_num
  have s3 : ∀ st, polyStep eps ⟨-5, 0, 0⟩ ⟨10, 0, 0⟩ 2 ⟨1, 1, 1⟩ ⟨0, 1, 0⟩ st = none := by
    intro st
    unfold polyStep
    have e1 : dot (⟨0, 1, 0⟩ : V3 ℝ) ⟨10, 0, 0⟩ = 0 := by simp [dot]
    have e2 : dot ((⟨1, 1, 1⟩ : V3 ℝ) - ⟨-5, 0, 0⟩) ⟨0, 1, 0⟩ = 1 := by simp [dot]
    simp only [e1, e2]
    rw [if_pos (by simpa using he), if_pos (by norm_num)]
  have hloop : polyLoop eps ⟨-5, 0, 0⟩ ⟨10, 0, 0⟩ 0 cubeFaces ⟨-big, big, none⟩ = none := by
    unfold cubeFaces
    rw [polyLoop, s1, Option.bind_some, polyLoop, s2, Option.bind_some, polyLoop, s3, Option.bind_none]
  rw [hloop]

/-- **Finding.** Segments parallel to a face: the comparison has the wrong sign, so that a segment through the
centre of a cube and perpendicular to two of its faces misses it. -/
theorem poly_ray_refuted (eps big : ℝ) (he : 0 < eps) (he2 : eps ≤ 1) (hb : 100 ≤ big) : ¬ PolyRayFull eps big := by
  intro h
  have h1 := h cubeFaces ⟨0, 0, 0⟩ ⟨0, 0, 0, 1⟩ ⟨-5, 0, 0⟩ ⟨5, 0, 0⟩ quat_one_unit
    (by simp [V3.ext_iff]; norm_num)
    (by
      intro f hf
      simp only [cubeFaces, List.mem_cons, List.not_mem_nil, or_false] at hf
      rcases hf with rfl | rfl | rfl | rfl | rfl | rfl <;> simp [lengthSqr, dot])
    ⟨3, by
      intro q hq
      rw [cube_is_box] at hq
      obtain ⟨a, b, c⟩ := hq
      rw [abs_le] at a b c
      simp [lengthSqr, dot]
      nlinarith⟩
  refine h1.miss (cube_perpendicular_missed eps big he he2 hb) (1 / 2) (by norm_num) (by norm_num) ?_
  rw [placed_iff _ _ quat_one_unit, toObject_id, cube_is_box]
  simp [boxSet, along]
  norm_num

/-- The faces of a pyramid: a square base at height 0 and the apex at height 3/4. -/
noncomputable def pyramidFaces : List (V3 ℝ × V3 ℝ) :=
  [(⟨1, 0, 1⟩, ⟨0, -1, 0⟩), (⟨1, 0, 1⟩, ⟨3 / 5, 4 / 5, 0⟩), (⟨-1, 0, 1⟩, ⟨-3 / 5, 4 / 5, 0⟩),
   (⟨1, 0, 1⟩, ⟨0, 4 / 5, 3 / 5⟩), (⟨1, 0, -1⟩, ⟨0, 4 / 5, -3 / 5⟩)]

/-- **Finding.** A segment which passes below the base of a pyramid, parallel to it, is reported to hit it. -/
theorem poly_ray_parallel_hit (eps big : ℝ) (he : 0 < eps) (he2 : eps ≤ 1) (hb : 100 ≤ big) :
    ∃ hit, polyRay eps big pyramidFaces ⟨0, 0, 0⟩ ⟨0, 0, 0, 1⟩ ⟨-10, -1, -1⟩ ⟨10, -1, 1⟩ = some (some hit) ∧
      Misses (polySet pyramidFaces) ⟨-10, -1, -1⟩ ⟨10, -1, 1⟩ := by
  have hm : Misses (polySet pyramidFaces) ⟨-10, -1, -1⟩ ⟨10, -1, 1⟩ := by
    intro t _ _ h
    have := h (⟨1, 0, 1⟩, ⟨0, -1, 0⟩) (by simp [pyramidFaces])
    simp [dot, along] at this
    linarith
  refine ⟨⟨clampUnit (23 / 60), some (Quat.rotate ⟨0, 0, 0, 1⟩ ⟨-3 / 5, 4 / 5, 0⟩)⟩, ?_, hm⟩
  unfold polyRay
  simp only [toObject_id]
  have hd : (⟨10, -1, 1⟩ - ⟨-10, -1, -1⟩ : V3 ℝ) = ⟨20, 0, 2⟩ := by ext <;> simp <;> norm_num
  rw [hd]
  have s0 : polyStep eps ⟨-10, -1, -1⟩ ⟨20, 0, 2⟩ 0 ⟨1, 0, 1⟩ ⟨0, -1, 0⟩ ⟨-big, big, none⟩
      = some ⟨-big, big, none⟩ := by
    unfold polyStep
    have e1 : dot (⟨0, -1, 0⟩ : V3 ℝ) ⟨20, 0, 2⟩ = 0 := by simp [dot]
    have e2 : dot ((⟨1, 0, 1⟩ : V3 ℝ) - ⟨-10, -1, -1⟩) ⟨0, -1, 0⟩ = -1 := by simp [dot]
    simp only [e1, e2]
    rw [if_pos (by simpa using he), if_neg (by norm_num)]
  have s1 : polyStep eps ⟨-10, -1, -1⟩ ⟨20, 0, 2⟩ 1 ⟨1, 0, 1⟩ ⟨3 / 5, 4 / 5, 0⟩ ⟨-big, big, none⟩
      = some ⟨-big, 37 / 60, none⟩ := by
    unfold polyStep
    have e1 : dot (⟨3 / 5, 4 / 5, 0⟩ : V3 ℝ) ⟨20, 0, 2⟩ = 12 := by simp [dot]; norm_num
    have e2 : dot ((⟨1, 0, 1⟩ : V3 ℝ) - ⟨-10, -1, -1⟩) ⟨3 / 5, 4 / 5, 0⟩ = 37 / 5 := by simp [dot]; norm_num
    simp only [e1, e2]
    rw [if_neg (by norm_num; linarith)]
    unfold polyUpdate
    simp only [if_neg (by norm_num : ¬ (12 : ℝ) < 0), if_pos (show (37 / 5 / 12 : ℝ) < big by linarith)]
    rw [if_neg (by linarith)]
    norm_num
  have s2 : polyStep eps ⟨-10, -1, -1⟩ ⟨20, 0, 2⟩ 2 ⟨-1, 0, 1⟩ ⟨-3 / 5, 4 / 5, 0⟩ ⟨-big, 37 / 60, none⟩
      = some ⟨23 / 60, 37 / 60, some 2⟩ := by
    unfold polyStep
    have e1 : dot (⟨-3 / 5, 4 / 5, 0⟩ : V3 ℝ) ⟨20, 0, 2⟩ = -12 := by simp [dot]; norm_num
    have e2 : dot ((⟨-1, 0, 1⟩ : V3 ℝ) - ⟨-10, -1, -1⟩) ⟨-3 / 5, 4 / 5, 0⟩ = -(23 / 5) := by simp [dot]; norm_num
    simp only [e1, e2]
    rw [if_neg (by norm_num; linarith)]
    unfold polyUpdate
    simp only [if_pos (by norm_num : (-12 : ℝ) < 0), if_pos (show -big < (-(23 / 5) / -12 : ℝ) by linarith)]
    rw [if_neg (by norm_num)]
    norm_num
  have s3 : polyStep eps ⟨-10, -1, -1⟩ ⟨20, 0, 2⟩ 3 ⟨1, 0, 1⟩ ⟨0, 4 / 5, 3 / 5⟩ ⟨23 / 60, 37 / 60, some 2⟩
      = some ⟨23 / 60, 37 / 60, some 2⟩ := by
    unfold polyStep
    have e1 : dot (⟨0, 4 / 5, 3 / 5⟩ : V3 ℝ) ⟨20, 0, 2⟩ = 6 / 5 := by simp [dot]; norm_num
    have e2 : dot ((⟨1, 0, 1⟩ : V3 ℝ) - ⟨-10, -1, -1⟩) ⟨0, 4 / 5, 3 / 5⟩ = 2 := by simp [dot]; norm_num
    simp only [e1, e2]
    rw [if_neg (by rw [abs_of_pos (by norm_num)]; linarith)]
    unfold polyUpdate
    simp only [if_neg (by norm_num : ¬ (6 / 5 : ℝ) < 0), if_neg (by norm_num : ¬ (2 / (6 / 5) : ℝ) < 37 / 60)]
    rw [if_neg (by norm_num)]
  have s4 : polyStep eps ⟨-10, -1, -1⟩ ⟨20, 0, 2⟩ 4 ⟨1, 0, -1⟩ ⟨0, 4 / 5, -3 / 5⟩ ⟨23 / 60, 37 / 60, some 2⟩
      = some ⟨23 / 60, 37 / 60, some 2⟩ := by
    unfold polyStep
    have e1 : dot (⟨0, 4 / 5, -3 / 5⟩ : V3 ℝ) ⟨20, 0, 2⟩ = -(6 / 5) := by simp [dot]; norm_num
    have e2 : dot ((⟨1, 0, -1⟩ : V3 ℝ) - ⟨-10, -1, -1⟩) ⟨0, 4 / 5, -3 / 5⟩ = 4 / 5 := by simp [dot]
    simp only [e1, e2]
    rw [if_neg (by rw [abs_neg, abs_of_pos (by norm_num)]; linarith)]
    unfold polyUpdate
    simp only [if_pos (by norm_num : (-(6 / 5) : ℝ) < 0), if_neg (by norm_num : ¬ (23 / 60 : ℝ) < 4 / 5 / -(6 / 5))]
    rw [if_neg (by norm_num)]
  have hloop : polyLoop eps ⟨-10, -1, -1⟩ ⟨20, 0, 2⟩ 0 pyramidFaces ⟨-big, big, none⟩
      = some ⟨23 / 60, 37 / 60, some 2⟩ := by
    unfold pyramidFaces
    rw [polyLoop, s0, Option.bind_some, polyLoop, s1, Option.bind_some, polyLoop, s2, Option.bind_some, polyLoop, s3,
      Option.bind_some, polyLoop, s4, Option.bind_some, polyLoop]
  rw [hloop]
  simp only
  rw [if_neg (by norm_num)]
  simp [pyramidFaces]

/-- An oblique segment and a cube meet the hypotheses of the theorem. -/
example : (∀ f ∈ cubeFaces, lengthSqr f.2 = 1) ∧
    (∀ f ∈ cubeFaces, (1 / 100 : ℝ) ≤ |dot f.2 (⟨4, 2, 1⟩ - ⟨-4, -1, 0⟩)|) ∧
    ∃ f ∈ cubeFaces, dot f.2 ((⟨4, 2, 1⟩ : V3 ℝ) - ⟨-4, -1, 0⟩) < 0 ∧
      -1000 < dot (f.1 - (⟨-4, -1, 0⟩ : V3 ℝ)) f.2 / dot f.2 ((⟨4, 2, 1⟩ : V3 ℝ) - ⟨-4, -1, 0⟩) := by
  refine ⟨?_, ?_, ?_⟩
  · intro f hf
    simp only [cubeFaces, List.mem_cons, List.not_mem_nil, or_false] at hf
    rcases hf with rfl | rfl | rfl | rfl | rfl | rfl <;> simp [lengthSqr, dot]
  · intro f hf
    simp only [cubeFaces, List.mem_cons, List.not_mem_nil, or_false] at hf
    rcases hf with rfl | rfl | rfl | rfl | rfl | rfl <;> norm_num [dot]
  · exact ⟨(⟨-1, 1, 1⟩, ⟨-1, 0, 0⟩), by simp [cubeFaces], by norm_num [dot], by norm_num [dot]⟩

end Edyn.Geom
