import Verif.Collide.PolyCapDir

/-!
# Contacts between a polyhedron and a capsule: the points (C95)
-/

namespace Edyn.Collide

open Edyn.Math hiding lengthSqr_nonneg
open V3 Edyn.Geom Edyn.Geom.Poly Edyn.Contact

theorem inPrism_length {eps : ℝ} {l : List (V3 ℝ)} {n : V3 ℝ} (ps : List (V3 ℝ)) {r : List (V3 ℝ)} (h : inPrism eps l n ps = some r) :
    r.length ≤ ps.length := by
  induction ps generalizing r with
  | nil => cases h; simp
  | cons p ps ih =>
    unfold inPrism at h
    obtain ⟨P, -, h2⟩ := Option.bind_eq_some_iff.mp h
    obtain ⟨r', h3, rfl⟩ := Option.map_eq_some_iff.mp h2
    have := ih h3
    split <;> simp only [List.length_cons] <;> omega

/-- A side of the polygon and the axis, if they cross as seen along the direction, give a point. -/
theorem crossing_found {V : V3 ℝ → Prop} {x : Axis4} {near : ℝ → Prop} {eps r : ℝ} (he : 0 ≤ eps) (hn : lengthSqr x.dir = 1) {g : Polygon}
    (hA : IsPolygon V x.dir near g x.projA) {cs : List (V3 ℝ × V2)} (hc : ∀ c ∈ cs, c.2 = planar x.dir g.origin c.1) {v0 v1 : V3 ℝ}
    {a0 a1 b0 b1 : V3 ℝ} {s t z : ℝ} (h1 : Side (cs.map (·.1)) a0 a1) (h2 : Side [v0, v1] b0 b1) (s0 : 0 ≤ s) (s1 : s ≤ 1) (t0 : 0 ≤ t)
    (t1 : t ≤ 1) (hr : a0 + smul s (a1 - a0) - (b0 + smul t (b1 - b0)) = smul z x.dir)
    (hp : eps < |dot (cross (a1 - a0) (b1 - b0)) x.dir|) :
    1 < cs.length ∧ capCrossings eps r x.dir v0 v1 g.origin cs ≠ [] := by
  obtain ⟨a0, a1, rfl, rfl, k1⟩ := side_map h1
  have na : a0 ≠ a1 := by
    rintro rfl
    have : dot (cross (a0.1 - a0.1) (b1 - b0)) x.dir = 0 := by simp [cross, dot]
    rw [this, abs_zero] at hp; linarith
  have la : 1 < cs.length := by
    obtain ⟨i, e1, e2⟩ := k1
    by_contra hc
    have hi : i < cs.length := (List.getElem?_eq_some_iff.mp e1).1
    have : cs.length = 1 := by omega
    rw [this, Nat.mod_one] at e2
    have : i = 0 := by omega
    rw [this, e2] at e1
    exact na (by cases e1; rfl)
  refine ⟨la, ?_⟩
  have key : ∀ a : (V3 ℝ × V2) × (V3 ℝ × V2), a ∈ ring cs → ∀ s t z : ℝ, 0 ≤ s → s ≤ 1 → 0 ≤ t → t ≤ 1 →
      along a.1.1 a.2.1 s - along v0 v1 t = smul z x.dir → eps < |dot (cross (a.2.1 - a.1.1) (v1 - v0)) x.dir| →
      capCrossings eps r x.dir v0 v1 g.origin cs ≠ [] := by
    intro a ha s t z s0 s1 t0 t1 hr hp
    obtain ⟨ha0, ha1⟩ := ring_mem (a := a.1) (b := a.2) ha
    have u3 := hc _ ha0
    have w3 := hc _ ha1
    have hst : (s, t) ∈ segments2 eps a.1.2 a.2.2 (planar x.dir g.origin v0) (planar x.dir g.origin v1) := by
      apply segments2_cross he s0 s1 t0 t1
      · rw [u3, w3, ← planar_along, ← planar_along]
        obtain ⟨-, -, o3, o4, -, -⟩ := planeSpace_orthonormal x.dir hn
        have d1 : dot (along a.1.1 a.2.1 s - along v0 v1 t) (planeSpace x.dir).1 = 0 := by
          rw [hr, dot_smul_left, o3, mul_zero]
        have d2 : dot (along a.1.1 a.2.1 s - along v0 v1 t) (planeSpace x.dir).2 = 0 := by
          rw [hr, dot_smul_left, o4, mul_zero]
        rw [dot_sub_left] at d1 d2
        ext <;> simp only [planar, dot_sub_left] <;> linarith
      · rw [← planar_perp hn] at hp
        rw [u3, w3]
        have : perp2 (sub2 (planar x.dir g.origin a.2.1) (planar x.dir g.origin a.1.1))
            (sub2 (planar x.dir g.origin v1) (planar x.dir g.origin v0)) =
            dot (a.2.1 - a.1.1) (planeSpace x.dir).1 * dot (v1 - v0) (planeSpace x.dir).2 -
            dot (a.2.1 - a.1.1) (planeSpace x.dir).2 * dot (v1 - v0) (planeSpace x.dir).1 := by
          simp only [perp2, sub2, planar, dot_sub_left]; ring
        rw [this]; exact hp
    exact List.ne_nil_of_mem (List.mem_flatMap.mpr ⟨a, ha, List.mem_map_of_mem hst⟩)
  have rev : ∀ (a b : V3 ℝ) (s : ℝ), along a b s = along b a (1 - s) := by
    intro a b s; ext <;> simp [along] <;> ring
  have hr' : along a0.1 a1.1 s - along b0 b1 t = smul z x.dir := hr
  have negA : ∀ b0 b1 : V3 ℝ, |dot (cross (a0.1 - a1.1) (b1 - b0)) x.dir| = |dot (cross (a1.1 - a0.1) (b1 - b0)) x.dir| := by
    intro b0 b1; rw [← abs_neg]; congr 1; simp [cross, dot]; ring
  have negB : ∀ b0 b1 : V3 ℝ, |dot (cross (a1.1 - a0.1) (b0 - b1)) x.dir| = |dot (cross (a1.1 - a0.1) (b1 - b0)) x.dir| := by
    intro b0 b1; rw [← abs_neg]; congr 1; simp [cross, dot]; ring
  have hb : (b0 = v0 ∧ b1 = v1) ∨ (b0 = v1 ∧ b1 = v0) := by
    obtain ⟨i, e1, e2⟩ := h2
    have hi : i < 2 := (List.getElem?_eq_some_iff.mp e1).1
    have : i = 0 ∨ i = 1 := by omega
    rcases this with rfl | rfl
    · left; simpa [eq_comm] using And.intro e1 e2
    · right; simpa [eq_comm] using And.intro e1 e2
  rcases side_ring k1 with ra | ⟨-, ra⟩ <;> rcases hb with ⟨rfl, rfl⟩ | ⟨rfl, rfl⟩
  · exact key _ ra s t z s0 s1 t0 t1 hr' hp
  · exact key _ ra s (1 - t) z s0 s1 (by linarith) (by linarith) (by rw [← rev]; exact hr') (by rw [negB]; exact hp)
  · exact key _ ra (1 - s) t z (by linarith) (by linarith) t0 t1 (by rw [← rev]; exact hr') (by simp only; rw [negA]; exact hp)
  · exact key _ ra (1 - s) (1 - t) z (by linarith) (by linarith) (by linarith) (by linarith)
      (by rw [← rev, ← rev]; exact hr') (by simp only; rw [negA, negB]; exact hp)

/-- The points, seen from the polyhedron. -/
theorem capPoints_spec (K : Consts ℝ) {eps tol r : ℝ} (he : 0 ≤ eps) (ht : 0 < tol) {vs : List (V3 ℝ)} {posB : V3 ℝ} {ornB : Quat ℝ}
    {v0 v1 n : V3 ℝ} {x : Axis4} (hx : CapSep vs v0 v1 r x) (hl : eps < lengthSqr (v1 - v0)) {g : Polygon}
    (hg : IsPolygon (fun w => ∃ v ∈ vs, w = v + 0) x.dir (fun h => h < x.projA + tol) g x.projA) :
    ∃ l, capPoints K eps tol r posB ornB v0 v1 n x g = some l ∧ l.length ≤ 4 ∧
      (∀ p ∈ l, p.n = n ∧ p.dist = x.dist ∧ p.att = (if 2 < g.hull.length then .onA else .none) ∧ p.fA = none ∧
        x.projA ≤ dot p.pA x.dir ∧ dot p.pA x.dir < x.projA + tol ∧
        ∃ q, p.pB = toObjectSpace q posB ornB ∧
          CapOpposite eps x.dist r (fun w => ∃ v ∈ vs, w = v + 0) x.dir (fun h => h < x.projA + tol) tol v0 v1 p.pA q p.fB) ∧
      (2 < g.hull.length → ∃ l, Outline (fun w => ∃ v ∈ vs, w = v + 0) x.dir (fun h => h < x.projA + tol) l) ∧
      ∃ lA, Feature (fun w => ∃ v ∈ vs, w = v + 0) x.dir (fun h => h < x.projA + tol) lA ∧
        (tol ≤ |dot (v0 - v1) x.dir| ∨ lA.length = 1 ∨ Meets eps x.dir lA [v0, v1] → l ≠ []) := by
  have hn := hx.unit
  have hnn : dot x.dir x.dir = 1 := hn
  obtain ⟨cs, a1, a2, a3, a4⟩ := hg.outline hn
  have low : ∀ w, (∃ v ∈ vs, w = v + 0) → x.projA ≤ dot w x.dir := by
    rintro _ ⟨v, hv, rfl⟩
    rw [show v + 0 = v by ext <;> simp]
    exact hx.onA v hv
  have hfeat : Feature (fun w => ∃ v ∈ vs, w = v + 0) x.dir (fun h => h < x.projA + tol) (cs.map (·.1)) := by
    refine ⟨?_, ?_, ?_⟩
    · intro h
      have := congrArg List.length h
      rw [List.length_map, a3, List.length_nil] at this
      exact hg.nonempty (List.length_eq_zero_iff.mp this)
    · intro v hv
      obtain ⟨c, hc, rfl⟩ := List.mem_map.mp hv
      exact ⟨(a2 c hc).1, (a2 c hc).2.1⟩
    · intro h; rw [List.length_map, a3] at h; exact a4 h
  have outl : 2 < g.hull.length → ∃ l, Outline (fun w => ∃ v ∈ vs, w = v + 0) x.dir (fun h => h < x.projA + tol) l :=
    fun h => ⟨_, a4 h⟩
  unfold capPoints
  simp only
  by_cases hedge : |dot v0 x.dir - dot v1 x.dir| < tol
  · rw [if_pos hedge]
    have hflat : |dot (v0 - v1) x.dir| < tol := by rw [dot_sub_left]; exact hedge
    have inA : ∃ z, (if 2 < g.hull.length then inPrism eps (cs.map (·.1)) x.dir [v0, v1] else some []) = some z ∧ z.length ≤ 2 ∧
        ∀ p, p ∈ z ↔ 2 < g.hull.length ∧ p ∈ [v0, v1] ∧ ∀ v w, Side (cs.map (·.1)) v w → beyond x.dir v w p ≤ eps := by
      by_cases h : 2 < g.hull.length
      · rw [if_pos h]
        obtain ⟨z, r1, r2⟩ := inPrism_spec (eps := eps) (n := x.dir) (l := cs.map (·.1)) (by rw [List.length_map, a3]; exact h) [v0, v1]
        exact ⟨z, r1, inPrism_length _ r1, fun p => by rw [r2 p]; exact ⟨fun e => ⟨h, e⟩, fun e => e.2⟩⟩
      · rw [if_neg h]; exact ⟨[], rfl, by simp, by simp [h]⟩
    obtain ⟨z, z1, z2, z3⟩ := inA
    rw [a1, Option.bind_some, z1, Option.bind_some]
    have hbase : ∀ e ∈ z, x.projA ≤ dot (projectPlane e g.origin x.dir) x.dir ∧ dot (projectPlane e g.origin x.dir) x.dir < x.projA + tol ∧
        CapOpposite eps x.dist r (fun w => ∃ v ∈ vs, w = v + 0) x.dir (fun h => h < x.projA + tol) tol v0 v1
          (projectPlane e g.origin x.dir) (e + smul r x.dir) (some ⟨.capSide, some 0⟩) := by
      intro e hez
      obtain ⟨h1, h2, h3⟩ := (z3 e).mp hez
      obtain ⟨s1, s2⟩ := poly_project_step hn e x.projA
      rw [hg.origin]
      refine ⟨by rw [s2], by rw [s2]; linarith, .ends e (-(dot e x.dir - x.projA) - r) _ (by simpa using h2) hflat rfl ?_ (a4 h1) h3⟩
      have : projectPlane e (smul x.projA x.dir) x.dir - (e + smul r x.dir) =
          -(e - projectPlane e (smul x.projA x.dir) x.dir) - smul r x.dir := by
        ext <;> simp <;> ring
      rw [this, s1]; ext <;> simp <;> ring
    have hblen : (z.map fun p => (⟨projectPlane p g.origin x.dir, toObjectSpace (p + smul r x.dir) posB ornB, n, x.dist,
        if 2 < g.hull.length then .onA else .none, none, some ⟨.capSide, some 0⟩⟩ : Point)).length ≤ 4 := by
      rw [List.length_map]; omega
    have hbgood : ∀ p ∈ (z.map fun p => (⟨projectPlane p g.origin x.dir, toObjectSpace (p + smul r x.dir) posB ornB, n, x.dist,
        if 2 < g.hull.length then .onA else .none, none, some ⟨.capSide, some 0⟩⟩ : Point)),
        p.n = n ∧ p.dist = x.dist ∧ p.att = (if 2 < g.hull.length then .onA else .none) ∧ p.fA = none ∧
        x.projA ≤ dot p.pA x.dir ∧ dot p.pA x.dir < x.projA + tol ∧
        ∃ q, p.pB = toObjectSpace q posB ornB ∧
          CapOpposite eps x.dist r (fun w => ∃ v ∈ vs, w = v + 0) x.dir (fun h => h < x.projA + tol) tol v0 v1 p.pA q p.fB := by
      intro p hp
      obtain ⟨e, hez, rfl⟩ := List.mem_map.mp hp
      obtain ⟨b1, b2, b3⟩ := hbase e hez
      exact ⟨rfl, rfl, rfl, rfl, b1, b2, _, rfl, b3⟩
    have hne0 : ¬ tol ≤ |dot (v0 - v1) x.dir| := not_le.mpr hflat
    have hmeetB : ∀ v, v ∈ [v0, v1] → 2 < (cs.map (·.1)).length → (∀ u w, Side (cs.map (·.1)) u w → beyond x.dir u w v ≤ eps) →
        z ≠ [] := by
      intro v h1 h2 h3
      rw [List.length_map, a3] at h2
      exact List.ne_nil_of_mem ((z3 v).mpr ⟨h2, h1, h3⟩)
    by_cases h2 : (z.map fun p => (⟨projectPlane p g.origin x.dir, toObjectSpace (p + smul r x.dir) posB ornB, n, x.dist,
        if 2 < g.hull.length then .onA else .none, none, some ⟨.capSide, some 0⟩⟩ : Point)).length = 2
    · rw [if_pos h2]
      refine ⟨_, rfl, hblen, hbgood, outl, _, hfeat, fun _ h0 => ?_⟩
      rw [h0] at h2; simp at h2
    rw [if_neg h2]
    by_cases h1 : 1 < g.hull.length
    · rw [if_pos h1]
      obtain ⟨m1, m2, m3⟩ := maybe_add_onto K ((capCrossings eps r x.dir v0 v1 g.origin cs).map fun q =>
        (⟨q.1, toObjectSpace q.2 posB ornB, n, x.dist, if 2 < g.hull.length then .onA else .none, none, some ⟨.capSide, some 0⟩⟩ : Point)) _ hblen
      refine ⟨_, rfl, m1, ?_, outl, _, hfeat, ?_⟩
      · intro p hp
        rcases m2 p hp with hp | hp
        · exact hbgood p hp
        · obtain ⟨q, hq, rfl⟩ := List.mem_map.mp hp
          simp only [capCrossings, List.mem_flatMap, List.mem_map] at hq
          obtain ⟨a, ha, st, hst, rfl⟩ := hq
          obtain ⟨ha0, ha1⟩ := ring_mem (a := a.1) (b := a.2) ha
          obtain ⟨u1, u2, u3⟩ := a2 _ ha0
          obtain ⟨w1, w2, w3⟩ := a2 _ ha1
          obtain ⟨⟨s0, s1⟩, ⟨t0, t1⟩, hxx⟩ := segments2_range hst he
          have l1 := low _ u1
          have l2 := low _ w1
          refine ⟨rfl, rfl, rfl, rfl, ?_, ?_, _, rfl, .sides a.1.1 a.2.1 st.1 st.2 u1 w1 u2 w2 s0 s1 t0 t1 hflat rfl rfl ?_⟩
          · simp only [along_height]; nlinarith
          · simp only [along_height]
            by_cases h0 : st.1 = 0
            · rw [h0]; linarith
            · have : 0 < st.1 := lt_of_le_of_ne s0 (Ne.symm h0); nlinarith
          · rcases hxx with hxx | hxx
            · left
              rw [u3, w3, ← planar_along, ← planar_along] at hxx
              have := planar_inj hn _ _ hg.origin hg.origin hxx
              refine ⟨dot (along a.1.1 a.2.1 st.1 - along v0 v1 st.2) x.dir - r, ?_⟩
              have e : along a.1.1 a.2.1 st.1 - (along v0 v1 st.2 + smul r x.dir) = (along a.1.1 a.2.1 st.1 - along v0 v1 st.2) - smul r x.dir := by
                ext <;> simp <;> ring
              simp only
              rw [e]
              generalize along a.1.1 a.2.1 st.1 - along v0 v1 st.2 = d at this
              generalize dot d x.dir = k at this
              rw [this]; ext <;> simp <;> ring
            · right
              rw [u3, w3] at hxx
              rw [← planar_perp hn]
              have : perp2 (sub2 (planar x.dir g.origin a.2.1) (planar x.dir g.origin a.1.1))
                  (sub2 (planar x.dir g.origin v1) (planar x.dir g.origin v0)) =
                  dot (a.2.1 - a.1.1) (planeSpace x.dir).1 * dot (v1 - v0) (planeSpace x.dir).2 -
                  dot (a.2.1 - a.1.1) (planeSpace x.dir).2 * dot (v1 - v0) (planeSpace x.dir).1 := by
                simp only [perp2, sub2, planar, dot_sub_left]; ring
              rw [← this]; exact hxx
      · rintro (h | h | h)
        · exact absurd h hne0
        · rw [List.length_map, a3] at h; omega
        · apply m3
          cases h with
          | vertexA v h1 h2 h3 => simp at h2
          | vertexB v h1 h2 h3 => left; simpa using hmeetB v h1 h2 h3
          | sides a0 a1 b0 b1 s t q h1 h2 s0 s1 t0 t1 hr hp =>
            right
            simpa using (crossing_found (r := r) he hn hg (fun c hc => (a2 c hc).2.2) h1 h2 s0 s1 t0 t1 hr hp).2
    · rw [if_neg h1]
      have hlen : cs.length = 1 := by
        have : g.hull.length ≠ 0 := fun h => hg.nonempty (List.length_eq_zero_iff.mp h)
        omega
      obtain ⟨v, rfl⟩ := List.length_eq_one_iff.mp hlen
      obtain ⟨q, q1, q2, -, -, q5⟩ := closest_line_spec eps he v0 (v1 - v0) v.1 hl
      simp only
      rw [q1, Option.map_some]
      have hz : z = [] := by
        by_contra h
        obtain ⟨e, he'⟩ := List.exists_mem_of_ne_nil _ h
        have := ((z3 e).mp he').1
        omega
      subst hz
      refine ⟨_, rfl, by simp, ?_, outl, _, hfeat, fun _ => by simp⟩
      intro p hp
      simp only [List.map_nil, List.nil_append, List.mem_singleton] at hp
      subst hp
      obtain ⟨u1, u2, -⟩ := a2 v (by simp)
      refine ⟨rfl, rfl, rfl, rfl, low _ u1, u2, q.q + smul r x.dir, ?_, .line q.t u1 hflat (by rw [q2]) ?_⟩
      · simp only [toObjectSpace]
        rw [show q.q + smul r x.dir - posB = (q.q - posB) + smul r x.dir by ext <;> simp <;> ring, rotate_add, rotate_smul]
      · intro u; rw [← q2]; exact q5 u
  · rw [if_neg hedge]
    refine ⟨_, rfl, by simp, ?_, outl, _, hfeat, fun _ => by simp⟩
    intro p hp
    rw [List.mem_singleton] at hp
    subst hp
    have hp2 := hx.projB
    unfold capsuleProjection at hp2
    have hd := hx.dist
    have cancel : ∀ w : V3 ℝ, w + smul x.dist x.dir - w = smul x.dist x.dir := by intro w; ext <;> simp
    have height : ∀ v : V3 ℝ, dot v x.dir + r = x.projB → dot (v + smul r x.dir + smul x.dist x.dir) x.dir = x.projA := by
      intro v hv
      rw [dot_add_left, dot_add_left, dot_smul_left, dot_smul_left, hnn]; linarith
    by_cases h : dot v1 x.dir < dot v0 x.dir
    · simp only [if_pos h]
      rw [max_eq_left h.le] at hp2
      have e := height v0 hp2.symm
      refine ⟨trivial, trivial, trivial, trivial, by rw [e], by rw [e]; linarith, _, rfl, .hemisphere0 ?_ rfl (cancel _)⟩
      rw [dot_sub_left]
      rw [abs_of_pos (by linarith)] at hedge
      linarith
    · simp only [if_neg h]
      rw [max_eq_right (not_lt.mp h)] at hp2
      have e := height v1 hp2.symm
      refine ⟨trivial, trivial, trivial, trivial, by rw [e], by rw [e]; linarith, _, rfl, .hemisphere1 ?_ rfl (cancel _)⟩
      rw [dot_sub_left]
      rw [abs_of_nonpos (by linarith)] at hedge
      linarith

end Edyn.Collide
