import Verif.Collide.PolyContact

/-!
# Contacts between two polyhedra: the theorems (C94)
-/

namespace Edyn.Collide

open Edyn.Math hiding lengthSqr_nonneg
open V3 Edyn.Geom Edyn.Geom.Poly Edyn.Contact

/-- The vertices of a placed mesh. -/
def Corner (vs : List (V3 ℝ)) (pos : V3 ℝ) (orn : Quat ℝ) (w : V3 ℝ) : Prop := ∃ v ∈ vs, w = pos + Quat.rotate orn v

/-- What is expected of a point between two polyhedra whose support features are found up to a tolerance. -/
structure PolyGood (eps tol : ℝ) (mA mB : PMesh) (c : Ctx) (n : V3 ℝ) (dist : ℝ) (p : Point) : Prop where
  normal : p.n = n
  distance : p.dist = dist
  within : dist ≤ c.thr
  lowA : ∃ a, Placed (Hull mA.verts) c.posA c.ornA a ∧ dot a n ≤ dot (c.wA p) n
  nearA : ∀ a, Placed (Hull mA.verts) c.posA c.ornA a → dot (c.wA p) n < dot a n + tol
  highB : ∃ b, Placed (Hull mB.verts) c.posB c.ornB b ∧ dot (c.wB p) n ≤ dot b n
  nearB : ∀ b, Placed (Hull mB.verts) c.posB c.ornB b → dot b n - tol < dot (c.wB p) n
  opposite : Opposite eps (Corner mA.verts c.posA c.ornA) (Corner mB.verts c.posB c.ornB) n
    (fun h => ∀ a, Placed (Hull mA.verts) c.posA c.ornA a → h < dot a n + tol)
    (fun h => ∀ b, Placed (Hull mB.verts) c.posB c.ornB b → dot b n - tol < h) (c.wA p) (c.wB p)
  onB : p.att = .onB → ∃ l, Outline (Corner mB.verts c.posB c.ornB) n (fun h => ∀ b, Placed (Hull mB.verts) c.posB c.ornB b → dot b n - tol < h) l
  onA : p.att = .onA → ∃ l, Outline (Corner mA.verts c.posA c.ornA) n (fun h => ∀ a, Placed (Hull mA.verts) c.posA c.ornA a → h < dot a n + tol) l

theorem Outline.shift {V V' : V3 ℝ → Prop} {n : V3 ℝ} {near near' : ℝ → Prop} {l : List (V3 ℝ)} (p : V3 ℝ)
    (hV : ∀ w, V (w + p) ↔ V' w) (hn : ∀ w, near (dot (w + p) n) ↔ near' (dot w n)) (h : Outline V' n near' l) :
    Outline V n near (l.map (· + p)) := by
  refine ⟨by rw [List.length_map]; exact h.three, ?_, ?_⟩
  · intro v hv
    obtain ⟨w, hw, rfl⟩ := List.mem_map.mp hv
    exact ⟨(hV w).mpr (h.of w hw).1, (hn w).mpr (h.of w hw).2⟩
  · rintro v w ⟨i, hi, hj⟩ u hu hnear
    rw [List.length_map, List.getElem?_map] at hj
    rw [List.getElem?_map] at hi
    obtain ⟨v', hv', rfl⟩ := Option.map_eq_some_iff.mp hi
    obtain ⟨w', hw', rfl⟩ := Option.map_eq_some_iff.mp hj
    have e : u = (u - p) + p := by ext <;> simp
    rw [e] at hu hnear
    have := h.around v' w' ⟨i, hv', hw'⟩ (u - p) ((hV _).mp hu) ((hn _).mp hnear)
    have e2 : beyond n (v' + p) (w' + p) u = beyond n v' w' (u - p) := by
      have e3 : u - (v' + p) = u - p - v' := by ext <;> simp <;> ring
      unfold beyond
      rw [Edyn.Collide.shift, e3]
    rw [e2]; exact this

theorem beyond_shift (n v w u p : V3 ℝ) : beyond n (v + p) (w + p) (u + p) = beyond n v w u := by
  simp only [beyond, shift]

theorem side_shift {l : List (V3 ℝ)} {p v w : V3 ℝ} (h : Side (l.map (· + p)) v w) :
    ∃ v' w', v = v' + p ∧ w = w' + p ∧ Side l v' w' := by
  obtain ⟨i, hi, hj⟩ := h
  rw [List.length_map, List.getElem?_map] at hj
  rw [List.getElem?_map] at hi
  obtain ⟨v', hv', rfl⟩ := Option.map_eq_some_iff.mp hi
  obtain ⟨w', hw', rfl⟩ := Option.map_eq_some_iff.mp hj
  exact ⟨v', w', rfl, rfl, i, hv', hw'⟩

theorem Opposite.shift {eps : ℝ} {VA VB VA' VB' : V3 ℝ → Prop} {n : V3 ℝ} {nA nB nA' nB' : ℝ → Prop} {wA wB : V3 ℝ} (p : V3 ℝ)
    (hVA : ∀ w, VA (w + p) ↔ VA' w) (hVB : ∀ w, VB (w + p) ↔ VB' w) (hnA : ∀ w, nA (dot (w + p) n) ↔ nA' (dot w n))
    (hnB : ∀ w, nB (dot (w + p) n) ↔ nB' (dot w n)) (h : Opposite eps VA' VB' n nA' nB' wA wB) :
    Opposite eps VA VB n nA nB (wA + p) (wB + p) := by
  cases h with
  | vertexA s l h1 h2 h3 h4 =>
    refine .vertexA s _ ((hVA _).mpr h1) (by rw [Edyn.Collide.shift]; exact h2) (h3.shift p hVB hnB) ?_
    intro v w hs
    obtain ⟨v', w', rfl, rfl, hs'⟩ := side_shift hs
    rw [beyond_shift]; exact h4 v' w' hs'
  | vertexB s l h1 h2 h3 h4 =>
    refine .vertexB s _ ((hVB _).mpr h1) (by rw [Edyn.Collide.shift]; exact h2) (h3.shift p hVA hnA) ?_
    intro v w hs
    obtain ⟨v', w', rfl, rfl, hs'⟩ := side_shift hs
    rw [beyond_shift]; exact h4 v' w' hs'
  | sides a0 a1 b0 b1 s t h1 h2 h3 h4 h5 h6 h7 h8 h9 h10 h11 =>
    refine .sides (a0 + p) (a1 + p) (b0 + p) (b1 + p) s t ((hVA _).mpr h1) ((hVA _).mpr h2) ((hVB _).mpr h3) ((hVB _).mpr h4)
      h5 h6 h7 h8 ?_ ?_ ?_
    · rw [Edyn.Collide.shift, h9]; ext <;> simp <;> ring
    · rw [Edyn.Collide.shift, h10]; ext <;> simp <;> ring
    · rw [Edyn.Collide.shift, Edyn.Collide.shift, Edyn.Collide.shift]; exact h11

theorem Feature.shift {V V' : V3 ℝ → Prop} {n : V3 ℝ} {near near' : ℝ → Prop} {l : List (V3 ℝ)} (p : V3 ℝ)
    (hV : ∀ w, V (w + p) ↔ V' w) (hn : ∀ w, near (dot (w + p) n) ↔ near' (dot w n)) (h : Feature V' n near' l) :
    Feature V n near (l.map (· + p)) := by
  refine ⟨by simpa using h.nonempty, ?_, fun h3 => (h.outline (by rwa [List.length_map] at h3)).shift p hV hn⟩
  intro v hv
  obtain ⟨w, hw, rfl⟩ := List.mem_map.mp hv
  exact ⟨(hV w).mpr (h.of w hw).1, (hn w).mpr (h.of w hw).2⟩

theorem Meets.shift {eps : ℝ} {n : V3 ℝ} {lA lB : List (V3 ℝ)} (p : V3 ℝ) (h : Meets eps n (lA.map (· + p)) (lB.map (· + p))) :
    Meets eps n lA lB := by
  have up : ∀ {l : List (V3 ℝ)} {v w}, Side l v w → Side (l.map (· + p)) (v + p) (w + p) := by
    rintro l v w ⟨i, hi, hj⟩
    exact ⟨i, by rw [List.getElem?_map, hi]; rfl, by rw [List.length_map, List.getElem?_map, hj]; rfl⟩
  cases h with
  | vertexA v h1 h2 h3 =>
    obtain ⟨v, hv, rfl⟩ := List.mem_map.mp h1
    exact .vertexA v hv (by rwa [List.length_map] at h2) fun u w hs => by rw [← beyond_shift _ _ _ _ p]; exact h3 _ _ (up hs)
  | vertexB v h1 h2 h3 =>
    obtain ⟨v, hv, rfl⟩ := List.mem_map.mp h1
    exact .vertexB v hv (by rwa [List.length_map] at h2) fun u w hs => by rw [← beyond_shift _ _ _ _ p]; exact h3 _ _ (up hs)
  | sides a0 a1 b0 b1 s t r h1 h2 s0 s1 t0 t1 hr hp =>
    obtain ⟨a0, a1, rfl, rfl, k1⟩ := side_shift h1
    obtain ⟨b0, b1, rfl, rfl, k2⟩ := side_shift h2
    refine .sides a0 a1 b0 b1 s t r k1 k2 s0 s1 t0 t1 ?_ ?_
    · rw [← hr]; ext <;> simp <;> ring
    · rw [Edyn.Collide.shift, Edyn.Collide.shift] at hp; exact hp

/-- The vertices of the placed mesh, seen from the position of the first body. -/
theorem corner_turn (m : PMesh) (q : Quat ℝ) (pos p w : V3 ℝ) :
    Corner m.verts pos q (w + p) ↔ ∃ v ∈ (m.turn q).verts, w = v + (pos - p) := by
  constructor
  · rintro ⟨v, hv, e⟩
    refine ⟨Quat.rotate q v, List.mem_map_of_mem hv, ?_⟩
    have : w = (w + p) - p := by ext <;> simp
    rw [this, e]; ext <;> simp <;> ring
  · rintro ⟨v, hv, rfl⟩
    obtain ⟨u, hu, rfl⟩ := List.mem_map.mp hv
    exact ⟨u, hu, by ext <;> simp <;> ring⟩

theorem placed_turn_le {m : PMesh} {q : Quat ℝ} {pos p n : V3 ℝ} {h : ℝ} (hv : ∀ v ∈ (m.turn q).verts, dot (v + (pos - p)) n ≤ h)
    {w : V3 ℝ} (hw : Placed (Hull m.verts) pos q w) : dot w n ≤ h + dot p n := by
  obtain ⟨u, hu, rfl⟩ := hw
  have : ∀ v ∈ m.verts, dot (Quat.rotate q v) n ≤ h + dot p n - dot pos n := by
    intro v hv'
    have := hv _ (List.mem_map_of_mem hv')
    rw [dot_add_left, dot_sub_left] at this; linarith
  have key : dot (Quat.rotate q u) n ≤ h + dot p n - dot pos n := by
    clear hv
    induction hu with
    | vertex hp => exact this _ hp
    | between t _ _ t0 t1 ih1 ih2 =>
      rw [rotate_add, rotate_smul, rotate_sub, dot_add_left, dot_smul_left, dot_sub_left]
      nlinarith
  rw [dot_add_left]; linarith

/-- Separation of the turned meshes in terms of the placed shapes. -/
theorem Sep.gap {mA mB : PMesh} {c : Ctx} {x : Axis4}
    (h : Sep (mA.turn c.ornA).verts (mB.turn c.ornB).verts 0 (c.posB - c.posA) x) :
    GapAlong (Placed (Hull mA.verts) c.posA c.ornA) (Placed (Hull mB.verts) c.posB c.ornB) x.dir x.dist ∧
    (∃ a, Placed (Hull mA.verts) c.posA c.ornA a ∧ dot a x.dir = x.projA + dot c.posA x.dir) ∧
    (∃ b, Placed (Hull mB.verts) c.posB c.ornB b ∧ dot b x.dir = x.projB + dot c.posA x.dir) ∧
    (∀ a, Placed (Hull mA.verts) c.posA c.ornA a → x.projA + dot c.posA x.dir ≤ dot a x.dir) ∧
    (∀ b, Placed (Hull mB.verts) c.posB c.ornB b → dot b x.dir ≤ x.projB + dot c.posA x.dir) := by
  obtain ⟨v, hv, ev⟩ := h.hitA
  obtain ⟨w, hw, ew⟩ := h.hitB
  obtain ⟨v', hv', rfl⟩ := List.mem_map.mp hv
  obtain ⟨w', hw', rfl⟩ := List.mem_map.mp hw
  have hB : ∀ b, Placed (Hull mB.verts) c.posB c.ornB b → dot b x.dir ≤ x.projB + dot c.posA x.dir := by
    intro b hb
    exact placed_turn_le (p := c.posA) (fun v hv => h.onB v hv) hb
  have hA : ∀ a, Placed (Hull mA.verts) c.posA c.ornA a → x.projA + dot c.posA x.dir ≤ dot a x.dir := by
    intro a ha
    have := placed_turn_le (p := c.posA) (n := -x.dir) (h := -x.projA) (m := mA) (q := c.ornA) (pos := c.posA) (fun v hv => by
      have := h.onA v hv
      rw [dot_neg_right, show c.posA - c.posA = (0 : V3 ℝ) by ext <;> simp]; linarith) ha
    rw [dot_neg_right, dot_neg_right] at this; linarith
  have eA : dot (c.posA + Quat.rotate c.ornA v') x.dir = x.projA + dot c.posA x.dir := by
    rw [← ev, dot_add_left, dot_add_left, show dot (0 : V3 ℝ) x.dir = 0 by simp [dot]]; ring
  have eB : dot (c.posB + Quat.rotate c.ornB w') x.dir = x.projB + dot c.posA x.dir := by
    rw [← ew, dot_add_left, dot_add_left, dot_sub_left]; ring
  refine ⟨⟨?_, _, _, ⟨v', .vertex hv', rfl⟩, ⟨w', .vertex hw', rfl⟩, ?_⟩, ⟨_, ⟨v', .vertex hv', rfl⟩, eA⟩, ⟨_, ⟨w', .vertex hw', rfl⟩, eB⟩, hA, hB⟩
  · intro a b ha hb
    rw [dot_sub_left, h.dist]; linarith [hA a ha, hB b hb]
  · rw [dot_sub_left, h.dist, eA, eB]; ring

theorem gap_unique {S T : V3 ℝ → Prop} {n : V3 ℝ} {x y : ℝ} (hx : GapAlong S T n x) (hy : GapAlong S T n y) : x = y := by
  obtain ⟨h1, a, b, ha, hb, e⟩ := hx
  obtain ⟨h2, a', b', ha', hb', e'⟩ := hy
  have := h1 a' b' ha' hb'
  have := h2 a b ha hb
  linarith

theorem gap_far {S T : V3 ℝ → Prop} {n : V3 ℝ} {x thr : ℝ} (hn : lengthSqr n = 1) (ht : 0 ≤ thr) (h : GapAlong S T n x) (hx : thr < x) :
    ¬ Near S T thr := by
  rintro ⟨a, b, ha, hb, hl⟩
  have h1 := h.1 a b ha hb
  have cs : dot (a - b) n * dot (a - b) n ≤ lengthSqr (a - b) := by
    have : lengthSqr (a - b) * lengthSqr n - dot (a - b) n * dot (a - b) n = lengthSqr (cross (a - b) n) := by
      generalize a - b = d; simp [lengthSqr, dot, cross]; ring
    rw [hn] at this
    linarith [lengthSqr_nonneg (cross (a - b) n)]
  nlinarith

/-- The directions in which two placed meshes have to be compared: against the normals of the faces of the first one,
along those of the second one, and against the directions of the faces of the Minkowski difference made by two edges. -/
inductive Compared (tiny : ℝ) (mA mB : PMesh) (c : Ctx) : V3 ℝ → Prop
  | faceA {f} : f ∈ mA.faces → Compared tiny mA mB c (-Quat.rotate c.ornA f.1)
  | faceB {f} : f ∈ mB.faces → Compared tiny mA mB c (Quat.rotate c.ornB f.1)
  | edges {a b d} : a ∈ (mA.turn c.ornA).edges → b ∈ (mB.turn c.ornB).edges → Relevant tiny a b d → Compared tiny mA mB c (-d)

/-- **C94, two polyhedra, partial.** For all convex polyhedra with the origin inside, the call is defined exactly if two
edges of the shapes make a face of the Minkowski difference.  Then there is one direction: the shapes are apart by the
distance along it, and not further apart along any normal of a face or any direction of two edges.  If this distance is
beyond the threshold there are no points and the shapes are not within the threshold; otherwise there are at most four
points, all of them are good, and there is one if the features of the shapes clearly meet as seen along the direction.
Missing: that the call is always defined (`aligned_undefined`), and that there is a point whenever the shapes are within
the threshold. -/
theorem polyhedron_polyhedron_partial (K : Consts ℝ) (hK : 0 ≤ K.tiny) (k kh : ℕ) (eps tol : ℝ) (he : 0 ≤ eps) (ht : 0 < tol)
    (mA mB : PMesh) (hA : PolySolid mA) (hB : PolySolid mB) (kA : mA.verts.length ≤ k) (kB : mB.verts.length ≤ k)
    (khA : mA.verts.length < kh) (khB : mB.verts.length < kh) (c : Ctx) (hc : c.Ok) :
    ((polyPoly K k kh eps tol mA mB c).isSome ↔
      ∃ a ∈ (mA.turn c.ornA).edges, ∃ b ∈ (mB.turn c.ornB).edges, ∃ d, Relevant K.tiny a b d) ∧
    ∀ l, polyPoly K k kh eps tol mA mB c = some l → ∃ n dist, lengthSqr n = 1 ∧
      GapAlong (Placed (Hull mA.verts) c.posA c.ornA) (Placed (Hull mB.verts) c.posB c.ornB) n dist ∧
      (∀ d x, Compared K.tiny mA mB c d →
        GapAlong (Placed (Hull mA.verts) c.posA c.ornA) (Placed (Hull mB.verts) c.posB c.ornB) d x → x ≤ dist) ∧
      (c.thr < dist → l = [] ∧ ¬ Near (Placed (Hull mA.verts) c.posA c.ornA) (Placed (Hull mB.verts) c.posB c.ornB) c.thr) ∧
      l.length ≤ 4 ∧ (∀ p ∈ l, PolyGood eps tol mA mB c n dist p) ∧
      (dist ≤ c.thr → ∃ lA lB,
        Feature (Corner mA.verts c.posA c.ornA) n (fun h => ∀ a, Placed (Hull mA.verts) c.posA c.ornA a → h < dot a n + tol) lA ∧
        Feature (Corner mB.verts c.posB c.ornB) n (fun h => ∀ b, Placed (Hull mB.verts) c.posB c.ornB b → dot b n - tol < h) lB ∧
        (Meets eps n lA lB → l ≠ [])) := by
  obtain ⟨oA, oB, ht0⟩ := hc
  have hA' := hA.turn oA
  have hB' := hB.turn oB
  have lA : (mA.turn c.ornA).verts.length = mA.verts.length := by simp [PMesh.turn]
  have lB : (mB.turn c.ornB).verts.length = mB.verts.length := by simp [PMesh.turn]
  obtain ⟨p1, p2⟩ := polyAxis_spec hA' hB' (k := k) (by rw [lA]; exact kA) (by rw [lB]; exact kB) hK 0 (c.posB - c.posA)
  have main : ∀ x, polyAxis k K.tiny (mA.turn c.ornA) (mB.turn c.ornB) 0 (c.posB - c.posA) = some x →
      ∃ l, polyPoly K k kh eps tol mA mB c = some l ∧ (c.thr < x.dist → l = []) ∧ l.length ≤ 4 ∧
        (∀ p ∈ l, PolyGood eps tol mA mB c x.dir x.dist p) ∧
        (x.dist ≤ c.thr → ∃ lA lB,
          Feature (Corner mA.verts c.posA c.ornA) x.dir (fun h => ∀ a, Placed (Hull mA.verts) c.posA c.ornA a → h < dot a x.dir + tol) lA ∧
          Feature (Corner mB.verts c.posB c.ornB) x.dir (fun h => ∀ b, Placed (Hull mB.verts) c.posB c.ornB b → dot b x.dir - tol < h) lB ∧
          (Meets eps x.dir lA lB → l ≠ [])) := by
    intro x hx
    obtain ⟨hs, -⟩ := p2 x hx
    unfold polyPoly
    simp only [hx, Option.bind_some]
    by_cases hd : c.thr < x.dist
    · rw [if_pos hd]; exact ⟨[], rfl, fun _ => rfl, by simp, by simp, fun h => absurd h (not_le.mpr hd)⟩
    rw [if_neg hd]
    obtain ⟨gA, gA1, gA2⟩ := support_isPolygon (positive := true) (kh := kh) ht (by rw [lA]; exact khA) hs.hitA
    obtain ⟨gB, gB1, gB2⟩ := support_isPolygon (positive := false) (kh := kh) ht (by rw [lB]; exact khB) hs.hitB
    simp only [if_true, Bool.false_eq_true, if_false] at gA2 gB2
    obtain ⟨ps, q1, q2, fA, fB, q3, q4, q5⟩ := polyPairs_spec (eps := eps) ht he hs.unit gA2 gB2
      (by rintro _ ⟨v, hv, rfl⟩; exact hs.onA v hv) (by rintro _ ⟨v, hv, rfl⟩; exact hs.onB v hv)
    rw [gA1, gB1, Option.bind_some, Option.bind_some, q1, Option.map_some]
    obtain ⟨s1, ⟨a, sa, ea⟩, ⟨b, sb, eb⟩, s4, s5⟩ := hs.gap
    have nA : ∀ w, (∀ a, Placed (Hull mA.verts) c.posA c.ornA a → dot (w + c.posA) x.dir < dot a x.dir + tol) ↔ dot w x.dir < x.projA + tol := by
      intro w
      rw [dot_add_left]
      constructor
      · intro h; have := h a sa; linarith
      · intro h a' ha'; have := s4 a' ha'; linarith
    have nB : ∀ w, (∀ b, Placed (Hull mB.verts) c.posB c.ornB b → dot b x.dir - tol < dot (w + c.posA) x.dir) ↔ x.projB - tol < dot w x.dir := by
      intro w
      rw [dot_add_left]
      constructor
      · intro h; have := h b sb; linarith
      · intro h b' hb'; have := s5 b' hb'; linarith
    have vA : ∀ w, Corner mA.verts c.posA c.ornA (w + c.posA) ↔ ∃ v ∈ (mA.turn c.ornA).verts, w = v + 0 := by
      intro w; rw [corner_turn, show c.posA - c.posA = (0 : V3 ℝ) by ext <;> simp]
    have vB : ∀ w, Corner mB.verts c.posB c.ornB (w + c.posA) ↔ ∃ v ∈ (mB.turn c.ornB).verts, w = v + (c.posB - c.posA) := by
      intro w; rw [corner_turn]
    refine ⟨_, rfl, fun h => absurd h hd, (maybe_add_all K _).1, ?_, ?_⟩
    rotate_left
    · intro _
      refine ⟨_, _, q3.shift c.posA vA nA, q4.shift c.posA vB nB, fun hm => ?_⟩
      rw [(maybe_add_all K _).2.2]
      simpa using q5 hm.shift
    intro p hp
    obtain ⟨q, hq, rfl⟩ := List.mem_map.mp ((maybe_add_all K _).2.1 p hp)
    obtain ⟨r1, r2, r3, r4, r5⟩ := q2 q hq
    have eA : c.wA (plain (toObjectSpace q.1 0 c.ornA) (toObjectSpace q.2 (c.posB - c.posA) c.ornB) x.dir x.dist
        (if 2 < gB.hull.length then .onB else if 2 < gA.hull.length then .onA else .none)) = q.1 + c.posA := by
      simp only [Ctx.wA, plain]
      unfold toWorldSpace toObjectSpace
      rw [(rotate_conjugate c.ornA oA _).2]; ext <;> simp <;> ring
    have eB : c.wB (plain (toObjectSpace q.1 0 c.ornA) (toObjectSpace q.2 (c.posB - c.posA) c.ornB) x.dir x.dist
        (if 2 < gB.hull.length then .onB else if 2 < gA.hull.length then .onA else .none)) = q.2 + c.posA := by
      simp only [Ctx.wB, plain]
      unfold toWorldSpace toObjectSpace
      rw [(rotate_conjugate c.ornB oB _).2]; ext <;> simp <;> ring
    refine ⟨rfl, rfl, not_lt.mp hd, ⟨a, sa, ?_⟩, ?_, ⟨b, sb, ?_⟩, ?_, ?_, ?_, ?_⟩
    · rw [eA, dot_add_left, ea]; linarith
    · rw [eA]; exact (nA _).mpr r3
    · rw [eB, dot_add_left, eb]; linarith
    · rw [eB]; exact (nB _).mpr r5
    · rw [eA, eB]; exact r1.shift c.posA vA vB nA nB
    · intro hatt
      simp only [plain] at hatt
      split at hatt
      · rename_i h
        obtain ⟨cs, -, -, -, o⟩ := gB2.outline hs.unit
        exact ⟨_, (o h).shift c.posA vB nB⟩
      · split at hatt <;> simp at hatt
    · intro hatt
      simp only [plain] at hatt
      split at hatt
      · simp at hatt
      · split at hatt
        · rename_i h
          obtain ⟨cs, -, -, -, o⟩ := gA2.outline hs.unit
          exact ⟨_, (o h).shift c.posA vA nA⟩
        · simp at hatt
  constructor
  · rw [← p1]
    constructor
    · intro h
      rw [Option.isSome_iff_ne_none] at h ⊢
      intro h0
      apply h
      unfold polyPoly
      simp only [h0, Option.bind_none]
    · intro h
      obtain ⟨x, hx⟩ := Option.isSome_iff_exists.mp h
      obtain ⟨l, hl, -⟩ := main x hx
      rw [hl]; rfl
  · intro l hl
    cases hx : polyAxis k K.tiny (mA.turn c.ornA) (mB.turn c.ornB) 0 (c.posB - c.posA) with
    | none =>
      unfold polyPoly at hl
      simp only [hx, Option.bind_none] at hl
      exact absurd hl (by simp)
    | some x =>
      obtain ⟨hs, m1, m2, m3⟩ := p2 x hx
      obtain ⟨l', e1, e2, e3, e4, e5⟩ := main x hx
      rw [hl] at e1; cases e1
      refine ⟨x.dir, x.dist, hs.unit, hs.gap.1, ?_, fun h => ⟨e2 h, gap_far hs.unit ht0 hs.gap.1 h⟩, e3, e4, e5⟩
      intro d y hd hy
      cases hd with
      | faceA hf =>
        obtain ⟨z, z1, z2, z3⟩ := m1 _ (List.mem_map_of_mem hf)
        have := z1.gap.1
        rw [z2] at this
        rw [gap_unique hy this]; exact z3
      | faceB hf =>
        obtain ⟨z, z1, z2, z3⟩ := m2 _ (List.mem_map_of_mem hf)
        have := z1.gap.1
        rw [z2] at this
        rw [gap_unique hy this]; exact z3
      | edges ha hb hr =>
        obtain ⟨z, z1, z2, z3⟩ := m3 _ ha _ hb _ hr
        have := z1.gap.1
        rw [z2] at this
        rw [gap_unique hy this]; exact z3

end Edyn.Collide
