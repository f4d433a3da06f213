import Verif.Geom.Support

/-!
# Hill climbing on a convex polyhedron (C69)

`polyhedron_support_projection` (`shape_util.cpp` 48-82) on the adjacency computed by
`convex_mesh::calculate_neighbors` (`convex_mesh.cpp` 174-193).
-/

namespace Edyn.Geom.Poly

open Edyn.Math V3 Edyn.Geom

/-! ## Model -/

/-- The other vertex of the edge, if `v` belongs to it: the body of the inner loop of
`calculate_neighbors`, `convex_mesh.cpp` 183-188. -/
def other (v : ℕ) (e : ℕ × ℕ) : Option ℕ :=
  if e.1 = v ∨ e.2 = v then some (if e.1 = v then e.2 else e.1) else none

/-- One pass of the outer loop of `calculate_neighbors`, `convex_mesh.cpp` 178-192, for the vertex `v`;
`neighbor_count` is the length of `neighbor_indices`. -/
def vertexStep (edges : List (ℕ × ℕ)) (s : List ℕ × List ℕ) (v : ℕ) : List ℕ × List ℕ :=
  let idx := s.2 ++ edges.filterMap (other v)
  (s.1 ++ [idx.length], idx)

/-- `calculate_neighbors`, `convex_mesh.cpp` 174-193, for `n` vertices, on empty vectors:
`neighbors_start` and `neighbor_indices`. -/
def calcNeighbors (n : ℕ) (edges : List (ℕ × ℕ)) : List ℕ × List ℕ :=
  (List.range n).foldl (vertexStep edges) ([0], [])

/-- The `for` loop of `polyhedron_support_projection`, `shape_util.cpp` 65-74: the state is `v_idx`,
`max_proj` and `done`.  `none`: an index is out of range. -/
noncomputable def scan (vs : List (V3 ℝ)) (dir : V3 ℝ) : List ℕ → ℕ × ℝ × Bool → Option (ℕ × ℝ × Bool)
  | [], s => some s
  | nv :: rest, s =>
    match vs[nv]? with
    | none => none
    | some p => if s.2.1 < dot p dir then scan vs dir rest (nv, dot p dir, false) else scan vs dir rest s

/-- The entries `n0` to `n1` of a vector; `none`: out of range. -/
def slice (l : List ℕ) (n0 n1 : ℕ) : Option (List ℕ) :=
  if n1 ≤ n0 then some [] else if n1 ≤ l.length then some ((l.drop n0).take (n1 - n0)) else none

/-- The `while` loop of `polyhedron_support_projection`, `shape_util.cpp` 60-79.  The number bounds the
passes; `none`: it is exhausted or an index is out of range. -/
noncomputable def climb (vs : List (V3 ℝ)) (start idx : List ℕ) (dir : V3 ℝ) : ℕ → ℕ → ℝ → Option ℝ
  | 0, _, _ => none
  | k + 1, v, m =>
    (start[v]?).bind fun n0 => (start[v + 1]?).bind fun n1 => (slice idx n0 n1).bind fun ns =>
      (scan vs dir ns (v, m, true)).bind fun r => if r.2.2 then some r.2.1 else climb vs start idx dir k r.1 r.2.1

/-- `polyhedron_support_projection`, `shape_util.cpp` 48-82, with at most `k` passes. -/
noncomputable def polyProjection (k : ℕ) (vs : List (V3 ℝ)) (start idx : List ℕ) (dir : V3 ℝ) : Option ℝ :=
  (vs[0]?).bind fun p => if start.length = vs.length + 1 then climb vs start idx dir k 0 (dot p dir) else none

/-! ## Specification -/

/-- Sums of non-negative multiples of the given vectors. -/
inductive Cone (G : V3 ℝ → Prop) : V3 ℝ → Prop
  | zero : Cone G 0
  | add {c g : V3 ℝ} (s : ℝ) : Cone G c → G g → 0 ≤ s → Cone G (c + smul s g)

/-- From every vertex all other ones are seen inside of the cone spanned by the edges at that vertex.  This
holds for every convex polyhedron whose edges are all listed, and fails for vertices without edges. -/
def EdgeCone (vs : List (V3 ℝ)) (edges : List (ℕ × ℕ)) : Prop :=
  ∀ (v : ℕ) (p : V3 ℝ), vs[v]? = some p → ∀ q ∈ vs,
    Cone (fun g => ∃ u r, (((v, u) ∈ edges ∨ (u, v) ∈ edges) ∧ vs[u]? = some r) ∧ g = r - p) (q - p)

/-! ## The adjacency -/

theorem calc_inv (edges : List (ℕ × ℕ)) (n : ℕ) :
    (calcNeighbors n edges).2 = (List.range n).flatMap (fun v => edges.filterMap (other v)) ∧
    (calcNeighbors n edges).1.length = n + 1 ∧
    ∀ v ≤ n, (calcNeighbors n edges).1[v]? =
      some ((List.range v).flatMap (fun v => edges.filterMap (other v))).length := by
  induction n with
  | zero =>
    refine ⟨rfl, rfl, ?_⟩
    intro v hv
    obtain rfl : v = 0 := by omega
    rfl
  | succ n ih =>
    obtain ⟨h1, h2, h3⟩ := ih
    have hs : calcNeighbors (n + 1) edges = vertexStep edges (calcNeighbors n edges) n := by
      unfold calcNeighbors
      rw [List.range_succ, List.foldl_append]; rfl
    have e2 : (calcNeighbors (n + 1) edges).2 =
        (List.range (n + 1)).flatMap (fun v => edges.filterMap (other v)) := by
      rw [hs, List.range_succ, List.flatMap_append, ← h1]
      simp [vertexStep]
    refine ⟨e2, ?_, ?_⟩
    · rw [hs]; simp [vertexStep, h2]
    · intro v hv
      rcases Nat.lt_or_ge v (n + 1) with hlt | hge
      · rw [hs]
        simp only [vertexStep]
        rw [List.getElem?_append_left (by omega)]
        exact h3 v (by omega)
      · obtain rfl : v = n + 1 := by omega
        rw [← e2, hs]
        simp only [vertexStep]
        rw [List.getElem?_append_right (by omega), h2]
        simp

/-- The entries between the starts of a vertex and of the next one are the vertices joined to it. -/
theorem neighbours_of {n : ℕ} {edges : List (ℕ × ℕ)} {v : ℕ} (hv : v < n) :
    ∃ n0 n1, (calcNeighbors n edges).1[v]? = some n0 ∧ (calcNeighbors n edges).1[v + 1]? = some n1 ∧
      slice (calcNeighbors n edges).2 n0 n1 = some (edges.filterMap (other v)) := by
  obtain ⟨h1, _, h3⟩ := calc_inv edges n
  refine ⟨_, _, h3 v (by omega), h3 (v + 1) (by omega), ?_⟩
  have hs : ((List.range (v + 1)).flatMap (fun v => edges.filterMap (other v))) =
      (List.range v).flatMap (fun v => edges.filterMap (other v)) ++ edges.filterMap (other v) := by
    rw [List.range_succ, List.flatMap_append]; simp
  have hsplit : ∃ rest, (List.range n).flatMap (fun v => edges.filterMap (other v)) =
      (List.range v).flatMap (fun v => edges.filterMap (other v)) ++ (edges.filterMap (other v) ++ rest) := by
    obtain ⟨k, rfl⟩ : ∃ k, n = v + 1 + k := ⟨n - (v + 1), by omega⟩
    refine ⟨((List.range k).map (v + 1 + ·)).flatMap (fun v => edges.filterMap (other v)), ?_⟩
    rw [List.range_add, List.flatMap_append, hs, List.append_assoc]
  obtain ⟨rest, hr⟩ := hsplit
  rw [h1, hr, hs, List.length_append]
  set A := (List.range v).flatMap (fun v => edges.filterMap (other v))
  set B := edges.filterMap (other v)
  unfold slice
  by_cases hB : B.length = 0
  · rw [if_pos (by omega), List.length_eq_zero_iff.mp hB]
  · rw [if_neg (by omega), if_pos (by simp), List.drop_left, Nat.add_sub_cancel_left, List.take_left]

theorem mem_other {edges : List (ℕ × ℕ)} {v u : ℕ} :
    u ∈ edges.filterMap (other v) ↔ (v, u) ∈ edges ∨ (u, v) ∈ edges := by
  rw [List.mem_filterMap]
  constructor
  · rintro ⟨⟨a, b⟩, he, h⟩
    unfold other at h
    simp only at h
    by_cases ha : a = v
    · subst ha; simp at h; subst h; exact .inl he
    · by_cases hb : b = v
      · subst hb; simp [ha] at h; subst h; exact .inr he
      · simp [ha, hb] at h
  · rintro (h | h)
    · exact ⟨(v, u), h, by simp [other]⟩
    · refine ⟨(u, v), h, ?_⟩
      unfold other
      by_cases huv : u = v <;> simp [huv]

/-! ## The climb -/

theorem scan_spec {vs : List (V3 ℝ)} {dir : V3 ℝ} (ns : List ℕ) (hns : ∀ u ∈ ns, u < vs.length)
    (s : ℕ × ℝ × Bool) : ∃ r, scan vs dir ns s = some r ∧ s.2.1 ≤ r.2.1 ∧
      (∀ u ∈ ns, ∀ p, vs[u]? = some p → dot p dir ≤ r.2.1) ∧
      (r = s ∨ (r.2.2 = false ∧ s.2.1 < r.2.1 ∧ ∃ p, vs[r.1]? = some p ∧ r.2.1 = dot p dir)) := by
  induction ns generalizing s with
  | nil => exact ⟨s, rfl, le_rfl, by simp, .inl rfl⟩
  | cons nv rest ih =>
    have hlt : nv < vs.length := hns nv (by simp)
    have hget : vs[nv]? = some vs[nv] := List.getElem?_eq_getElem hlt
    unfold scan
    rw [hget]
    simp only
    by_cases hc : s.2.1 < dot vs[nv] dir
    · rw [if_pos hc]
      obtain ⟨r, h1, h2, h3, h4⟩ := ih (fun u hu => hns u (by simp [hu])) (nv, dot vs[nv] dir, false)
      simp only at h2 h4
      refine ⟨r, h1, by linarith, ?_, .inr ?_⟩
      · intro u hu p hp
        rcases List.mem_cons.mp hu with rfl | hu
        · rw [hget] at hp; cases hp; exact h2
        · exact h3 u hu p hp
      · rcases h4 with rfl | ⟨h4, h5, h6⟩
        · exact ⟨rfl, hc, _, hget, rfl⟩
        · exact ⟨h4, by linarith, h6⟩
    · rw [if_neg hc]
      obtain ⟨r, h1, h2, h3, h4⟩ := ih (fun u hu => hns u (by simp [hu])) s
      refine ⟨r, h1, h2, ?_, h4⟩
      intro u hu p hp
      rcases List.mem_cons.mp hu with rfl | hu
      · rw [hget] at hp; cases hp; exact le_trans (not_lt.mp hc) h2
      · exact h3 u hu p hp

open Classical in
/-- How many vertices are further than `m`. -/
noncomputable def ahead (vs : List (V3 ℝ)) (dir : V3 ℝ) (m : ℝ) : ℕ := vs.countP (fun p => decide (m < dot p dir))

theorem ahead_lt {vs : List (V3 ℝ)} {dir : V3 ℝ} {m m' : ℝ} (h : m < m') {p : V3 ℝ} (hp : p ∈ vs)
    (he : m' = dot p dir) : ahead vs dir m' < ahead vs dir m := by
  unfold ahead
  induction vs with
  | nil => simp at hp
  | cons q qs ih =>
    rw [List.countP_cons, List.countP_cons]
    have mono : ∀ l : List (V3 ℝ), l.countP (fun p => decide (m' < dot p dir)) ≤
        l.countP (fun p => decide (m < dot p dir)) := by
      intro l
      apply List.countP_mono_left
      intro x _ hx
      simp only [decide_eq_true_eq] at *
      linarith
    rcases List.mem_cons.mp hp with rfl | hp
    · have a1 : ¬ m' < dot p dir := by rw [he]; exact lt_irrefl _
      have a2 : m < dot p dir := by rw [← he]; exact h
      simp only [a1, a2, decide_true, decide_false, if_true]
      have := mono qs
      simp
      omega
    · have := ih hp
      by_cases hq : m' < dot q dir
      · have hq' : m < dot q dir := by linarith
        simp only [hq, hq', decide_true, if_true]; omega
      · simp only [hq, decide_false, Bool.false_eq_true, if_false]
        omega

/-- The climb ends within as many passes as there are vertices ahead, at a vertex none of whose neighbours
is further. -/
theorem climb_spec {vs : List (V3 ℝ)} {edges : List (ℕ × ℕ)}
    (hedge : ∀ e ∈ edges, e.1 < vs.length ∧ e.2 < vs.length) (dir : V3 ℝ) (k v : ℕ) (p : V3 ℝ)
    (hv : vs[v]? = some p) (hk : ahead vs dir (dot p dir) < k) :
    ∃ u q, climb vs (calcNeighbors vs.length edges).1 (calcNeighbors vs.length edges).2 dir k v (dot p dir) =
        some (dot q dir) ∧ vs[u]? = some q ∧
      ∀ w r, ((u, w) ∈ edges ∨ (w, u) ∈ edges) → vs[w]? = some r → dot r dir ≤ dot q dir := by
  induction k generalizing v p with
  | zero => omega
  | succ k ih =>
    have hvl : v < vs.length := (List.getElem?_eq_some_iff.mp hv).1
    obtain ⟨n0, n1, e0, e1, es⟩ := neighbours_of (edges := edges) hvl
    have hns : ∀ u ∈ edges.filterMap (other v), u < vs.length := by
      intro u hu
      rcases mem_other.mp hu with h | h
      · exact (hedge _ h).2
      · exact (hedge _ h).1
    obtain ⟨r, h1, h2, h3, h4⟩ := scan_spec (dir := dir) _ hns (v, dot p dir, true)
    unfold climb
    rw [e0, e1]
    simp only [Option.bind_some]
    rw [es]
    simp only [Option.bind_some]
    rw [h1]
    simp only [Option.bind_some]
    rcases h4 with rfl | ⟨h4, h5, q, hq, he⟩
    · simp only [if_true]
      refine ⟨v, p, rfl, hv, ?_⟩
      intro w x hw hx
      exact h3 w (mem_other.mpr hw) x hx
    · rw [h4]
      simp only [Bool.false_eq_true, if_false]
      rw [he]
      have hmem : q ∈ vs := List.mem_of_getElem? hq
      have := ahead_lt (vs := vs) h5 hmem he
      simp only at this
      rw [he] at this
      exact ih r.1 q hq (by omega)

theorem cone_le {G : V3 ℝ → Prop} {d : V3 ℝ} (hG : ∀ g, G g → dot g d ≤ 0) {x : V3 ℝ} (hx : Cone G x) : dot x d ≤ 0 := by
  induction hx with
  | zero => simp [dot]
  | add s _ hg hs ih =>
    rw [dot_add_left, dot_smul_left]
    nlinarith [hG _ hg]

/-- The climb always ends, after at most as many passes as there are vertices, whatever the edges are. -/
theorem climb_terminates (vs : List (V3 ℝ)) (edges : List (ℕ × ℕ)) (hne : vs ≠ [])
    (hedge : ∀ e ∈ edges, e.1 < vs.length ∧ e.2 < vs.length) (dir : V3 ℝ) (k : ℕ) (hk : vs.length ≤ k) :
    ∃ u q, polyProjection k vs (calcNeighbors vs.length edges).1 (calcNeighbors vs.length edges).2 dir =
        some (dot q dir) ∧ vs[u]? = some q ∧
      ∀ w r, ((u, w) ∈ edges ∨ (w, u) ∈ edges) → vs[w]? = some r → dot r dir ≤ dot q dir := by
  obtain ⟨p, rest, rfl⟩ := List.exists_cons_of_ne_nil hne
  have hlen : ahead (p :: rest) dir (dot p dir) < k := by
    unfold ahead
    rw [List.countP_cons]
    have := List.countP_le_length (p := fun x => decide (dot p dir < dot x dir)) (l := rest)
    simp only [lt_irrefl, decide_false, Bool.false_eq_true, if_false]
    simp only [List.length_cons] at hk
    omega
  obtain ⟨u, q, h1, h2, h3⟩ := climb_spec hedge dir k 0 p rfl hlen
  refine ⟨u, q, ?_, h2, h3⟩
  unfold polyProjection
  simp only [List.getElem?_cons_zero, Option.bind_some]
  rw [if_pos (calc_inv edges _).2.1, h1]

/-- **C69, polyhedra.** On a convex polyhedron the hill climbing ends within as many passes as there are
vertices and returns the largest projection of a point of the polyhedron, in every direction. -/
theorem polyhedron_projection_spec (vs : List (V3 ℝ)) (edges : List (ℕ × ℕ)) (hne : vs ≠ [])
    (hedge : ∀ e ∈ edges, e.1 < vs.length ∧ e.2 < vs.length) (hc : EdgeCone vs edges) (dir : V3 ℝ) (k : ℕ)
    (hk : vs.length ≤ k) :
    ∃ x, polyProjection k vs (calcNeighbors vs.length edges).1 (calcNeighbors vs.length edges).2 dir = some x ∧
      IsProjection (Hull vs) dir x := by
  obtain ⟨u, q, h1, h2, h3⟩ := climb_terminates vs edges hne hedge dir k hk
  refine ⟨_, h1, ⟨q, .vertex (List.mem_of_getElem? h2), rfl⟩, ?_⟩
  intro w hw
  refine hull_le ?_ hw
  intro r hr
  have := cone_le (d := dir) (by
    rintro g ⟨w, x, ⟨hw, hx⟩, rfl⟩
    rw [dot_sub_left]
    linarith [h3 w x hw hx]) (hc u q h2 r hr)
  rw [dot_sub_left] at this
  linarith

theorem hull_map {f : V3 ℝ → V3 ℝ} (hf : ∀ p q t, f (p + smul t (q - p)) = f p + smul t (f q - f p))
    {vs : List (V3 ℝ)} {w : V3 ℝ} (h : Hull vs w) : Hull (vs.map f) (f w) := by
  induction h with
  | vertex hp => exact .vertex (List.mem_map_of_mem hp)
  | between t _ _ t0 t1 ih1 ih2 => rw [hf]; exact .between t ih1 ih2 t0 t1

/-- The same with the rotated vertices of the body, as collision detection calls it. -/
theorem rotated_projection_spec (vs : List (V3 ℝ)) (edges : List (ℕ × ℕ)) (hne : vs ≠ [])
    (hedge : ∀ e ∈ edges, e.1 < vs.length ∧ e.2 < vs.length) (hc : EdgeCone vs edges) (orn : Quat ℝ)
    (hq : orn.lengthSqr = 1) (dir : V3 ℝ) (k : ℕ) (hk : vs.length ≤ k) :
    ∃ x, polyProjection k (vs.map (Quat.rotate orn)) (calcNeighbors vs.length edges).1
        (calcNeighbors vs.length edges).2 dir = some x ∧
      IsProjection (Placed (Hull vs) 0 orn) dir x := by
  have hlin : ∀ p q t, Quat.rotate orn (p + smul t (q - p)) =
      Quat.rotate orn p + smul t (Quat.rotate orn q - Quat.rotate orn p) := by
    intro p q t; rw [rotate_add, rotate_smul, rotate_sub]
  obtain ⟨u, q, h1, h2, h3⟩ := climb_terminates (vs.map (Quat.rotate orn)) edges (by simpa using hne)
    (by simpa using hedge) dir k (by simpa using hk)
  rw [List.length_map] at h1
  rw [List.getElem?_map, Option.map_eq_some_iff] at h2
  obtain ⟨p, hp, rfl⟩ := h2
  have z : ∀ v : V3 ℝ, 0 + v = v := by intro v; ext <;> simp
  refine ⟨_, h1, ⟨_, ⟨p, .vertex (List.mem_of_getElem? hp), (z _).symm⟩, rfl⟩, ?_⟩
  rintro w ⟨x, hx, rfl⟩
  rw [z]
  refine hull_le ?_ (hull_map hlin hx)
  intro r hr
  obtain ⟨r', hr', rfl⟩ := List.mem_map.mp hr
  have := cone_le (d := Quat.rotate orn.conjugate dir) (by
    rintro g ⟨w, x, ⟨hw, hx⟩, rfl⟩
    rw [← dot_rotate hq, rotate_sub, dot_sub_left]
    have := h3 w (Quat.rotate orn x) hw (by rw [List.getElem?_map, hx]; rfl)
    linarith) (hc u p hp r' hr')
  rw [← dot_rotate hq, rotate_sub, dot_sub_left] at this
  linarith

/-! ## A polyhedron with an unused vertex, and one without -/

/-- The full statement: convexity is only that all given points belong to the polyhedron. -/
def PolyFull : Prop :=
  ∀ (vs : List (V3 ℝ)) (edges : List (ℕ × ℕ)), vs ≠ [] → (∀ e ∈ edges, e.1 < vs.length ∧ e.2 < vs.length) →
    ∀ (dir : V3 ℝ) (k : ℕ), vs.length ≤ k → ∃ x,
      polyProjection k vs (calcNeighbors vs.length edges).1 (calcNeighbors vs.length edges).2 dir = some x ∧
      IsProjection (Hull vs) dir x

/-- If the first vertex belongs to no face, it has no neighbours and the climb ends there: the projection of
the polyhedron is that of the unused vertex in every direction.  Here a tetrahedron with its centre. -/
theorem unused_vertex_stops : ¬ PolyFull := by
  intro h
  obtain ⟨x, h1, _, h2⟩ := h [0, ⟨1, 1, 1⟩, ⟨1, -1, -1⟩, ⟨-1, 1, -1⟩, ⟨-1, -1, 1⟩]
    [(1, 2), (2, 3), (3, 1), (1, 4), (2, 4), (3, 4)] (by simp) (by simp) ⟨1, 0, 0⟩ 5 (by simp)
  have h3 : polyProjection 5 [0, ⟨1, 1, 1⟩, ⟨1, -1, -1⟩, ⟨-1, 1, -1⟩, ⟨-1, -1, 1⟩]
      (calcNeighbors 5 [(1, 2), (2, 3), (3, 1), (1, 4), (2, 4), (3, 4)]).1
      (calcNeighbors 5 [(1, 2), (2, 3), (3, 1), (1, 4), (2, 4), (3, 4)]).2 ⟨1, 0, 0⟩ = some 0 := by
    have : calcNeighbors 5 [(1, 2), (2, 3), (3, 1), (1, 4), (2, 4), (3, 4)] =
      ([0, 0, 3, 6, 9, 12], [2, 3, 4, 1, 3, 4, 2, 1, 4, 1, 2, 3]) := by decide
    rw [this]
    unfold polyProjection
    simp only [List.getElem?_cons_zero, Option.bind_some]
    rw [if_pos (by simp), climb]
    simp [slice, scan, dot]
  have h4 : x = 0 := by
    have := h1.symm.trans h3
    simpa using this
  have := h2 ⟨1, 1, 1⟩ (.vertex (by simp))
  simp [dot, h4] at this
  linarith

/-- A pyramid over a square. -/
noncomputable def pyramid : List (V3 ℝ) := [⟨1, 0, 0⟩, ⟨0, 0, 1⟩, ⟨-1, 0, 0⟩, ⟨0, 0, -1⟩, ⟨0, 2, 0⟩]
def pyramidEdges : List (ℕ × ℕ) := [(0, 1), (1, 2), (2, 3), (3, 0), (0, 4), (1, 4), (2, 4), (3, 4)]

theorem cone_gen {G : V3 ℝ → Prop} {g : V3 ℝ} (h : G g) : Cone G g := by
  have := Cone.add 1 (Cone.zero (G := G)) h (by norm_num)
  have e : (0 : V3 ℝ) + smul 1 g = g := by ext <;> simp
  rwa [e] at this

theorem cone_two {G : V3 ℝ → Prop} {g g' x : V3 ℝ} (h : G g) (h' : G g') (hx : x = g + g') : Cone G x := by
  have := Cone.add 1 (cone_gen h) h' (by norm_num)
  have e : g + smul 1 g' = x := by rw [hx]; ext <;> simp
  rwa [e] at this

theorem cone_self {G : V3 ℝ → Prop} (p : V3 ℝ) : Cone G (p - p) := by
  have : p - p = 0 := by ext <;> simp
  rw [this]; exact .zero

/-- The pyramid meets the hypothesis of the theorem. -/
theorem pyramid_cone : EdgeCone pyramid pyramidEdges := by
  intro v p hp q hq
  have hv : v < 5 := (List.getElem?_eq_some_iff.mp hp).1
  simp only [pyramid, List.mem_cons, List.not_mem_nil, or_false] at hq
  obtain rfl | rfl | rfl | rfl | rfl : v = 0 ∨ v = 1 ∨ v = 2 ∨ v = 3 ∨ v = 4 := by omega
  all_goals (simp [pyramid] at hp; subst hp)
  · rcases hq with rfl | rfl | rfl | rfl | rfl
    · exact cone_self _
    · exact cone_gen ⟨1, _, ⟨by simp [pyramidEdges], rfl⟩, rfl⟩
    · exact cone_two ⟨1, _, ⟨by simp [pyramidEdges], rfl⟩, rfl⟩ ⟨3, _, ⟨by simp [pyramidEdges], rfl⟩, rfl⟩
        (by ext <;> simp [pyramid]; norm_num)
    · exact cone_gen ⟨3, _, ⟨by simp [pyramidEdges], rfl⟩, rfl⟩
    · exact cone_gen ⟨4, _, ⟨by simp [pyramidEdges], rfl⟩, rfl⟩
  · rcases hq with rfl | rfl | rfl | rfl | rfl
    · exact cone_gen ⟨0, _, ⟨by simp [pyramidEdges], rfl⟩, rfl⟩
    · exact cone_self _
    · exact cone_gen ⟨2, _, ⟨by simp [pyramidEdges], rfl⟩, rfl⟩
    · exact cone_two ⟨0, _, ⟨by simp [pyramidEdges], rfl⟩, rfl⟩ ⟨2, _, ⟨by simp [pyramidEdges], rfl⟩, rfl⟩
        (by ext <;> simp [pyramid]; norm_num)
    · exact cone_gen ⟨4, _, ⟨by simp [pyramidEdges], rfl⟩, rfl⟩
  · rcases hq with rfl | rfl | rfl | rfl | rfl
    · exact cone_two ⟨1, _, ⟨by simp [pyramidEdges], rfl⟩, rfl⟩ ⟨3, _, ⟨by simp [pyramidEdges], rfl⟩, rfl⟩
        (by ext <;> simp [pyramid])
    · exact cone_gen ⟨1, _, ⟨by simp [pyramidEdges], rfl⟩, rfl⟩
    · exact cone_self _
    · exact cone_gen ⟨3, _, ⟨by simp [pyramidEdges], rfl⟩, rfl⟩
    · exact cone_gen ⟨4, _, ⟨by simp [pyramidEdges], rfl⟩, rfl⟩
  · rcases hq with rfl | rfl | rfl | rfl | rfl
    · exact cone_gen ⟨0, _, ⟨by simp [pyramidEdges], rfl⟩, rfl⟩
    · exact cone_two ⟨0, _, ⟨by simp [pyramidEdges], rfl⟩, rfl⟩ ⟨2, _, ⟨by simp [pyramidEdges], rfl⟩, rfl⟩
        (by ext <;> simp [pyramid])
    · exact cone_gen ⟨2, _, ⟨by simp [pyramidEdges], rfl⟩, rfl⟩
    · exact cone_self _
    · exact cone_gen ⟨4, _, ⟨by simp [pyramidEdges], rfl⟩, rfl⟩
  · rcases hq with rfl | rfl | rfl | rfl | rfl
    · exact cone_gen ⟨0, _, ⟨by simp [pyramidEdges], rfl⟩, rfl⟩
    · exact cone_gen ⟨1, _, ⟨by simp [pyramidEdges], rfl⟩, rfl⟩
    · exact cone_gen ⟨2, _, ⟨by simp [pyramidEdges], rfl⟩, rfl⟩
    · exact cone_gen ⟨3, _, ⟨by simp [pyramidEdges], rfl⟩, rfl⟩
    · exact cone_self _

end Edyn.Geom.Poly
