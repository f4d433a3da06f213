import Verif.Mesh.Split

/-!
# Queries on a mesh that was split into pages

`create_paged_triangle_mesh` as a whole, and `visit_triangles` on the result while all pages are
loaded (they are after the mesh is made; `Verif/Mesh/Cache.lean` models loading and eviction).
-/

namespace Edyn.Mesh.Split

open Topo StaticTree

variable {P N C A S : Type} [LinearOrder S] [Inhabited S]

/-- `get_triangle_aabb` of the vertices of a triangle (src/edyn/shapes/triangle_mesh.cpp 146-154,
include/edyn/shapes/create_paged_triangle_mesh.hpp 235-242); `box` is the function of the three
positions. -/
def triBox (box : P → P → P → Box S) (verts : List P) (t : Tri) : Option (Box S) :=
  (verts[t.a]?).bind fun a => (verts[t.b]?).bind fun b => (verts[t.c]?).map fun c => box a b c

/-- src/edyn/shapes/triangle_mesh.cpp 130-144 `build_triangle_tree`. -/
def meshTree (env : Env S) (box : P → P → P → Box S) (verts : List P) (tris : List Tri) :
    Option (St S) :=
  (tris.mapM (triBox box verts)).bind fun bs => build env bs 1

/-- The page tree, and the pages with their triangle trees. -/
structure Paged (P N A S : Type) where
  tree : St S
  pages : List (Page P N A × St S)

/-- One page with its tree (create_paged_triangle_mesh.hpp 50-173). -/
def pageWithTree (env : Env S) (value : C → A) (box : P → P → P → Box S) (G : Src P N C)
    (leaf : Nat × List Nat) : Option (Page P N A × St S) :=
  (page value G leaf.2).bind fun Q => (meshTree env box Q.verts Q.tris).map fun tr => (Q, tr)

/-- `create_paged_triangle_mesh` (create_paged_triangle_mesh.hpp 208-265).  `envP` is the environment
of the page tree, whose `report` must be the position of the leaf (lines 28-37, see
`IdIsPosition`), `envT` that of the triangle trees.  Making pages in parallel tasks gives the same
pages: each task writes its own entry. -/
def createPaged (envP envT : Env S) (value : C → A) (box : P → P → P → Box S) (maxTri : Nat)
    (G : Src P N C) : Option (Paged P N A S) :=
  (G.tris.mapM (triBox box G.verts)).bind fun bs =>
  (build envP bs maxTri).bind fun st =>
  (st.log.mapM (pageWithTree envT value box G)).map fun ps => ⟨st, ps⟩

/-- The triangles of one page that are visited, with the page (paged_triangle_mesh.hpp 93-98,
triangle_mesh.hpp 116-121). -/
def visitPage (pages : List (Page P N A × St S)) (test : Box S → Bool) (k : Nat) :
    Option (List (Nat × Nat)) :=
  (pages[k]?).bind fun q => (queryIds q.2.nodes test).map fun l => l.map fun i => (k, i)

/-- `paged_triangle_mesh::visit_triangles` with all pages loaded (paged_triangle_mesh.hpp 89-102): the
calls of the visitor. -/
def visitTriangles (M : Paged P N A S) (test : Box S → Bool) : Option (List (Nat × Nat)) :=
  (queryIds M.tree.nodes test).bind fun ks =>
  (ks.mapM (visitPage M.pages test)).map List.flatten

/-- The id of a leaf of the page tree is the number of leaves made before it
(create_paged_triangle_mesh.hpp 31). -/
def IdIsPosition (env : Env S) : Prop := ∀ k l, env.report k l = k

/-! ## Specification -/

/-- The positions of the vertices of triangle `i`. -/
def Corners (verts : List P) (tris : List Tri) (i : Nat) (p q r : P) : Prop :=
  ∃ t, tris[i]? = some t ∧ verts[t.a]? = some p ∧ verts[t.b]? = some q ∧ verts[t.c]? = some r

/-! ## Lemmas -/

omit [LinearOrder S] [Inhabited S] in
theorem triBox_some {box : P → P → P → Box S} {verts : List P} {t : Tri} {b : Box S}
    (h : triBox box verts t = some b) : ∃ p q r, verts[t.a]? = some p ∧ verts[t.b]? = some q ∧
      verts[t.c]? = some r ∧ b = box p q r := by
  unfold triBox at h
  simp only [Option.bind_eq_some_iff, Option.map_eq_some_iff] at h
  obtain ⟨p, h1, q, h2, r, h3, h4⟩ := h
  exact ⟨p, q, r, h1, h2, h3, h4.symm⟩

omit [LinearOrder S] [Inhabited S] in
theorem triBox_ok (box : P → P → P → Box S) {verts : List P} {t : Tri} (h1 : t.a < verts.length)
    (h2 : t.b < verts.length) (h3 : t.c < verts.length) : ∃ b, triBox box verts t = some b :=
  ⟨box verts[t.a] verts[t.b] verts[t.c], by simp [triBox, h1, h2, h3]⟩

omit [Inhabited S] [LinearOrder S] in
theorem Stored_nth {env : Env S} {st : St S} {k0 : Nat} {l : List (Nat × List Nat)}
    (h : Stored env st k0 l) : ∀ (j : Nat) p, l[j]? = some p →
      ∃ n, st.nodes[p.1]? = some n ∧ n.second = env.report (k0 + j) p.2 := by
  induction l generalizing k0 with
  | nil => simp
  | cons q l ih =>
    obtain ⟨i, items⟩ := q
    intro j p hp
    cases j with
    | zero =>
      simp only [List.getElem?_cons_zero, Option.some.injEq] at hp
      subst hp
      obtain ⟨n, h1, _, h2⟩ := h.1
      exact ⟨n, h1, h2⟩
    | succ j =>
      obtain ⟨n, h1, h2⟩ := ih h.2 j p (by simpa using hp)
      exact ⟨n, h1, by rw [h2]; congr 1; omega⟩

/-- A query on the page tree gives the positions of leaves, each at most once, and misses no leaf with
an item that passes. -/
theorem page_query {env : Env S} (he : env.Ok) (hid : IdIsPosition env) {boxes : List (Box S)}
    (hne : boxes ≠ []) {maxObj : Nat} (hmax : 1 ≤ maxObj) {st : St S}
    (hb : build env boxes maxObj = some st) {test : Box S → Bool} (hm : Monotone test) :
    ∃ out, queryIds st.nodes test = some out ∧ out.Nodup ∧ (∀ k ∈ out, k < st.log.length) ∧
      ∀ (k : Nat) l, st.log[k]? = some l → ∀ i ∈ l.2, ∀ b, boxes[i]? = some b → test b = true → k ∈ out := by
  obtain ⟨st', t, h1, h2, h3, h4, h5, h6, h7, h8, h9⟩ := build_rep he hne hmax
  rw [hb] at h1
  simp only [Option.some.injEq] at h1
  subst h1
  have hq := query_rep h3 h2 h5 h6 (test := test)
  let f : Nat → Nat := fun k => (st.nodes[k]?.map (·.second)).getD 0
  have hmap : (visit st.nodes test t).mapM (fun k => st.nodes[k]?.map (·.second)) =
      some ((visit st.nodes test t).map f) := by
    refine mapM_eq_map _ _ _ ?_
    intro k hk
    obtain ⟨items, n, hmem, hn, _⟩ := (mem_visit hm h3 k).1 hk
    simp [f, hn]
  -- position of a leaf
  have hpos : ∀ (j : Nat) p, st.log[j]? = some p → f p.1 = j := by
    intro j p hp
    rw [h7] at hp
    obtain ⟨n, n1, n2⟩ := Stored_nth h9 j p hp
    rw [hid, Nat.zero_add] at n2
    simp only [f, n1, Option.map_some, Option.getD_some, n2]
  refine ⟨(visit st.nodes test t).map f, by simp [queryIds, hq, hmap], ?_, ?_, ?_⟩
  · refine (visit_nodup h5).map_on ?_
    intro a ha b hb' hab
    obtain ⟨ia, na, ha1, ha2, _⟩ := (mem_visit hm h3 a).1 ha
    obtain ⟨ib, nb, hb1, hb2, _⟩ := (mem_visit hm h3 b).1 hb'
    rw [← h7] at ha1 hb1
    obtain ⟨j1, q1⟩ := List.mem_iff_getElem?.mp ha1
    obtain ⟨j2, q2⟩ := List.mem_iff_getElem?.mp hb1
    have e1 := hpos _ _ q1
    have e2 := hpos _ _ q2
    simp only at e1 e2
    rw [e1, e2] at hab
    subst hab
    rw [q1] at q2
    simp only [Option.some.injEq, Prod.mk.injEq] at q2
    exact q2.1
  · intro k hk
    obtain ⟨j, hj, rfl⟩ := List.mem_map.mp hk
    obtain ⟨items, n, hmem, _, _⟩ := (mem_visit hm h3 j).1 hj
    rw [← h7] at hmem
    obtain ⟨i, hi⟩ := List.mem_iff_getElem?.mp hmem
    have := hpos _ _ hi
    simp only at this
    rw [this]
    exact (List.getElem?_eq_some_iff.mp hi).1
  · intro k l hl i hi b hbx ht
    rw [List.mem_map]
    refine ⟨l.1, ?_, hpos k l hl⟩
    rw [mem_visit hm h3]
    have hmem : l ∈ t.leaves := by rw [← h7]; exact List.mem_of_getElem? hl
    obtain ⟨n, k1, k2, k3⟩ := h3.leaf l hmem
    refine ⟨l.2, n, hmem, k1, ?_⟩
    obtain ⟨c, hc, henc⟩ := k3.upper i hi
    rw [hbx] at hc
    simp only [Option.some.injEq] at hc
    subst hc
    exact hm _ _ henc ht

theorem flatten_nodup {ks : List Nat} {ls : List (List (Nat × Nat))} {f : Nat → Option (List (Nat × Nat))}
    (hk : ks.Nodup) (hls : ks.mapM f = some ls)
    (hf : ∀ k l, f k = some l → l.Nodup ∧ ∀ p ∈ l, p.1 = k) : ls.flatten.Nodup := by
  induction ks generalizing ls with
  | nil => simp at hls; subst hls; simp
  | cons k ks ih =>
    rw [List.mapM_cons] at hls
    cases ha : f k with
    | none => rw [ha] at hls; simp at hls
    | some l =>
      cases hr : ks.mapM f with
      | none => rw [ha, hr] at hls; simp at hls
      | some r =>
        rw [ha, hr] at hls
        simp at hls
        subst hls
        rw [List.nodup_cons] at hk
        rw [List.flatten_cons, List.nodup_append]
        refine ⟨(hf k l ha).1, ih hk.2 hr, ?_⟩
        intro a ha' b hb hab
        subst hab
        have h1 := (hf k l ha).2 a ha'
        obtain ⟨l', hl', hal⟩ := List.mem_flatten.mp hb
        obtain ⟨j, hj⟩ := List.mem_iff_getElem?.mp hl'
        obtain ⟨x, hx, hfx⟩ := mapM_back hr hj
        have h2 := (hf x l' hfx).2 a hal
        exact hk.1 (by rw [← h1, h2]; exact List.mem_of_getElem? hx)

/-! ## The theorem -/

/-- **A paged mesh answers queries like the mesh it was made from.**  Splitting succeeds for every
non-empty mesh; each triangle goes to exactly one page (`src` says which, in which order) and keeps
the positions of its vertices; no page has more than `maxTri` triangles; and for every box test, the
triangles visited while all pages are loaded are exactly those whose own box passes, each once. -/
theorem paged_visit (envP envT : Env S) (hP : envP.Ok) (hidP : IdIsPosition envP) (hT : envT.Ok)
    (hidT : IdIsItem envT) (value : C → A) (box : P → P → P → Box S) (maxTri : Nat) (hmax : 1 ≤ maxTri)
    (G : Src P N C) (hG : Initialized G) (hne : G.tris ≠ []) :
    ∃ (M : Paged P N A S) (src : List (List Nat)), createPaged envP envT value box maxTri G = some M ∧
      src.length = M.pages.length ∧ src.flatten.Perm (List.range G.tris.length) ∧
      (∀ ids ∈ src, 1 ≤ ids.length ∧ ids.length ≤ maxTri) ∧
      (∀ (k : Nat) ids Q, src[k]? = some ids → M.pages[k]? = some Q →
        Q.1.tris.length = ids.length ∧ ∀ (i g : Nat), ids[i]? = some g → ∀ p q r,
          Corners Q.1.verts Q.1.tris i p q r ↔ Corners G.verts G.tris g p q r) ∧
      ∀ test : Box S → Bool, Monotone test → ∃ out, visitTriangles M test = some out ∧ out.Nodup ∧
        ∀ k i, (k, i) ∈ out ↔ ∃ ids g p q r, src[k]? = some ids ∧ ids[i]? = some g ∧
          Corners G.verts G.tris g p q r ∧ test (box p q r) = true := by
  obtain ⟨bs, hbs⟩ := mapM_some (f := triBox box G.verts) (l := G.tris)
    (fun t ht => triBox_ok box (hG.range t ht).1 (hG.range t ht).2.1 (hG.range t ht).2.2)
  have hbl := (mapM_spec hbs).1
  have hbne : bs ≠ [] := by
    intro h
    rw [h] at hbl
    exact hne (List.length_eq_zero_iff.mp hbl.symm)
  obtain ⟨st, hst, hperm, -, hleaf⟩ := build_exact hP hbne hmax
  have hidsrange : ∀ l ∈ st.log, ∀ i ∈ l.2, i < G.tris.length := by
    intro l hl i hi
    have : i ∈ List.range bs.length := hperm.mem_iff.mp (List.mem_flatMap.mpr ⟨l, hl, hi⟩)
    rw [hbl] at this
    exact List.mem_range.mp this
  -- the boxes of the triangles of a page
  have hpt : ∀ (l : Nat × List Nat) (Q : Page P N A), page value G l.2 = some Q →
      (∀ i ∈ l.2, i < G.tris.length) →
      (∃ pbs, Q.tris.mapM (triBox box Q.verts) = some pbs ∧ pbs.length = l.2.length ∧
        ∀ (i g : Nat) p q r, l.2[i]? = some g → Corners G.verts G.tris g p q r → pbs[i]? = some (box p q r)) ∧
      Q.tris.length = l.2.length ∧ ∀ (i g : Nat), l.2[i]? = some g → ∀ p q r,
          Corners Q.verts Q.tris i p q r ↔ Corners G.verts G.tris g p q r := by
    intro l Q hQ hr
    have hsz := (page_size value G l.2 Q hQ).1
    have hcor : ∀ (i g : Nat), l.2[i]? = some g → ∀ p q r,
        Corners Q.verts Q.tris i p q r ↔ Corners G.verts G.tris g p q r := by
      intro i g hg p q r
      have hgl := hr g (List.mem_of_getElem? hg)
      obtain ⟨t', a1, a2, a3, a4, -⟩ := page_triangle value G l.2 Q hQ i g _ hg
        (List.getElem?_eq_getElem hgl)
      unfold Corners
      constructor
      · rintro ⟨t, b1, b2, b3, b4⟩
        rw [a1] at b1
        simp only [Option.some.injEq] at b1
        subst b1
        exact ⟨_, List.getElem?_eq_getElem hgl, by rw [← a2, b2], by rw [← a3, b3], by rw [← a4, b4]⟩
      · rintro ⟨t, b1, b2, b3, b4⟩
        rw [List.getElem?_eq_getElem hgl] at b1
        simp only [Option.some.injEq] at b1
        subst b1
        exact ⟨t', a1, by rw [a2, b2], by rw [a3, b3], by rw [a4, b4]⟩
    refine ⟨?_, hsz, hcor⟩
    obtain ⟨pbs, hpbs⟩ := mapM_some (f := triBox box Q.verts) (l := Q.tris) (by
      intro t ht
      obtain ⟨i, hi⟩ := List.mem_iff_getElem?.mp ht
      have hil : i < l.2.length := by rw [← hsz]; exact (List.getElem?_eq_some_iff.mp hi).1
      obtain ⟨t', a1, -, -, -, a2, a3, a4, -⟩ := page_triangle value G l.2 Q hQ i l.2[i] _
        (List.getElem?_eq_getElem hil)
        (List.getElem?_eq_getElem (hr _ (List.getElem_mem hil)))
      rw [hi] at a1
      simp only [Option.some.injEq] at a1
      subst a1
      exact triBox_ok box a2 a3 a4)
    refine ⟨pbs, hpbs, by rw [(mapM_spec hpbs).1, hsz], ?_⟩
    intro i g p q r hg hc
    obtain ⟨t, b1, b2, b3, b4⟩ := (hcor i g hg p q r).mpr hc
    obtain ⟨y, y1, y2⟩ := (mapM_spec hpbs).2 i t b1
    rw [y2]
    simp only [triBox, b2, b3, b4, Option.bind_some, Option.map_some, Option.some.injEq] at y1
    rw [y1]
  obtain ⟨ps, hps⟩ := mapM_some (f := pageWithTree envT value box G) (l := st.log) (by
    intro l hl
    obtain ⟨Q, hQ⟩ := page_succeeds value G hG l.2 (hidsrange l hl)
    obtain ⟨⟨pbs, hpbs, hplen, -⟩, -⟩ := hpt l Q hQ (hidsrange l hl)
    have hpne : pbs ≠ [] := by
      intro h
      rw [h] at hplen
      have := (hleaf l hl).1
      simp at hplen
      omega
    obtain ⟨tr, htr, -⟩ := build_exact hT hpne (Nat.le_refl 1)
    exact ⟨(Q, tr), by simp [pageWithTree, hQ, meshTree, hpbs, htr]⟩)
  have hpl := (mapM_spec hps).1
  -- what is known of a page
  have hpage : ∀ (k : Nat) (Q : Page P N A × St S), ps[k]? = some Q → ∃ l, st.log[k]? = some l ∧
      page value G l.2 = some Q.1 ∧ ∃ pbs, Q.1.tris.mapM (triBox box Q.1.verts) = some pbs ∧
        build envT pbs 1 = some Q.2 := by
    intro k Q hk
    obtain ⟨l, hl, hf⟩ := mapM_back hps hk
    simp only [pageWithTree, meshTree, Option.bind_eq_some_iff, Option.map_eq_some_iff] at hf
    obtain ⟨Q', h1, tr, ⟨pbs, h2, h3⟩, rfl⟩ := hf
    exact ⟨l, hl, h1, pbs, h2, h3⟩
  refine ⟨⟨st, ps⟩, st.log.map (·.2), by simp [createPaged, hbs, hst, hps], by simp [hpl], ?_, ?_, ?_, ?_⟩
  · rw [← hbl]
    simpa [List.flatMap_def] using hperm
  · intro ids hids
    obtain ⟨l, hl, rfl⟩ := List.mem_map.mp hids
    exact ⟨(hleaf l hl).1, (hleaf l hl).2.1⟩
  · intro k ids Q hk hQ
    obtain ⟨l, hl, hp, -⟩ := hpage k Q hQ
    rw [List.getElem?_map, hl] at hk
    simp only [Option.map_some, Option.some.injEq] at hk
    subst hk
    exact (hpt l Q.1 hp (hidsrange l (List.mem_of_getElem? hl))).2
  · intro test hm
    obtain ⟨ks, hks, hnd, hlt, hall⟩ := page_query hP hidP hbne hmax hst hm
    -- one page
    have hvp : ∀ k ∈ ks, ∃ out, visitPage ps test k = some out := by
      intro k hk
      have hk' := hlt k hk
      rw [← hpl] at hk'
      obtain ⟨l, hl, hp, pbs, h1, h2⟩ := hpage k _ (List.getElem?_eq_getElem hk')
      obtain ⟨⟨pbs', hp1, hp2, -⟩, -⟩ := hpt l _ hp (hidsrange l (List.mem_of_getElem? hl))
      rw [h1] at hp1
      simp only [Option.some.injEq] at hp1
      subst hp1
      have hpne : pbs ≠ [] := by
        intro h
        rw [h] at hp2
        have := (hleaf l (List.mem_of_getElem? hl)).1
        simp at hp2
        omega
      obtain ⟨tr, out, q1, q2, -⟩ := query_single_exact hT hidT hpne hm
      rw [h2] at q1
      simp only [Option.some.injEq] at q1
      subst q1
      exact ⟨out.map fun i => (k, i), by simp [visitPage, hk', q2]⟩
    have hvspec : ∀ k out, visitPage ps test k = some out → out.Nodup ∧ (∀ p ∈ out, p.1 = k) ∧
        ∀ i, (k, i) ∈ out ↔ ∃ ids g p q r, (st.log.map (·.2))[k]? = some ids ∧ ids[i]? = some g ∧
          Corners G.verts G.tris g p q r ∧ test (box p q r) = true := by
      intro k out hout
      cases hpk : ps[k]? with
      | none => simp [visitPage, hpk] at hout
      | some Q =>
        obtain ⟨l, hl, hp, pbs, h1, h2⟩ := hpage k _ hpk
        obtain ⟨⟨pbs', hp1, hp2, hp3⟩, hp4, hp5⟩ := hpt l _ hp (hidsrange l (List.mem_of_getElem? hl))
        rw [h1] at hp1
        simp only [Option.some.injEq] at hp1
        subst hp1
        have hpne : pbs ≠ [] := by
          intro h
          rw [h] at hp2
          have := (hleaf l (List.mem_of_getElem? hl)).1
          simp at hp2
          omega
        obtain ⟨tr, o, q1, q2, q3, q4⟩ := query_single_exact hT hidT hpne hm
        rw [h2] at q1
        simp only [Option.some.injEq] at q1
        subst q1
        simp only [visitPage, hpk, Option.bind_some, q2, Option.map_some, Option.some.injEq] at hout
        subst hout
        refine ⟨q3.map (fun a b h => by simpa using h), by simp, ?_⟩
        intro i
        have hmem : (k, i) ∈ o.map (fun i => (k, i)) ↔ i ∈ o := by simp
        rw [hmem, q4, List.getElem?_map, hl]
        constructor
        · rintro ⟨b, hb, ht⟩
          have hil : i < l.2.length := by rw [← hp2]; exact (List.getElem?_eq_some_iff.mp hb).1
          have hgl := hidsrange l (List.mem_of_getElem? hl) _ (List.getElem_mem hil)
          have hr := hG.range _ (List.getElem_mem hgl)
          have hc : Corners G.verts G.tris l.2[i] _ _ _ := ⟨_, List.getElem?_eq_getElem hgl,
            List.getElem?_eq_getElem hr.1, List.getElem?_eq_getElem hr.2.1,
            List.getElem?_eq_getElem hr.2.2⟩
          have hbx := hp3 i _ _ _ _ (List.getElem?_eq_getElem hil) hc
          rw [hb] at hbx
          simp only [Option.some.injEq] at hbx
          exact ⟨l.2, _, _, _, _, rfl, List.getElem?_eq_getElem hil, hc, by rw [← hbx]; exact ht⟩
        · rintro ⟨ids, g, p, q, r, e1, e2, e3, e4⟩
          simp only [Option.map_some, Option.some.injEq] at e1
          subst e1
          exact ⟨_, hp3 i g p q r e2 e3, e4⟩
    obtain ⟨ls, hls⟩ := mapM_some hvp
    refine ⟨ls.flatten, by simp [visitTriangles, hks, hls], ?_, ?_⟩
    · exact flatten_nodup hnd hls (fun k l h => ⟨(hvspec k l h).1, (hvspec k l h).2.1⟩)
    · intro k i
      rw [List.mem_flatten]
      constructor
      · rintro ⟨l, hl, hki⟩
        obtain ⟨j, hj⟩ := List.mem_iff_getElem?.mp hl
        obtain ⟨x, hx, hfx⟩ := mapM_back hls hj
        have := (hvspec x l hfx).2.1 _ hki
        simp only at this
        subst this
        exact ((hvspec k l hfx).2.2 i).mp hki
      · rintro ⟨ids, g, p, q, r, e1, e2, e3, e4⟩
        have hk : k ∈ ks := by
          rw [List.getElem?_map] at e1
          cases hl : st.log[k]? with
          | none => rw [hl] at e1; simp at e1
          | some l =>
            rw [hl] at e1
            simp only [Option.map_some, Option.some.injEq] at e1
            subst e1
            obtain ⟨t, t1, t2, t3, t4⟩ := e3
            obtain ⟨b, b1, b2⟩ := (mapM_spec hbs).2 g t t1
            simp only [triBox, t2, t3, t4, Option.bind_some, Option.map_some, Option.some.injEq] at b1
            subst b1
            exact hall k l hl g (List.mem_of_getElem? e2) _ b2 e4
        obtain ⟨j, hj⟩ := List.mem_iff_getElem?.mp hk
        obtain ⟨l, l1, l2⟩ := (mapM_spec hls).2 j k hj
        exact ⟨l, List.mem_of_getElem? l2, ((hvspec k l l1).2.2 i).mpr ⟨ids, g, p, q, r, e1, e2, e3, e4⟩⟩

/-! ## Non-vacuity and findings -/

/-- A strip of three triangles; "normals" and "values" are numbers. -/
def exSrc : Src Int Nat Nat where
  verts := [0, 10, 20, 30, 40]
  tris := strip
  colors := [5, 6, 7, 8, 9]
  normals := [100, 101, 102]
  adj := [(1, 2, 101), (100, 102, 3), (101, 4, 5)]
  topo := (initEdges 5 strip).getD ⟨[], [], [], [], []⟩
  convex := [true, true, false, false, true, true, true]

example : Initialized exSrc :=
  ⟨by decide, Or.inr rfl, rfl, rfl, by decide +kernel, by decide +kernel⟩

example : ((page (fun c => c + 1) exSrc [2, 1]).map fun Q => (Q.verts, Q.values, Q.tris)) =
    some ([0, 20, 30, 40], [6, 8, 9, 10], [⟨2, 1, 3⟩, ⟨0, 1, 2⟩]) := by decide +kernel
example : ((page (fun c => c + 1) exSrc [2, 1]).map fun Q => (Q.normals, Q.adj, Q.convex)) =
    some ([102, 101], [(101, 4, 5), (100, 102, 3)], [false, true, true, false, true]) := by
  decide +kernel

/-- The box of a triangle of the example, along one axis. -/
def exBox (a b c : Int) : Box Int := ⟨⟨min a (min b c), 0, 0⟩, ⟨max a (max b c), 0, 0⟩⟩

def exEnvP : Env Int := { exEnv with report := fun k _ => k }

example : IdIsPosition exEnvP := fun _ _ => rfl
example : exEnvP.Ok := ⟨exEnv_ok.1, exEnv_ok.2, exEnv_ok.3⟩
example : ((createPaged exEnvP exEnv (fun c => c + 1) exBox 2 exSrc).map fun M =>
    (M.tree.log.map (·.2), M.pages.map (fun Q => Q.1.tris))) =
    some ([[0, 1], [2]], [[⟨0, 1, 2⟩, ⟨0, 2, 3⟩], [⟨1, 0, 2⟩]]) := by decide +kernel
example : ((createPaged exEnvP exEnv (fun c => c + 1) exBox 2 exSrc).bind fun M =>
    visitTriangles M (fun b => b.intersect ⟨⟨22, 0, 0⟩, ⟨25, 0, 0⟩⟩)) = some [(1, 0), (0, 1)] := by
  decide +kernel

/-- What a user would expect of `is_boundary_edge` on a page: the flags are those of the mesh. -/
def BoundaryFull : Prop := ∀ (G : Src Int Nat Nat) (ids : List Nat) (Q : Page Int Nat Nat),
  Initialized G → page id G ids = some Q → ∀ (k g : Nat) e0 e1 e2 E0 E1 E2, ids[k]? = some g →
    Q.topo.faceEdges[k]? = some (e0, e1, e2) → G.topo.faceEdges[g]? = some (E0, E1, E2) →
    Q.topo.boundary[e2]? = G.topo.boundary[E2]?

/-- Finding: the edges between pages are flagged as boundary edges of the page, although they are not
edges of the boundary of the mesh. -/
theorem boundary_refuted : ¬ BoundaryFull := by
  intro h
  have h1 : page id exSrc [0] = some ⟨[0, 10, 20], [5, 6, 7], [⟨0, 1, 2⟩], [100], [(1, 2, 101)],
      ⟨[(0, 1), (1, 2), (2, 0)], [(0, 0), (0, 0), (0, 0)], [true, true, true], [(0, 1, 2)],
        [[0, 2], [0, 1], [1, 2]]⟩, [true, true, false]⟩ := by rfl
  have := h exSrc [0] _ ⟨by decide, Or.inr rfl, rfl, rfl, by decide +kernel, by decide +kernel⟩ h1
    0 0 0 1 2 0 1 2 rfl rfl (by decide +kernel)
  revert this
  decide +kernel

end Edyn.Mesh.Split
