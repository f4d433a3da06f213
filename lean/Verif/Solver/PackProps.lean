import Verif.Solver.Pack
import Mathlib.Data.List.Nodup
import Mathlib.Tactic.Set

/-!
# Packing constraint rows and giving impulses back: proofs (C38)
-/

namespace Edyn.Solver.Pack

variable {R F S T : Type}

/-! ### Specification -/

/-- A row is named by its entity, its constraint type and its place among the rows of that constraint. -/
abbrev Label := Nat × Nat × Nat

/-- The rows there are, in the order of the types, then of the edges of the island, then of the rows of
a constraint. -/
def labels (con : Cons R F S) (edges ts : List Nat) : List Label :=
  ts.flatMap fun t => edges.flatMap fun e =>
    (List.range (((con e t).getD []).length)).map fun k => (e, t, k)

/-- The row with a name. -/
def rowAt (con : Cons R F S) (p : Label) : Option (Elem R F S) := ((con p.1 p.2.1).getD [])[p.2.2]?

/-- What the solver may do to a cache: contents change, the number of rows of each sort, the flags and
the counts do not. -/
structure SameShape (c c' : Cache R F S) : Prop where
  con : c'.conNumRows = c.conNumRows
  flags : c'.flags = c.flags
  rows : c'.rows.length = c.rows.length
  friction : c'.friction.length = c.friction.length
  rolling : c'.rolling.length = c.rolling.length
  spinning : c'.spinning.length = c.spinning.length

/-! ### Preparing -/

theorem foldlM_addRow {es : List (Elem R F S)} {p p' : Prep R F S} {l : List Nat} {n : Nat}
    (hp : p.perCon = l ++ [n]) (h : es.foldlM (fun p e => Prep.addRow p e) p = some p') :
    p'.rows = p.rows ++ es ∧ p'.perCon = l ++ [n + es.length] ∧ p'.cur = p.cur := by
  induction es generalizing p n with
  | nil => simp at h; subst h; simp [hp]
  | cons e es ih =>
    rw [List.foldlM_cons] at h
    unfold Prep.addRow at h
    by_cases hc : p.rows.length < 16 ∧ 0 < p.perCon.length ∧ p.perCon.length ≤ 8
    · rw [if_pos hc] at h
      simp only [Option.bind_eq_bind, Option.bind_some] at h
      have hmod : p.perCon.modify (p.perCon.length - 1) (· + 1) = l ++ [n + 1] := by
        rw [hp]
        have : (l ++ [n]).length - 1 = l.length := by simp
        rw [this]
        apply List.ext_getElem?
        intro i
        rw [List.getElem?_modify]
        rcases Nat.lt_trichotomy i l.length with hi | hi | hi
        · rw [List.getElem?_append_left hi, List.getElem?_append_left hi]
          have : l.length ≠ i := by omega
          simp [this]
        · subst hi; simp
        · rw [List.getElem?_append_right (by omega), List.getElem?_append_right (by omega)]
          have : i - l.length ≠ 0 := by omega
          obtain ⟨m, hm⟩ := Nat.exists_eq_succ_of_ne_zero this
          simp [hm]
      obtain ⟨h1, h2, h3⟩ := ih (n := n + 1) hmod h
      refine ⟨by rw [h1]; simp, by rw [h2]; simp; omega, h3⟩
    · rw [if_neg hc] at h
      simp at h

theorem prepare_spec (con : Nat → Option (List (Elem R F S))) (ts : List Nat) (p p' : Prep R F S)
    (h : prepare con ts p = some p') :
    p'.rows = p.rows ++ ts.flatMap (fun t => (con t).getD []) ∧
    p'.perCon = p.perCon ++ (ts.filterMap con).map List.length ∧ p'.cur = p.cur := by
  induction ts generalizing p with
  | nil => simp [prepare] at h; subst h; simp
  | cons t ts ih =>
    rw [prepare] at h
    cases hc : con t with
    | none =>
      rw [hc] at h
      obtain ⟨h1, h2, h3⟩ := ih p h
      refine ⟨by rw [h1]; simp [hc], by rw [h2]; simp [hc], h3⟩
    | some es =>
      rw [hc] at h
      simp only at h
      cases hf : es.foldlM (fun p e => Prep.addRow p e) p.addConstraint with
      | none => rw [hf] at h; simp at h
      | some q =>
        rw [hf] at h
        obtain ⟨q1, q2, q3⟩ := foldlM_addRow (l := p.perCon) (n := 0) rfl hf
        obtain ⟨h1, h2, h3⟩ := ih q h
        refine ⟨?_, ?_, by rw [h3, q3]; rfl⟩
        · rw [h1, q1]
          simp [hc, Prep.addConstraint]
        · rw [h2, q2]
          simp [hc]

/-- Preparing an entity succeeds if it has at most 8 constraints and at most 16 rows in all. -/
theorem prepare_succeeds (con : Nat → Option (List (Elem R F S))) (ts : List Nat)
    (h16 : (ts.flatMap fun t => (con t).getD []).length ≤ 16) (h8 : (ts.filterMap con).length ≤ 8) :
    ∃ p, prepare con ts Prep.clear = some p := by
  suffices H : ∀ (ts : List Nat) (p : Prep R F S),
      p.rows.length + (ts.flatMap fun t => (con t).getD []).length ≤ 16 →
      p.perCon.length + (ts.filterMap con).length ≤ 8 → ∃ p', prepare con ts p = some p' by
    exact H ts Prep.clear (by simpa [Prep.clear] using h16) (by simpa [Prep.clear] using h8)
  intro ts
  induction ts with
  | nil => intro p _ _; exact ⟨p, rfl⟩
  | cons t ts ih =>
    intro p h1 h2
    rw [prepare]
    cases hc : con t with
    | none =>
      exact ih p (by simpa [hc] using h1) (by simpa [hc] using h2)
    | some es =>
      simp only [List.flatMap_cons, hc, Option.getD_some, List.length_append, List.filterMap_cons,
        List.length_cons] at h1 h2
      have hfold : ∀ (es : List (Elem R F S)) (q : Prep R F S), q.rows.length + es.length ≤ 16 →
          0 < q.perCon.length → q.perCon.length ≤ 8 →
          ∃ q', es.foldlM (fun p e => Prep.addRow p e) q = some q' ∧
            q'.rows.length = q.rows.length + es.length ∧ q'.perCon.length = q.perCon.length := by
        intro es
        induction es with
        | nil => intro q _ _ _; exact ⟨q, rfl, by simp, rfl⟩
        | cons e es ihe =>
          intro q a b c
          simp only [List.length_cons] at a
          rw [List.foldlM_cons]
          have hq : Prep.addRow q e = some { q with
              rows := q.rows ++ [e], perCon := q.perCon.modify (q.perCon.length - 1) (· + 1) } := by
            unfold Prep.addRow
            rw [if_pos ⟨by omega, b, c⟩]
          rw [hq]
          obtain ⟨q', e1, e2, e3⟩ := ihe { q with
              rows := q.rows ++ [e], perCon := q.perCon.modify (q.perCon.length - 1) (· + 1) }
            (by simp; omega) (by simpa using b) (by simpa using c)
          refine ⟨q', e1, by rw [e2]; simp; omega, by rw [e3]; simp⟩
      obtain ⟨q', e1, e2, e3⟩ := hfold es p.addConstraint (by simp [Prep.addConstraint]; omega)
        (by simp [Prep.addConstraint]) (by simp [Prep.addConstraint]; omega)
      simp only
      rw [e1]
      exact ih q' (by rw [e2]; simp only [Prep.addConstraint]; omega)
        (by rw [e3]; simp [Prep.addConstraint]; omega)

/-! ### Consuming -/

/-- The state of the cache of an entity when the types `pre` have been packed, of `pre ++ post`. -/
def At (con : Nat → Option (List (Elem R F S))) (pre post : List Nat) : Prep R F S :=
  ⟨(pre ++ post).flatMap (fun t => (con t).getD []), ((pre ++ post).filterMap con).map List.length,
    (pre.filterMap con).length⟩

theorem flatMap_getD (con : Nat → Option (List (Elem R F S))) (pre : List Nat) :
    (pre.flatMap (fun t => (con t).getD [])).length = ((pre.filterMap con).map List.length).sum := by
  induction pre with
  | nil => rfl
  | cons t pre ih =>
    cases hc : con t <;> simp [hc, ih]

theorem consume_spec (con : Nat → Option (List (Elem R F S))) (pre post : List Nat) (t : Nat)
    (es : List (Elem R F S)) (h : con t = some es) :
    (At con pre (t :: post)).currentNumRows = some es.length ∧
    (At con pre (t :: post)).consume = some (es, At con (pre ++ [t]) post) := by
  have hper : (At con pre (t :: post)).perCon =
      (pre.filterMap con).map List.length ++ es.length :: (post.filterMap con).map List.length := by
    simp [At, h]
  have hcur : (At con pre (t :: post)).cur = ((pre.filterMap con).map List.length).length := by simp [At]
  have hget : (At con pre (t :: post)).perCon[(At con pre (t :: post)).cur]? = some es.length := by
    rw [hper, hcur, List.getElem?_append_right (Nat.le_refl _)]
    simp
  refine ⟨hget, ?_⟩
  unfold Prep.consume
  rw [hget]
  simp only
  rw [hper, hcur, List.take_left, ← flatMap_getD]
  have hrows : (At con pre (t :: post)).rows = pre.flatMap (fun t => (con t).getD []) ++
      (es ++ post.flatMap (fun t => (con t).getD [])) := by
    simp [At, h]
  rw [hrows, List.drop_left, List.take_left]
  congr 2
  simp [At, h]

theorem at_skip (con : Nat → Option (List (Elem R F S))) (pre post : List Nat) (t : Nat) (h : con t = none) :
    At con pre (t :: post) = At con (pre ++ [t]) post := by
  simp [At, h]

/-! ### Packing -/

/-- A constraint packed into the cache. -/
def Cache.addCon (c : Cache R F S) (es : List (Elem R F S)) : Cache R F S :=
  es.foldl Cache.push { c with conNumRows := c.conNumRows ++ [es.length] }

theorem insertRows_spec (con : Cons R F S) (pre post : List Nat) (t : Nat) (es : List Nat)
    (hn : es.Nodup) (prep : Nat → Prep R F S) (cache : Cache R F S) (ents : List Nat)
    (hp : ∀ e ∈ es, prep e = At (con e) pre (t :: post)) :
    ∃ prep', insertRows con t es (prep, cache, ents) =
      some (prep', (es.filterMap fun e => con e t).foldl Cache.addCon cache,
        ents ++ es.filter fun e => (con e t).isSome) ∧
      (∀ e ∈ es, prep' e = At (con e) (pre ++ [t]) post) ∧ ∀ e, e ∉ es → prep' e = prep e := by
  induction es generalizing prep cache ents with
  | nil => exact ⟨prep, by simp [insertRows], by simp, fun _ _ => rfl⟩
  | cons e es ih =>
    obtain ⟨hne, hn'⟩ := List.nodup_cons.mp hn
    rw [insertRows]
    cases hc : con e t with
    | none =>
      obtain ⟨prep', h1, h2, h3⟩ := ih hn' prep cache ents (fun e' he' => hp e' (List.mem_cons_of_mem _ he'))
      refine ⟨prep', by simp only [h1]; simp [hc], ?_, ?_⟩
      · intro e' he'
        rcases List.mem_cons.mp he' with rfl | he'
        · rw [h3 _ hne, hp _ List.mem_cons_self, at_skip _ _ _ _ hc]
        · exact h2 e' he'
      · intro e' he'
        exact h3 e' (fun hm => he' (List.mem_cons_of_mem _ hm))
    | some rows =>
      obtain ⟨c1, c2⟩ := consume_spec (con e) pre post t rows hc
      rw [← hp e List.mem_cons_self] at c1 c2
      simp only [c1, c2]
      obtain ⟨prep', h1, h2, h3⟩ := ih hn' (Function.update prep e (At (con e) (pre ++ [t]) post))
        (cache.addCon rows) (ents ++ [e]) (by
          intro e' he'
          have : e' ≠ e := fun h => hne (h ▸ he')
          rw [Function.update_of_ne this]
          exact hp e' (List.mem_cons_of_mem _ he'))
      refine ⟨prep', ?_, ?_, ?_⟩
      · rw [Cache.addCon] at h1
        rw [h1]
        simp [hc, Cache.addCon]
      · intro e' he'
        rcases List.mem_cons.mp he' with rfl | he'
        · rw [h3 _ hne, Function.update_self]
        · exact h2 e' he'
      · intro e' he'
        have : e' ≠ e := fun h => he' (h ▸ List.mem_cons_self)
        rw [h3 e' (fun hm => he' (List.mem_cons_of_mem _ hm)), Function.update_of_ne this]

theorem packRows_spec (con : Cons R F S) (edges : List Nat) (hn : edges.Nodup) (pre ts : List Nat)
    (prep : Nat → Prep R F S) (cache : Cache R F S) (hp : ∀ e ∈ edges, prep e = At (con e) pre ts) :
    ∃ prep', packRows con edges ts (prep, cache) =
      some (prep', (ts.flatMap fun t => edges.filterMap fun e => con e t).foldl Cache.addCon cache,
        ts.map fun t => edges.filter fun e => (con e t).isSome) := by
  induction ts generalizing pre prep cache with
  | nil => exact ⟨prep, by simp [packRows]⟩
  | cons t ts ih =>
    obtain ⟨prep₁, h1, h2, -⟩ := insertRows_spec con pre ts t edges hn prep cache [] hp
    obtain ⟨prep₂, h3⟩ := ih (pre ++ [t]) prep₁ _ h2
    refine ⟨prep₂, ?_⟩
    rw [packRows, h1]
    simp only
    rw [h3]
    simp [List.foldl_append]

/-! ### The shape of the packed cache -/

/-- Appending the rows `l` to a cache, as one operation. -/
theorem foldl_push (l : List (Elem R F S)) (c : Cache R F S) :
    l.foldl Cache.push c =
      { rows := c.rows ++ l.map Elem.row
        conNumRows := c.conNumRows
        flags := c.flags ++ l.map fun e => (e.friction.isSome, e.rolling.isSome, e.spinning.isSome)
        friction := c.friction ++ (l.zipIdx c.rows.length).filterMap fun e => e.1.friction.map (·, e.2)
        rolling := c.rolling ++ (l.zipIdx c.rows.length).filterMap fun e => e.1.rolling.map (·, e.2)
        spinning := c.spinning ++ (l.zipIdx c.rows.length).filterMap fun e => e.1.spinning.map (·, e.2) } := by
  induction l generalizing c with
  | nil => simp
  | cons e l ih =>
    rw [List.foldl_cons, ih]
    have hlen : (c.push e).rows.length = c.rows.length + 1 := by simp [Cache.push]
    rw [hlen]
    have opt : ∀ {α β : Type} (f : α → Option β) (a : α) (l : List α),
        (a :: l).filterMap f = (f a).toList ++ l.filterMap f := by
      intro α β f a l
      rw [List.filterMap_cons]
      cases f a <;> rfl
    simp only [Cache.push, List.map_cons, List.zipIdx_cons, opt, List.append_assoc, List.singleton_append]

theorem foldl_addCon (ls : List (List (Elem R F S))) (c : Cache R F S) :
    ls.foldl Cache.addCon c =
      { rows := c.rows ++ ls.flatten.map Elem.row
        conNumRows := c.conNumRows ++ ls.map List.length
        flags := c.flags ++ ls.flatten.map fun e => (e.friction.isSome, e.rolling.isSome, e.spinning.isSome)
        friction := c.friction ++ (ls.flatten.zipIdx c.rows.length).filterMap fun e => e.1.friction.map (·, e.2)
        rolling := c.rolling ++ (ls.flatten.zipIdx c.rows.length).filterMap fun e => e.1.rolling.map (·, e.2)
        spinning := c.spinning ++
          (ls.flatten.zipIdx c.rows.length).filterMap fun e => e.1.spinning.map (·, e.2) } := by
  induction ls generalizing c with
  | nil => simp
  | cons l ls ih =>
    rw [List.foldl_cons, ih, Cache.addCon, foldl_push]
    simp only [List.flatten_cons, List.map_append, List.map_cons, List.zipIdx_append, List.filterMap_append,
      List.append_assoc, List.length_append, List.length_map, List.singleton_append]

theorem filterMap_zipIdx_fst {α β : Type} (l : List α) (f : α → Option β) (n : Nat) :
    ((l.zipIdx n).filterMap fun e => (f e.1).map (·, e.2)).map Prod.fst = l.filterMap f := by
  induction l generalizing n with
  | nil => rfl
  | cons a l ih =>
    rw [List.zipIdx_cons, List.filterMap_cons, List.filterMap_cons]
    cases hf : f a with
    | none => simpa [hf] using ih (n + 1)
    | some b => simpa [hf] using ih (n + 1)

/-! ### Labels -/

theorem range_map_getElem? {α : Type} (l : List α) :
    (List.range l.length).map (fun k => l[k]?) = l.map some := by
  apply List.ext_getElem?
  intro i
  by_cases hi : i < l.length
  · simp [hi]
  · have hi' := Nat.le_of_not_lt hi
    simp [hi']

/-- The rows of the blocks that are packed are the rows with the labels. -/
theorem labels_rows (con : Cons R F S) (edges ts : List Nat) :
    (labels con edges ts).map (rowAt con) =
      ((ts.flatMap fun t => edges.filterMap fun e => con e t).flatten).map some := by
  have hent : ∀ t, (edges.flatMap fun e => (List.range (((con e t).getD []).length)).map fun k => (e, t, k)).map
      (rowAt con) = ((edges.filterMap fun e => con e t).flatten).map some := by
    intro t
    induction edges with
    | nil => rfl
    | cons e es ih =>
      rw [List.flatMap_cons, List.map_append, ih, List.map_map]
      have : (List.range (((con e t).getD []).length)).map (rowAt con ∘ fun k => (e, t, k)) =
          ((con e t).getD []).map some := by
        rw [← range_map_getElem?]
        rfl
      rw [this]
      cases hc : con e t <;> simp [hc]
  induction ts with
  | nil => rfl
  | cons t ts ih =>
    have : labels con edges (t :: ts) = (edges.flatMap fun e =>
        (List.range (((con e t).getD []).length)).map fun k => (e, t, k)) ++ labels con edges ts := by
      simp [labels]
    rw [this, List.map_append, ih, hent]
    simp

theorem labels_nodup (con : Cons R F S) (edges ts : List Nat) (he : edges.Nodup) (ht : ts.Nodup) :
    (labels con edges ts).Nodup := by
  unfold labels
  rw [List.nodup_flatMap]
  constructor
  · intro t _
    rw [List.nodup_flatMap]
    constructor
    · intro e _
      refine List.Nodup.map ?_ List.nodup_range
      intro a b h
      simpa using h
    · refine he.imp ?_
      intro a b hab
      simp only [Function.onFun, List.disjoint_left, List.mem_map]
      rintro x ⟨_, _, rfl⟩ ⟨_, _, h⟩
      simp only [Prod.mk.injEq] at h
      exact hab h.1.symm
  · refine ht.imp ?_
    intro a b hab
    simp only [Function.onFun, List.disjoint_left, List.mem_flatMap, List.mem_map]
    rintro x ⟨_, _, _, _, rfl⟩ ⟨_, _, _, _, h⟩
    simp only [Prod.mk.injEq] at h
    exact hab h.2.1.symm

/-- Any list of the right length is the image of a list without repetitions. -/
theorem exists_map {α β : Type} [DecidableEq α] [Inhabited β] (L : List α) (hn : L.Nodup) (M : List β)
    (hl : L.length = M.length) : ∃ g : α → β, L.map g = M := by
  induction L generalizing M with
  | nil =>
    cases M with
    | nil => exact ⟨fun _ => default, rfl⟩
    | cons => simp at hl
  | cons a L ih =>
    cases M with
    | nil => simp at hl
    | cons b M =>
      obtain ⟨h1, h2⟩ := List.nodup_cons.mp hn
      obtain ⟨g, hg⟩ := ih h2 M (by simpa using hl)
      refine ⟨Function.update g a b, ?_⟩
      rw [List.map_cons, Function.update_self, ← hg]
      congr 1
      apply List.map_congr_left
      intro x hx
      have : x ≠ a := fun h => h1 (h ▸ hx)
      rw [Function.update_of_ne this]

/-! ### Giving impulses back -/

/-- What the impulses of the rows are: of the row itself, and of its friction, rolling and spinning
rows. -/
structure Imp (T : Type) where
  row : Label → T
  friction : Label → T × T
  rolling : Label → T × T
  spinning : Label → T

/-- The impulses of one row in the order in which a constraint reads them: normal, friction, rolling,
spinning. -/
def rowImpulses (con : Cons R F S) (g : Imp T) (p : Label) : List T :=
  g.row p ::
    ((if ((rowAt con p).bind Elem.friction).isSome then [(g.friction p).1, (g.friction p).2] else []) ++
     (if ((rowAt con p).bind Elem.rolling).isSome then [(g.rolling p).1, (g.rolling p).2] else []) ++
     (if ((rowAt con p).bind Elem.spinning).isSome then [g.spinning p] else []))

/-- The cache `c` from the cursors `k` on holds the rows with labels `L`, with impulses `g`. -/
structure Holds (impR : R → T) (impF : F → T × T) (impS : S → T) (con : Cons R F S) (g : Imp T)
    (c : Cache R F S) (k : Cursors) (L : List Label) : Prop where
  flags : c.flags.drop k.row = L.map fun p => (((rowAt con p).bind Elem.friction).isSome,
    ((rowAt con p).bind Elem.rolling).isSome, ((rowAt con p).bind Elem.spinning).isSome)
  rows : (c.rows.drop k.row).map impR = L.map g.row
  friction : (c.friction.drop k.friction).map (fun f => impF f.1) =
    (L.filter fun p => ((rowAt con p).bind Elem.friction).isSome).map g.friction
  rolling : (c.rolling.drop k.rolling).map (fun f => impF f.1) =
    (L.filter fun p => ((rowAt con p).bind Elem.rolling).isSome).map g.rolling
  spinning : (c.spinning.drop k.spinning).map (fun f => impS f.1) =
    (L.filter fun p => ((rowAt con p).bind Elem.spinning).isSome).map g.spinning

theorem drop_cons {α : Type} {l : List α} {i : Nat} {a : α} {t : List α} (h : l.drop i = a :: t) :
    l[i]? = some a ∧ l.drop (i + 1) = t := by
  have h1 : l[i]? = (l.drop i)[0]? := by simp
  refine ⟨by rw [h1, h]; rfl, ?_⟩
  have : l.drop (i + 1) = (l.drop i).drop 1 := by rw [List.drop_drop]
  rw [this, h]
  rfl

theorem drop_map_cons {α β : Type} {l : List α} {i : Nat} {f : α → β} {b : β} {t : List β}
    (h : (l.drop i).map f = b :: t) : ∃ a, l[i]? = some a ∧ f a = b ∧ (l.drop (i + 1)).map f = t := by
  cases hd : l.drop i with
  | nil => rw [hd] at h; simp at h
  | cons a l' =>
    rw [hd, List.map_cons] at h
    obtain ⟨h1, h2⟩ := drop_cons hd
    injection h with h3 h4
    exact ⟨a, h1, h3, by rw [h2, h4]⟩

theorem readRows_spec {impR : R → T} {impF : F → T × T} {impS : S → T} {con : Cons R F S} {g : Imp T}
    {c : Cache R F S} (A B : List Label) (k : Cursors)
    (h : Holds impR impF impS con g c k (A ++ B)) :
    ∃ k', readRows impR impF impS c A.length k = some (A.flatMap (rowImpulses con g), k') ∧
      k'.con = k.con ∧ Holds impR impF impS con g c k' B := by
  induction A generalizing k with
  | nil => exact ⟨k, rfl, rfl, h⟩
  | cons p A ih =>
    obtain ⟨hf, hr, h1, h2, h3⟩ := h
    simp only [List.cons_append, List.map_cons] at hf hr
    obtain ⟨hf1, hf2⟩ := drop_cons hf
    obtain ⟨r, hr1, hr2, hr3⟩ := drop_map_cons hr
    have opt : ∀ {α : Type} (l : List (α × Nat)) (i : Nat) {β : Type} (f : α × Nat → β) (q : Label → Bool)
        (gg : Label → β), (l.drop i).map f = ((p :: (A ++ B)).filter q).map gg →
        (q p = true → ∃ a, l[i]? = some a ∧ f a = gg p) ∧
        (l.drop (i + (q p).toNat)).map f = ((A ++ B).filter q).map gg := by
      intro α l i β f q gg hl
      cases hq : q p with
      | false =>
        rw [List.filter_cons_of_neg (by simp [hq])] at hl
        exact ⟨by simp, by simpa using hl⟩
      | true =>
        rw [List.filter_cons_of_pos hq, List.map_cons] at hl
        obtain ⟨a, ha, hb, hc⟩ := drop_map_cons hl
        exact ⟨fun _ => ⟨a, ha, hb⟩, hc⟩
    obtain ⟨f1, f2⟩ := opt c.friction k.friction (fun f => impF f.1) _ g.friction h1
    obtain ⟨r1, r2⟩ := opt c.rolling k.rolling (fun f => impF f.1) _ g.rolling h2
    obtain ⟨s1, s2⟩ := opt c.spinning k.spinning (fun f => impS f.1) _ g.spinning h3
    obtain ⟨k', hk1, hk2, hk3⟩ := ih ⟨k.con, k.row + 1,
      k.friction + (((rowAt con p).bind Elem.friction).isSome).toNat,
      k.rolling + (((rowAt con p).bind Elem.rolling).isSome).toNat,
      k.spinning + (((rowAt con p).bind Elem.spinning).isSome).toNat⟩ ⟨hf2, hr3, f2, r2, s2⟩
    refine ⟨k', ?_, hk2, hk3⟩
    rw [List.length_cons, readRows, hf1, hr1]
    simp only
    have o1 : (if ((rowAt con p).bind Elem.friction).isSome = true then
        (c.friction[k.friction]?).map fun f => [(impF f.1).1, (impF f.1).2] else some []) =
        some (if ((rowAt con p).bind Elem.friction).isSome = true then
          [(g.friction p).1, (g.friction p).2] else []) := by
      by_cases hq : ((rowAt con p).bind Elem.friction).isSome = true
      · obtain ⟨a, ha, hb⟩ := f1 hq
        rw [if_pos hq, if_pos hq, ha, Option.map_some, hb]
      · rw [if_neg hq, if_neg hq]
    have o2 : (if ((rowAt con p).bind Elem.rolling).isSome = true then
        (c.rolling[k.rolling]?).map fun f => [(impF f.1).1, (impF f.1).2] else some []) =
        some (if ((rowAt con p).bind Elem.rolling).isSome = true then
          [(g.rolling p).1, (g.rolling p).2] else []) := by
      by_cases hq : ((rowAt con p).bind Elem.rolling).isSome = true
      · obtain ⟨a, ha, hb⟩ := r1 hq
        rw [if_pos hq, if_pos hq, ha, Option.map_some, hb]
      · rw [if_neg hq, if_neg hq]
    have o3 : (if ((rowAt con p).bind Elem.spinning).isSome = true then
        (c.spinning[k.spinning]?).map fun f => [impS f.1] else some []) =
        some (if ((rowAt con p).bind Elem.spinning).isSome = true then [g.spinning p] else []) := by
      by_cases hq : ((rowAt con p).bind Elem.spinning).isSome = true
      · obtain ⟨a, ha, hb⟩ := s1 hq
        rw [if_pos hq, if_pos hq, ha, Option.map_some, hb]
      · rw [if_neg hq, if_neg hq]
    rw [o1, o2, o3]
    simp only
    rw [hk1]
    simp [rowImpulses, hr2]

/-- The labels of one constraint. -/
def conLabels (con : Cons R F S) (e t : Nat) : List Label :=
  (List.range (((con e t).getD []).length)).map fun k => (e, t, k)

theorem updateImpulse_spec {impR : R → T} {impF : F → T × T} {impS : S → T} {con : Cons R F S} {g : Imp T}
    {c : Cache R F S} (t : Nat) (es : List Nat) (B : List Label) (N : List Nat) (k : Cursors)
    (h : Holds impR impF impS con g c k (es.flatMap (fun e => conLabels con e t) ++ B))
    (hN : c.conNumRows.drop k.con = es.map (fun e => ((con e t).getD []).length) ++ N) :
    ∃ k', updateImpulse impR impF impS c t es k =
        some (es.map fun e => ((e, t), (conLabels con e t).flatMap (rowImpulses con g)), k') ∧
      Holds impR impF impS con g c k' B ∧ c.conNumRows.drop k'.con = N := by
  induction es generalizing k with
  | nil => exact ⟨k, rfl, h, hN⟩
  | cons e es ih =>
    rw [List.flatMap_cons, List.append_assoc] at h
    rw [List.map_cons, List.cons_append] at hN
    obtain ⟨n1, n2⟩ := drop_cons hN
    obtain ⟨k₁, h1, h2, h3⟩ := readRows_spec _ _ _ h
    have hlen : (conLabels con e t).length = ((con e t).getD []).length := by simp [conLabels]
    rw [hlen] at h1
    obtain ⟨k', h4, h5, h6⟩ := ih { k₁ with con := k₁.con + 1 } ⟨h3.1, h3.2, h3.3, h3.4, h3.5⟩
      (by simp only; rw [h2, n2])
    refine ⟨k', ?_, h5, h6⟩
    rw [updateImpulse, n1]
    simp only
    rw [h1]
    simp only
    rw [h4]
    rfl

theorem flatMap_filter_con (con : Cons R F S) (edges : List Nat) (t : Nat) :
    (edges.filter fun e => (con e t).isSome).flatMap (fun e => conLabels con e t) =
      edges.flatMap fun e => conLabels con e t := by
  induction edges with
  | nil => rfl
  | cons e es ih =>
    cases hc : con e t with
    | none =>
      rw [List.filter_cons_of_neg (by simp [hc]), List.flatMap_cons, ih]
      simp [conLabels, hc]
    | some l =>
      rw [List.filter_cons_of_pos (by simp [hc]), List.flatMap_cons, List.flatMap_cons, ih]

theorem assign_spec {impR : R → T} {impF : F → T × T} {impS : S → T} {con : Cons R F S} {g : Imp T}
    {c : Cache R F S} (edges ts : List Nat) (k : Cursors)
    (h : Holds impR impF impS con g c k (labels con edges ts))
    (hN : c.conNumRows.drop k.con =
      ts.flatMap fun t => (edges.filter fun e => (con e t).isSome).map fun e => ((con e t).getD []).length) :
    assign impR impF impS c (ts.zip (ts.map fun t => edges.filter fun e => (con e t).isSome)) k =
      some (ts.flatMap fun t => (edges.filter fun e => (con e t).isSome).map fun e =>
        ((e, t), (conLabels con e t).flatMap (rowImpulses con g))) := by
  induction ts generalizing k with
  | nil => rfl
  | cons t ts ih =>
    have hl : labels con edges (t :: ts) =
        (edges.filter fun e => (con e t).isSome).flatMap (fun e => conLabels con e t) ++
          labels con edges ts := by
      rw [flatMap_filter_con]
      simp [labels, conLabels]
    rw [hl] at h
    rw [List.flatMap_cons] at hN
    obtain ⟨k', h1, h2, h3⟩ := updateImpulse_spec t _ _ _ k h hN
    rw [List.map_cons, List.zip_cons_cons, assign, h1]
    simp only
    rw [ih k' h2 h3, List.flatMap_cons]

/-! ### The theorems -/

theorem filterMap_map_some {α β γ : Type} (L : List α) (f : α → Option β) (M : List β)
    (h : L.map f = M.map some) (q : β → Option γ) :
    (L.filterMap fun p => (f p).bind q) = M.filterMap q ∧
    (L.filter fun p => ((f p).bind q).isSome).length = (M.filterMap q).length := by
  induction L generalizing M with
  | nil => cases M with
    | nil => exact ⟨rfl, rfl⟩
    | cons => simp at h
  | cons a L ih =>
    cases M with
    | nil => simp at h
    | cons b M =>
      simp only [List.map_cons, List.cons.injEq] at h
      obtain ⟨h1, h2⟩ := ih M h.2
      rw [List.filterMap_cons, List.filterMap_cons, h.1]
      cases hq : q b with
      | none => simp [hq, h1, h.1, h2]
      | some x => simp [hq, h1, h.1, h2]

theorem filterMap_con_length (con : Cons R F S) (edges ts : List Nat) :
    (ts.flatMap fun t => edges.filterMap fun e => con e t).map List.length =
      ts.flatMap fun t => (edges.filter fun e => (con e t).isSome).map fun e => ((con e t).getD []).length := by
  have h1 : ∀ t, (edges.filterMap fun e => con e t).map List.length =
      (edges.filter fun e => (con e t).isSome).map fun e => ((con e t).getD []).length := by
    intro t
    induction edges with
    | nil => rfl
    | cons e es ih => cases hc : con e t <;> simp [hc, ih]
  rw [List.map_flatMap]
  congr 1
  funext t
  exact h1 t

/-- **C38**.  The islands's edges are packed without failure once every entity has been prepared; the
packed cache has the rows of all constraints, and after the solver has changed what it holds the impulses
are given back to the constraints their rows came from: there is a value for every row (and for its
friction, rolling and spinning rows) such that the cache holds exactly these values for the rows with
these labels and each constraint is passed, in order, the values of its own rows, once. -/
theorem impulses_return_to_their_constraint [Inhabited T] (impR : R → T) (impF : F → T × T) (impS : S → T)
    (con : Cons R F S) (edges ts : List Nat) (he : edges.Nodup) (ht : ts.Nodup)
    (prep : Nat → Prep R F S) (hprep : ∀ e ∈ edges, prepare (con e) ts Prep.clear = some (prep e)) :
    ∃ prep' cache ents, packRows con edges ts (prep, Cache.empty) = some (prep', cache, ents) ∧
      -- the cache holds the rows of the constraints, in the order of the labels
      (cache.rows.map some = (labels con edges ts).map fun p => (rowAt con p).map Elem.row) ∧
      (cache.friction.map Prod.fst = (labels con edges ts).filterMap fun p => (rowAt con p).bind Elem.friction) ∧
      (cache.rolling.map Prod.fst = (labels con edges ts).filterMap fun p => (rowAt con p).bind Elem.rolling) ∧
      (cache.spinning.map Prod.fst = (labels con edges ts).filterMap fun p => (rowAt con p).bind Elem.spinning) ∧
      -- whatever the solver makes of it
      ∀ c', SameShape cache c' → ∃ g : Imp T,
        c'.rows.map impR = (labels con edges ts).map g.row ∧
        (c'.friction.map fun f => impF f.1) = ((labels con edges ts).filter fun p =>
          ((rowAt con p).bind Elem.friction).isSome).map g.friction ∧
        (c'.rolling.map fun f => impF f.1) = ((labels con edges ts).filter fun p =>
          ((rowAt con p).bind Elem.rolling).isSome).map g.rolling ∧
        (c'.spinning.map fun f => impS f.1) = ((labels con edges ts).filter fun p =>
          ((rowAt con p).bind Elem.spinning).isSome).map g.spinning ∧
        assign impR impF impS c' (ts.zip ents) ⟨0, 0, 0, 0, 0⟩ =
          some (ts.flatMap fun t => (edges.filter fun e => (con e t).isSome).map fun e =>
            ((e, t), (List.range ((con e t).getD []).length).flatMap fun k => rowImpulses con g (e, t, k))) := by
  obtain ⟨prep', hpack⟩ := packRows_spec con edges he [] ts prep Cache.empty (by
    intro e hm
    obtain ⟨h1, h2, h3⟩ := prepare_spec _ _ _ _ (hprep e hm)
    cases hq : prep e with
    | mk r pc cu =>
      rw [hq] at h1 h2 h3
      simp only [Prep.clear, List.nil_append] at h1 h2 h3
      simp [At, h1, h2, h3])
  refine ⟨prep', _, _, hpack, ?_⟩
  rw [foldl_addCon]
  simp only [Cache.empty, List.nil_append, List.length_nil]
  set M := (ts.flatMap fun t => edges.filterMap fun e => con e t).flatten with hM
  have hlab := labels_rows con edges ts
  rw [← hM] at hlab
  have hrow : M.map (fun e => some e.row) = (labels con edges ts).map fun p => (rowAt con p).map Elem.row := by
    have := congrArg (List.map (Option.map Elem.row)) hlab
    rw [List.map_map, List.map_map] at this
    exact this.symm
  refine ⟨by rw [List.map_map]; exact hrow, ?_, ?_, ?_, ?_⟩
  · rw [filterMap_zipIdx_fst, (filterMap_map_some _ _ _ hlab _).1]
  · rw [filterMap_zipIdx_fst, (filterMap_map_some _ _ _ hlab _).1]
  · rw [filterMap_zipIdx_fst, (filterMap_map_some _ _ _ hlab _).1]
  intro c' hs
  have hnd := labels_nodup con edges ts he ht
  have hlenM : (labels con edges ts).length = M.length := by
    have := congrArg List.length hlab
    simpa using this
  have lenF : ∀ {γ : Type} (q : Elem R F S → Option γ),
      ((M.zipIdx 0).filterMap fun e => (q e.1).map (·, e.2)).length =
        ((labels con edges ts).filter fun p => ((rowAt con p).bind q).isSome).length := by
    intro γ q
    have := congrArg List.length (filterMap_zipIdx_fst M q 0)
    rw [List.length_map] at this
    rw [this, ← (filterMap_map_some _ _ _ hlab q).2]
  haveI : Inhabited (T × T) := ⟨(default, default)⟩
  obtain ⟨gr, hgr⟩ := exists_map (labels con edges ts) hnd (c'.rows.map impR) (by
    rw [List.length_map, hs.rows]
    simpa using hlenM)
  obtain ⟨gf, hgf⟩ := exists_map _ (hnd.filter fun p => ((rowAt con p).bind Elem.friction).isSome)
    (c'.friction.map fun f => impF f.1) (by
      rw [List.length_map, hs.friction]
      simpa using (lenF Elem.friction).symm)
  obtain ⟨gl, hgl⟩ := exists_map _ (hnd.filter fun p => ((rowAt con p).bind Elem.rolling).isSome)
    (c'.rolling.map fun f => impF f.1) (by
      rw [List.length_map, hs.rolling]
      simpa using (lenF Elem.rolling).symm)
  obtain ⟨gs, hgs⟩ := exists_map _ (hnd.filter fun p => ((rowAt con p).bind Elem.spinning).isSome)
    (c'.spinning.map fun f => impS f.1) (by
      rw [List.length_map, hs.spinning]
      simpa using (lenF Elem.spinning).symm)
  refine ⟨⟨gr, gf, gl, gs⟩, hgr.symm, hgf.symm, hgl.symm, hgs.symm, ?_⟩
  have hassign := assign_spec (g := ⟨gr, gf, gl, gs⟩) (impR := impR) (impF := impF) (impS := impS) (c := c')
    edges ts ⟨0, 0, 0, 0, 0⟩ ⟨by
      rw [List.drop_zero, hs.flags]
      have := congrArg (List.map (fun o : Option (Elem R F S) => ((o.bind Elem.friction).isSome,
        (o.bind Elem.rolling).isSome, (o.bind Elem.spinning).isSome))) hlab
      rw [List.map_map, List.map_map] at this
      exact this.symm, by rw [List.drop_zero]; exact hgr.symm, by rw [List.drop_zero]; exact hgf.symm,
      by rw [List.drop_zero]; exact hgl.symm, by rw [List.drop_zero]; exact hgs.symm⟩ (by
      rw [List.drop_zero, hs.con]
      exact filterMap_con_length con edges ts)
  rw [hassign]
  congr 2
  funext t
  congr 1
  funext e
  rw [conLabels, List.flatMap_map]

/-- **C38**, friction.  Every friction, rolling and spinning row in the packed cache refers to the row of
the contact it was made for. -/
theorem friction_refers_to_its_contact (con : Cons R F S) (edges ts : List Nat) (he : edges.Nodup)
    (prep : Nat → Prep R F S) (hprep : ∀ e ∈ edges, prepare (con e) ts Prep.clear = some (prep e))
    (prep' : Nat → Prep R F S) (cache : Cache R F S) (ents : List (List Nat))
    (h : packRows con edges ts (prep, Cache.empty) = some (prep', cache, ents)) :
    (∀ f i, (f, i) ∈ cache.friction → ∃ p el, (labels con edges ts)[i]? = some p ∧ rowAt con p = some el ∧
      el.friction = some f ∧ cache.rows[i]? = some el.row) ∧
    (∀ f i, (f, i) ∈ cache.rolling → ∃ p el, (labels con edges ts)[i]? = some p ∧ rowAt con p = some el ∧
      el.rolling = some f ∧ cache.rows[i]? = some el.row) ∧
    (∀ f i, (f, i) ∈ cache.spinning → ∃ p el, (labels con edges ts)[i]? = some p ∧ rowAt con p = some el ∧
      el.spinning = some f ∧ cache.rows[i]? = some el.row) := by
  obtain ⟨prep₁, hpack⟩ := packRows_spec con edges he [] ts prep Cache.empty (by
    intro e hm
    obtain ⟨h1, h2, h3⟩ := prepare_spec _ _ _ _ (hprep e hm)
    cases hq : prep e with
    | mk r pc cu =>
      rw [hq] at h1 h2 h3
      simp only [Prep.clear, List.nil_append] at h1 h2 h3
      simp [At, h1, h2, h3])
  rw [h] at hpack
  simp only [Option.some.injEq, Prod.mk.injEq] at hpack
  obtain ⟨-, hc, -⟩ := hpack
  rw [foldl_addCon] at hc
  simp only [Cache.empty, List.nil_append, List.length_nil] at hc
  set M := (ts.flatMap fun t => edges.filterMap fun e => con e t).flatten with hM
  have hlab := labels_rows con edges ts
  rw [← hM] at hlab
  have key : ∀ {γ : Type} (q : Elem R F S → Option γ) (f : γ) (i : Nat),
      (f, i) ∈ (M.zipIdx 0).filterMap (fun e => (q e.1).map (·, e.2)) →
      ∃ p el, (labels con edges ts)[i]? = some p ∧ rowAt con p = some el ∧ q el = some f ∧
        M[i]? = some el := by
    intro γ q f i hm
    rw [List.mem_filterMap] at hm
    obtain ⟨⟨el, j⟩, hmem, heq⟩ := hm
    have hj := List.mem_zipIdx_iff_getElem?.mp hmem
    simp only at hj
    cases hq : q el with
    | none => simp [hq] at heq
    | some f' =>
      simp only [hq, Option.map_some, Option.some.injEq, Prod.mk.injEq] at heq
      obtain ⟨rfl, rfl⟩ := heq
      have hget : ((labels con edges ts).map (rowAt con))[j]? = some (some el) := by
        rw [hlab]
        simp [hj]
      rw [List.getElem?_map] at hget
      cases hl : (labels con edges ts)[j]? with
      | none => rw [hl] at hget; simp at hget
      | some p =>
        rw [hl] at hget
        simp only [Option.map_some, Option.some.injEq] at hget
        exact ⟨p, el, rfl, hget, hq, hj⟩
  subst hc
  refine ⟨?_, ?_, ?_⟩
  all_goals
    intro f i hm
    obtain ⟨p, el, h1, h2, h3, h4⟩ := key _ f i hm
    exact ⟨p, el, h1, h2, h3, by simp [h4]⟩

end Edyn.Solver.Pack
