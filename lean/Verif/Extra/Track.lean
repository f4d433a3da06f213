import Verif.Extra.Spec
import Mathlib.Tactic.Ring
import Mathlib.Tactic.Linarith

/-! # Tracking of changes: lemmas -/

namespace Edyn.Extra

variable {V : Type}

theorem foldlM_cons {α β : Type} (f : β → α → Option β) (a : α) (l : List α) (b : β) :
    (a :: l).foldlM f b = (f b a).bind fun b' => l.foldlM f b' := by
  simp [List.foldlM_cons]

/-- The types recorded for an entity. -/
def tracked (w : World V) (e : ℕ) : List ℕ := (w.mods w.kind e).getD []

structure Track (E : Env) (w w' : World V) (S : ℕ → ℕ → Prop) : Prop where
  emap : w'.emap = w.emap
  next : w'.next = w.next
  kind : w'.kind = w.kind
  owned : w'.owned = w.owned
  remote : w'.remote = w.remote
  some : ∀ e, (w'.mods w.kind e).isSome = (w.mods w.kind e).isSome
  other : ∀ k, k ≠ w.kind → w'.mods k = w.mods k
  mem : ∀ e c, c ∈ tracked w' e ↔ c ∈ tracked w e ∨
    ((w.mods w.kind e).isSome ∧ c ∈ E.sets w.kind ∧ S e c)
  nodup : ∀ e, (tracked w e).Nodup → (tracked w' e).Nodup
  has : ∀ e c, (w.comp e c).isSome → (w'.comp e c).isSome

theorem Track.trans {E : Env} {w w' w'' : World V} {S T : ℕ → ℕ → Prop}
    (h : Track E w w' S) (h' : Track E w' w'' T) :
    Track E w w'' fun e c => S e c ∨ T e c where
  emap := h'.emap.trans h.emap
  next := h'.next.trans h.next
  kind := h'.kind.trans h.kind
  owned := h'.owned.trans h.owned
  remote := h'.remote.trans h.remote
  some e := by rw [← h.kind, h'.some, h.kind, h.some]
  other k hk := by rw [h'.other k (by rw [h.kind]; exact hk), h.other k hk]
  mem e c := by
    rw [h'.mem, h.mem, h.kind, h.some]
    tauto
  nodup e hn := h'.nodup e (h.nodup e hn)
  has e c hc := h'.has e c (h.has e c hc)

theorem Track.congr {E : Env} {w w' : World V} {S T : ℕ → ℕ → Prop} (h : Track E w w' S)
    (hST : ∀ e c, S e c ↔ T e c) : Track E w w' T := by
  have : S = T := by funext e c; exact propext (hST e c)
  exact this ▸ h

theorem Track.refl (E : Env) (w : World V) : Track E w w fun _ _ => False :=
  ⟨rfl, rfl, rfl, rfl, rfl, fun _ => rfl, fun _ _ => rfl, by simp, fun _ h => h, fun _ _ h => h⟩

theorem Track.localOf {E : Env} {w w' : World V} {S : ℕ → ℕ → Prop} (h : Track E w w' S) (m : ℕ) :
    w'.localOf m = w.localOf m := by
  unfold World.localOf
  rw [h.emap]

theorem Track.mainOf {E : Env} {w w' : World V} {S : ℕ → ℕ → Prop} (h : Track E w w' S) (m : ℕ) :
    w'.mainOf m = w.mainOf m := by
  unfold World.mainOf
  rw [h.emap]

theorem setComp_track (E : Env) (w : World V) (e c : ℕ) (v : V) :
    Track E w (w.setComp e c v) fun _ _ => False where
  emap := rfl
  next := rfl
  kind := rfl
  owned := rfl
  remote := rfl
  some _ := rfl
  other _ _ := rfl
  mem e c := by simp [tracked, World.setComp]
  nodup _ h := h
  has e' c' h := by
    simp only [World.setComp]
    split
    · rfl
    · exact h

theorem onUpdate_track {E : Env} {w w' : World V} {e c : ℕ} (hc : c ∈ E.sets w.kind)
    (h : onUpdate E w e c = some w') :
    (Track E w w' fun e' c' => e' = e ∧ c' = c) ∧ w'.comp = w.comp := by
  unfold onUpdate at h
  split at h
  · rename_i hm
    obtain rfl := Option.some.inj h
    refine ⟨⟨rfl, rfl, rfl, rfl, rfl, fun _ => rfl, fun _ _ => rfl, ?_, fun _ h => h,
      fun _ _ h => h⟩, rfl⟩
    rintro e' c'
    constructor
    · exact .inl
    · rintro (h | ⟨h1, h2, rfl, rfl⟩)
      · exact h
      · simp [hm] at h1
  · rename_i l hm
    split at h
    · rename_i hl
      obtain rfl := Option.some.inj h
      refine ⟨⟨rfl, rfl, rfl, rfl, rfl, fun _ => rfl, fun _ _ => rfl, ?_, fun _ h => h,
        fun _ _ h => h⟩, rfl⟩
      rintro e' c'
      constructor
      · exact .inl
      · rintro (h | ⟨h1, h2, rfl, rfl⟩)
        · exact h
        · simpa [tracked, hm] using hl
    · rename_i hl
      split at h
      · obtain rfl := Option.some.inj h
        refine ⟨⟨rfl, rfl, rfl, rfl, rfl, ?_, ?_, ?_, ?_, fun _ _ h => h⟩, rfl⟩
        · intro e'
          simp only [World.setMods, true_and]
          split
          · subst_vars; simp [hm]
          · rfl
        · intro k hk
          funext e'
          simp [World.setMods, hk]
        · intro e' c'
          simp only [tracked, World.setMods, true_and]
          split
          · subst_vars
            simp only [Option.getD_some, List.mem_append, List.mem_singleton, hm, Option.isSome_some,
              true_and]
            constructor
            · rintro (h | rfl)
              · exact .inl h
              · exact .inr ⟨hc, rfl⟩
            · rintro (h | ⟨_, h⟩)
              · exact .inl h
              · exact .inr h
          · rename_i he
            simp [he]
        · intro e' hn
          simp only [tracked, World.setMods, true_and] at hn ⊢
          split
          · subst_vars
            simp only [hm, Option.getD_some] at hn ⊢
            rw [List.nodup_append]
            refine ⟨hn, by simp, ?_⟩
            rintro a ha b hb rfl
            simp at hb
            exact hl (hb ▸ ha)
          · exact hn
      · cases h

theorem patch_track {E : Env} {b : Bool} {w w' : World V} {e c : ℕ} {v : V}
    (h : patch E b w e c v = some w') :
    (Track E w w' fun e' c' => b = true ∧ e' = e ∧ c' = c) ∧
      w'.comp = (w.setComp e c v).comp ∧ (w.comp e c).isSome := by
  unfold patch at h
  by_cases h0 : (w.comp e c).isNone
  · simp [h0] at h
  rw [if_neg h0] at h
  have h0' : (w.comp e c).isSome := by
    cases hx : w.comp e c
    · simp [hx] at h0
    · rfl
  by_cases h1 : (b && decide (c ∈ E.sets w.kind)) = true
  · rw [if_pos h1] at h
    simp only [Bool.and_eq_true, decide_eq_true_eq] at h1
    obtain ⟨ht, hcomp⟩ := onUpdate_track (w := w.setComp e c v) (by exact h1.2) h
    exact ⟨((setComp_track E w e c v).trans ht).congr (by simp [h1.1]), hcomp, h0'⟩
  · rw [if_neg h1] at h
    obtain rfl := Option.some.inj h
    simp only [Bool.and_eq_true, decide_eq_true_eq, not_and] at h1
    have ht := setComp_track E w e c v
    refine ⟨⟨rfl, rfl, rfl, rfl, rfl, ht.some, ht.other, ?_, ht.nodup, ht.has⟩, rfl, h0'⟩
    intro e' c'
    rw [ht.mem]
    constructor
    · rintro (h | h)
      · exact .inl h
      · exact absurd h.2.2 id
    · rintro (h | ⟨_, h2, hb, rfl, rfl⟩)
      · exact .inl h
      · exact absurd h2 (h1 hb)

theorem setComp_comp (w : World V) (e c e' c' : ℕ) (v : V) :
    (w.setComp e c v).comp e' c' = if e' = e ∧ c' = c then some v else w.comp e' c' := rfl

/-- One cell of a snapshot. -/
theorem replaceCell_track {E : Env} {es : List ℕ} {c : ℕ} {w w' : World V} {cell : ℕ × V}
    (h : replaceCell E es c w cell = some w') :
    (Track E w w' fun e' c' => c' = c ∧ (w.comp e' c').isSome ∧
      ∃ m, es[cell.1]? = some m ∧ w.localOf m = some e') ∧
    (∀ e' c', (w'.comp e' c').isSome = (w.comp e' c').isSome) ∧
    ∀ m l, w.localOf m = some l → (∀ m', w.localOf m' = some l → m' = m) → ∀ c',
      w'.comp l c' = (w.comp l c').map fun old =>
        if c = c' ∧ es[cell.1]? = some m then cell.2 else old := by
  unfold replaceCell at h
  split at h
  · cases h
  rename_i m hm
  split at h
  · rename_i hl
    obtain rfl := Option.some.inj h
    refine ⟨(Track.refl E w).congr ?_, fun _ _ => rfl, ?_⟩
    · intro e' c'
      simp [hm, hl]
    · intro m' l' hl' _ c'
      have : ¬ (c = c' ∧ es[cell.1]? = some m') := by
        rintro ⟨-, h⟩
        rw [hm] at h
        rw [Option.some.inj h, hl'] at hl
        cases hl
      simp only [this, if_false]
      simp
  · rename_i l hl
    split at h
    · rename_i hs
      obtain ⟨ht, hcomp, -⟩ := patch_track h
      refine ⟨ht.congr ?_, ?_, ?_⟩
      · intro e' c'
        constructor
        · rintro ⟨-, rfl, rfl⟩
          exact ⟨rfl, hs, m, hm, hl⟩
        · rintro ⟨rfl, -, m', hm', hl'⟩
          rw [hm] at hm'
          rw [← Option.some.inj hm', hl] at hl'
          exact ⟨rfl, (Option.some.inj hl').symm, rfl⟩
      · intro e' c'
        rw [hcomp, setComp_comp]
        split
        · rename_i he
          rw [he.1, he.2, hs]
          rfl
        · rfl
      · intro m' l' hl' hinj c'
        rw [hcomp, setComp_comp]
        by_cases hx : l' = l ∧ c' = c
        · obtain ⟨rfl, rfl⟩ := hx
          have : m = m' := hinj m hl
          subst this
          rw [if_pos ⟨rfl, rfl⟩]
          obtain ⟨o, ho⟩ := Option.isSome_iff_exists.1 hs
          rw [ho]
          simp [hm]
        · rw [if_neg hx]
          have : ¬ (c = c' ∧ es[cell.1]? = some m') := by
            rintro ⟨rfl, h'⟩
            rw [hm] at h'
            rw [Option.some.inj h', hl'] at hl
            exact hx ⟨Option.some.inj hl, rfl⟩
          simp [this]
    · rename_i hs
      obtain rfl := Option.some.inj h
      refine ⟨(Track.refl E w).congr ?_, fun _ _ => rfl, ?_⟩
      · intro e' c'
        constructor
        · exact False.elim
        · rintro ⟨rfl, h1, m', hm', hl'⟩
          rw [hm] at hm'
          rw [← Option.some.inj hm', hl] at hl'
          rw [← Option.some.inj hl'] at h1
          exact hs h1
      · intro m' l' hl' _ c'
        by_cases hx : c = c' ∧ es[cell.1]? = some m'
        · obtain ⟨rfl, h'⟩ := hx
          rw [hm] at h'
          rw [← Option.some.inj h', hl] at hl'
          rw [← Option.some.inj hl']
          have : w.comp l c = none := by simpa using hs
          rw [this]
          rfl
        · simp [hx]

theorem replaceInto_track {E : Env} {es : List ℕ} {c : ℕ} : ∀ {cells : List (ℕ × V)} {w w' : World V},
    cells.foldlM (replaceCell E es c) w = some w' →
    (Track E w w' fun e' c' => c' = c ∧ (w.comp e' c').isSome ∧
      ∃ cell ∈ cells, ∃ m, es[cell.1]? = some m ∧ w.localOf m = some e') ∧
    (∀ e' c', (w'.comp e' c').isSome = (w.comp e' c').isSome) ∧
    ∀ m l, w.localOf m = some l → (∀ m', w.localOf m' = some l → m' = m) → ∀ c',
      w'.comp l c' = (w.comp l c').map fun old =>
        cells.foldl (fun old cell => if c = c' ∧ es[cell.1]? = some m then cell.2 else old) old
  | [], w, w', h => by
    simp at h
    subst h
    exact ⟨(Track.refl E w).congr (by simp), fun _ _ => rfl, by simp⟩
  | cell :: cells, w, w', h => by
    rw [foldlM_cons] at h
    obtain ⟨w1, h1, h2⟩ := Option.bind_eq_some_iff.1 h
    obtain ⟨t1, s1, v1⟩ := replaceCell_track h1
    obtain ⟨t2, s2, v2⟩ := replaceInto_track h2
    refine ⟨(t1.trans t2).congr ?_, fun e' c' => (s2 e' c').trans (s1 e' c'), ?_⟩
    · intro e' c'
      simp only [s1, t1.localOf, List.mem_cons, exists_eq_or_imp]
      constructor
      · rintro (⟨h3, h4, h5⟩ | ⟨h3, h4, h5⟩)
        · exact ⟨h3, h4, .inl h5⟩
        · exact ⟨h3, h4, .inr h5⟩
      · rintro ⟨h3, h4, h5 | h5⟩
        · exact .inl ⟨h3, h4, h5⟩
        · exact .inr ⟨h3, h4, h5⟩
    · intro m l hl hinj c'
      rw [v2 m l (by rw [t1.localOf]; exact hl) (fun m' h => hinj m' (by rw [← t1.localOf]; exact h)) c',
        v1 m l hl hinj c', Option.map_map]
      rfl

/-- The values of all pools. -/
theorem pools_track {E : Env} {es : List ℕ} : ∀ {pools : List (Pool V)} {w w' : World V},
    pools.foldlM (replaceInto E es) w = some w' →
    (Track E w w' fun e' c' => (w.comp e' c').isSome ∧ ∃ p ∈ pools, p.type = c' ∧
      ∃ cell ∈ p.cells, ∃ m, es[cell.1]? = some m ∧ w.localOf m = some e') ∧
    (∀ e' c', (w'.comp e' c').isSome = (w.comp e' c').isSome) ∧
    ∀ m l, w.localOf m = some l → (∀ m', w.localOf m' = some l → m' = m) → ∀ c',
      w'.comp l c' = (w.comp l c').map fun old => pools.foldl (fun old p =>
        p.cells.foldl (fun old cell => if p.type = c' ∧ es[cell.1]? = some m then cell.2 else old)
          old) old
  | [], w, w', h => by
    simp at h
    subst h
    exact ⟨(Track.refl E w).congr (by simp), fun _ _ => rfl, by simp⟩
  | p :: pools, w, w', h => by
    rw [foldlM_cons] at h
    obtain ⟨w1, h1, h2⟩ := Option.bind_eq_some_iff.1 h
    obtain ⟨t1, s1, v1⟩ := replaceInto_track h1
    obtain ⟨t2, s2, v2⟩ := pools_track h2
    refine ⟨(t1.trans t2).congr ?_, fun e' c' => (s2 e' c').trans (s1 e' c'), ?_⟩
    · intro e' c'
      simp only [s1, t1.localOf, List.mem_cons, exists_eq_or_imp]
      constructor
      · rintro (⟨rfl, h3, h4⟩ | ⟨h3, h4⟩)
        · exact ⟨h3, .inl ⟨rfl, h4⟩⟩
        · exact ⟨h3, .inr h4⟩
      · rintro ⟨h3, ⟨rfl, h4⟩ | h4⟩
        · exact .inl ⟨rfl, h3, h4⟩
        · exact .inr ⟨h3, h4⟩
    · intro m l hl hinj c'
      rw [v2 m l (by rw [t1.localOf]; exact hl) (fun m' h => hinj m' (by rw [← t1.localOf]; exact h)) c',
        v1 m l hl hinj c', Option.map_map]
      rfl

theorem foldl_given_cells (c t : ℕ) (m : ℕ) (es : List ℕ) : ∀ (cells : List (ℕ × V)) (o : Option V) (v : V),
    cells.foldl (fun old cell => if t = c ∧ es[cell.1]? = some m then cell.2 else old) (o.getD v) =
      (cells.foldl (fun old cell => if t = c ∧ es[cell.1]? = some m then some cell.2 else old) o).getD v
  | [], _, _ => rfl
  | cell :: cells, o, v => by
    rw [List.foldl_cons, List.foldl_cons]
    by_cases h : t = c ∧ es[cell.1]? = some m
    · simp only [h, and_self, if_true]
      have := foldl_given_cells c t m es cells (some cell.2) v
      simpa only [h.1, true_and, Option.getD_some] using this
    · simp only [h, if_false]
      exact foldl_given_cells c t m es cells o v

theorem foldl_given (c : ℕ) (m : ℕ) (es : List ℕ) : ∀ (pools : List (Pool V)) (o : Option V) (v : V),
    pools.foldl (fun old p =>
        p.cells.foldl (fun old cell => if p.type = c ∧ es[cell.1]? = some m then cell.2 else old)
          old) (o.getD v) =
      (pools.foldl (fun old p => p.cells.foldl (fun old cell =>
        if p.type = c ∧ es[cell.1]? = some m then some cell.2 else old) old) o).getD v
  | [], _, _ => rfl
  | p :: pools, o, v => by
    rw [List.foldl_cons, List.foldl_cons, foldl_given_cells, foldl_given]

/-- The pools leave what the snapshot gives. -/
theorem pools_given {E : Env} {x : Run V} {w w' : World V}
    (h : x.pools.foldlM (replaceInto E x.entities) w = some w') {m l : ℕ}
    (hl : w.localOf m = some l) (hinj : ∀ m', w.localOf m' = some l → m' = m) (c : ℕ) :
    w'.comp l c = (w.comp l c).map fun v => (x.given m c).getD v := by
  rw [(pools_track h).2.2 m l hl hinj c]
  congr 1
  funext v
  exact foldl_given c m x.entities x.pools none v

/-- An input. -/
theorem importInput_track {E : Env} {w w' : World V} {i : ℕ × ℕ × V}
    (h : importInput E w i = some w') :
    (Track E w w' fun _ _ => False) ∧ ∀ e c, c ≠ i.2.1 → w'.comp e c = w.comp e c := by
  unfold importInput at h
  split at h
  · obtain rfl := Option.some.inj h
    exact ⟨Track.refl E w, fun _ _ _ => rfl⟩
  · rename_i l hl
    split at h
    · obtain ⟨ht, hcomp, -⟩ := patch_track h
      refine ⟨ht.congr (by simp), fun e c hc => ?_⟩
      rw [hcomp, setComp_comp, if_neg fun h => hc h.2]
    · obtain rfl := Option.some.inj h
      refine ⟨setComp_track .., fun e c hc => ?_⟩
      rw [setComp_comp, if_neg fun h => hc h.2]

theorem importLatest_track {E : Env} : ∀ {is : List (ℕ × ℕ × V)} {w w' : World V},
    is.foldlM (importInput E) w = some w' →
    (Track E w w' fun _ _ => False) ∧
      ∀ e c, (∀ i ∈ is, c ≠ i.2.1) → w'.comp e c = w.comp e c
  | [], w, w', h => by
    simp at h
    subst h
    exact ⟨Track.refl E w, fun _ _ _ => rfl⟩
  | i :: is, w, w', h => by
    rw [foldlM_cons] at h
    obtain ⟨w1, h1, h2⟩ := Option.bind_eq_some_iff.1 h
    obtain ⟨t1, s1⟩ := importInput_track h1
    obtain ⟨t2, s2⟩ := importLatest_track h2
    refine ⟨(t1.trans t2).congr (by simp), fun e c hc => ?_⟩
    rw [s2 e c fun i hi => hc i (List.mem_cons_of_mem _ hi), s1 e c (hc i List.mem_cons_self)]

/-- A write. -/
theorem write_track {E : Env} {w w' : World V} {a : Write V} (h : a.apply E w = some w') :
    (Track E w w' fun e c => ∃ v, a = .patch e c v) ∧
      ∀ e c, (∀ v, a ≠ .emplace e c v) → (w'.comp e c).isSome = (w.comp e c).isSome := by
  cases a with
  | raw e c v =>
    simp only [Write.apply] at h
    split at h
    · rename_i hs
      obtain rfl := Option.some.inj h
      refine ⟨(setComp_track E w e c v).congr (by simp), fun e' c' _ => ?_⟩
      rw [setComp_comp]
      split
      · rename_i he
        rw [he.1, he.2, hs]
        rfl
      · rfl
    · cases h
  | patch e c v =>
    obtain ⟨ht, hcomp, hs⟩ := patch_track h
    refine ⟨ht.congr (by
      intro e' c'
      constructor
      · rintro ⟨-, rfl, rfl⟩
        exact ⟨v, rfl⟩
      · rintro ⟨v', h⟩
        cases h
        exact ⟨rfl, rfl, rfl⟩), fun e' c' _ => ?_⟩
    rw [hcomp, setComp_comp]
    split
    · rename_i he
      rw [he.1, he.2, hs]
      rfl
    · rfl
  | emplace e c v =>
    simp only [Write.apply] at h
    split at h
    · cases h
    · obtain rfl := Option.some.inj h
      refine ⟨(setComp_track E w e c v).congr (by simp), fun e' c' hne => ?_⟩
      rw [setComp_comp]
      split
      · rename_i he
        exact absurd (by rw [he.1, he.2]) (hne v)
      · rfl

theorem writes_track {E : Env} : ∀ {as : List (Write V)} {w w' : World V},
    as.foldlM (Write.apply E) w = some w' →
    (Track E w w' fun e c => ∃ v, .patch e c v ∈ as) ∧
      ∀ e c, (∀ v, .emplace e c v ∉ as) → (w'.comp e c).isSome = (w.comp e c).isSome
  | [], w, w', h => by
    simp at h
    subst h
    exact ⟨(Track.refl E w).congr (by simp), fun _ _ _ => rfl⟩
  | a :: as, w, w', h => by
    rw [foldlM_cons] at h
    obtain ⟨w1, h1, h2⟩ := Option.bind_eq_some_iff.1 h
    obtain ⟨t1, s1⟩ := write_track h1
    obtain ⟨t2, s2⟩ := writes_track h2
    refine ⟨(t1.trans t2).congr ?_, fun e c hc => ?_⟩
    · intro e c
      constructor
      · rintro (⟨v, rfl⟩ | ⟨v, h⟩)
        · exact ⟨v, List.mem_cons_self⟩
        · exact ⟨v, List.mem_cons_of_mem _ h⟩
      · rintro ⟨v, h⟩
        rcases List.mem_cons.1 h with h | h
        · exact .inl ⟨v, h.symm⟩
        · exact .inr ⟨v, h⟩
    · rw [s2 e c fun v h => hc v (List.mem_cons_of_mem _ h),
        s1 e c fun v h => hc v (h ▸ List.mem_cons_self)]

end Edyn.Extra
