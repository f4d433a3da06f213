import Verif.Extra.Track
import Mathlib.Data.List.Nodup

/-! # Invariant of the worker between messages -/

namespace Edyn.Extra

variable {V : Type}

/-- Between messages the entity map is one to one, exactly the known entities
are tracked, and nothing is marked as modified. -/
structure Inv (E : Env) (w : World V) : Prop where
  keys : (w.emap.map (·.1)).Nodup
  vals : (w.emap.map (·.2)).Nodup
  lt : ∀ p ∈ w.emap, p.2 < w.next
  mods : ∀ k e l, w.mods k e = some l → l = [] ∧ ∃ m, (m, e) ∈ w.emap
  tracked : ∀ p ∈ w.emap, w.mods w.kind p.2 = some []
  comp : ∀ e c, (w.comp e c).isSome → e < w.next
  remote : ∀ e c, (w.remote e c).isSome → e < w.next
  owned : ∀ l ∈ w.owned, ∃ m, (m, l) ∈ w.emap

theorem localOf_iff {w : World V} (h : (w.emap.map (·.1)).Nodup) (m l : ℕ) :
    w.localOf m = some l ↔ (m, l) ∈ w.emap := by
  unfold World.localOf
  constructor
  · intro hl
    obtain ⟨p, hp, rfl⟩ := Option.map_eq_some_iff.1 hl
    have h1 := List.find?_some hp
    have h2 := List.mem_of_find?_eq_some hp
    simp at h1
    rw [← h1]
    exact h2
  · intro hm
    cases hf : w.emap.find? fun p => p.1 = m with
    | none =>
      rw [List.find?_eq_none] at hf
      have := hf _ hm
      simp at this
    | some p =>
      have h1 := List.find?_some hf
      have h2 := List.mem_of_find?_eq_some hf
      simp at h1
      have : p = (m, l) := List.inj_on_of_nodup_map h h2 hm h1
      simp [this]

theorem mainOf_iff {w : World V} (h : (w.emap.map (·.2)).Nodup) (m l : ℕ) :
    w.mainOf l = some m ↔ (m, l) ∈ w.emap := by
  unfold World.mainOf
  constructor
  · intro hl
    obtain ⟨p, hp, rfl⟩ := Option.map_eq_some_iff.1 hl
    have h1 := List.find?_some hp
    have h2 := List.mem_of_find?_eq_some hp
    simp at h1
    rw [← h1]
    exact h2
  · intro hm
    cases hf : w.emap.find? fun p => p.2 = l with
    | none =>
      rw [List.find?_eq_none] at hf
      have := hf _ hm
      simp at this
    | some p =>
      have h1 := List.find?_some hf
      have h2 := List.mem_of_find?_eq_some hf
      simp at h1
      have : p = (m, l) := List.inj_on_of_nodup_map h h2 hm h1
      simp [this]

theorem val_inj {w : World V} (h : (w.emap.map (·.2)).Nodup) {m m' l : ℕ}
    (h1 : (m, l) ∈ w.emap) (h2 : (m', l) ∈ w.emap) : m = m' := by
  have := List.inj_on_of_nodup_map h h1 h2 rfl
  exact congrArg Prod.fst this

theorem key_inj {w : World V} (h : (w.emap.map (·.1)).Nodup) {m l l' : ℕ}
    (h1 : (m, l) ∈ w.emap) (h2 : (m, l') ∈ w.emap) : l = l' := by
  have := List.inj_on_of_nodup_map h h1 h2 rfl
  exact congrArg Prod.snd this

theorem Inv.init (E : Env) (k : ℕ) : Inv E ({ kind := k } : World V) := by
  constructor <;> simp

/-- Creating an entity: it was unknown. -/
theorem createOne_spec {E : Env} {w w' : World V} {m : ℕ} (hi : Inv E w)
    (h : createOne w m = some w') :
    Inv E w' ∧ (∀ l, (m, l) ∉ w.emap) ∧ w'.emap = w.emap ++ [(m, w.next)] ∧
      w'.next = w.next + 1 ∧ w'.comp = w.comp ∧ w'.remote = w.remote ∧ w'.kind = w.kind ∧
      w'.owned = w.owned := by
  unfold createOne at h
  split at h
  · rename_i l hl
    rw [localOf_iff hi.keys] at hl
    simp [addEntity, hi.tracked _ hl] at h
  · rename_i hl
    have hno : ∀ l, (m, l) ∉ w.emap := by
      intro l hml
      rw [(localOf_iff hi.keys m l).2 hml] at hl
      cases hl
    have hmn : w.mods w.kind w.next = none := by
      cases hx : w.mods w.kind w.next with
      | none => rfl
      | some l =>
        obtain ⟨-, m', hm'⟩ := hi.mods _ _ _ hx
        exact absurd (hi.lt _ hm') (lt_irrefl _)
    simp only [addEntity, hmn] at h
    obtain rfl := Option.some.inj h
    refine ⟨⟨?_, ?_, ?_, ?_, ?_, ?_, ?_, ?_⟩, hno, rfl, rfl, rfl, rfl, rfl, rfl⟩
    · simp only [World.setMods, List.map_append, List.map_cons, List.map_nil]
      rw [List.nodup_append]
      refine ⟨hi.keys, by simp, ?_⟩
      intro a ha b hb
      simp at hb
      subst hb
      rintro rfl
      obtain ⟨p, hp, rfl⟩ := List.mem_map.1 ha
      exact hno p.2 hp
    · simp only [World.setMods, List.map_append, List.map_cons, List.map_nil]
      rw [List.nodup_append]
      refine ⟨hi.vals, by simp, ?_⟩
      intro a ha b hb
      simp at hb
      subst hb
      obtain ⟨p, hp, rfl⟩ := List.mem_map.1 ha
      exact (hi.lt p hp).ne
    · intro p hp
      simp only [World.setMods, List.mem_append, List.mem_singleton] at hp ⊢
      rcases hp with hp | rfl
      · exact (hi.lt p hp).trans (Nat.lt_succ_self _)
      · exact Nat.lt_succ_self _
    · intro k e l hl
      simp only [World.setMods] at hl ⊢
      split at hl
      · rename_i he
        refine ⟨(Option.some.inj hl).symm, m, ?_⟩
        rw [he.2]
        simp
      · obtain ⟨h1, m', h2⟩ := hi.mods _ _ _ hl
        exact ⟨h1, m', by simp [h2]⟩
    · intro p hp
      simp only [World.setMods, List.mem_append, List.mem_singleton] at hp ⊢
      rcases hp with hp | rfl
      · rw [if_neg fun h => (hi.lt p hp).ne h.2]
        exact hi.tracked p hp
      · simp
    · intro e c hc
      exact (hi.comp e c hc).trans (Nat.lt_succ_self _)
    · intro e c hc
      exact (hi.remote e c hc).trans (Nat.lt_succ_self _)
    · intro l hl
      obtain ⟨m', h2⟩ := hi.owned l hl
      exact ⟨m', by simp [World.setMods, h2]⟩

theorem createAll_spec {E : Env} : ∀ {ms : List ℕ} {w w' : World V}, Inv E w →
    ms.foldlM createOne w = some w' →
    Inv E w' ∧ ms.Nodup ∧ (∀ m ∈ ms, ∀ l, (m, l) ∉ w.emap) ∧ w'.comp = w.comp ∧
      w'.remote = w.remote ∧ w'.kind = w.kind ∧ w'.owned = w.owned ∧ w.next ≤ w'.next ∧
      (∀ p ∈ w.emap, p ∈ w'.emap) ∧ (∀ p ∈ w'.emap, p ∈ w.emap ∨ p.1 ∈ ms ∧ w.next ≤ p.2) ∧
      ∀ m ∈ ms, ∃ l, (m, l) ∈ w'.emap
  | [], w, w', hi, h => by
    simp at h
    subst h
    exact ⟨hi, by simp, by simp, rfl, rfl, rfl, rfl, le_rfl, fun _ h => h, fun _ h => .inl h, by simp⟩
  | m :: ms, w, w', hi, h => by
    rw [foldlM_cons] at h
    obtain ⟨w1, h1, h2⟩ := Option.bind_eq_some_iff.1 h
    obtain ⟨i1, no1, em1, ne1, c1, r1, k1, o1⟩ := createOne_spec hi h1
    obtain ⟨i2, nd2, no2, c2, r2, k2, o2, ne2, sub2, sup2, ex2⟩ := createAll_spec i1 h2
    refine ⟨i2, ?_, ?_, c2.trans c1, r2.trans r1, k2.trans k1, o2.trans o1, by omega, ?_, ?_, ?_⟩
    · rw [List.nodup_cons]
      refine ⟨fun hm => no2 m hm w.next ?_, nd2⟩
      simp [em1]
    · intro m' hm' l hl
      rcases List.mem_cons.1 hm' with rfl | hm'
      · exact no1 l hl
      · exact no2 m' hm' l (by simp [em1, hl])
    · intro p hp
      exact sub2 p (by simp [em1, hp])
    · intro p hp
      rcases sup2 p hp with h | ⟨h, h'⟩
      · rw [em1, List.mem_append, List.mem_singleton] at h
        rcases h with h | rfl
        · exact .inl h
        · exact .inr ⟨List.mem_cons_self, le_rfl⟩
      · exact .inr ⟨List.mem_cons_of_mem _ h, by omega⟩
    · intro m' hm'
      rcases List.mem_cons.1 hm' with rfl | hm'
      · exact ⟨w.next, sub2 _ (by simp [em1])⟩
      · exact ex2 m' hm'

theorem emplaceAll_spec (E : Env) (w : World V) (p : ℕ × (ℕ → Option V)) (hi : Inv E w) :
    Inv E (emplaceAll w p) ∧ (emplaceAll w p).emap = w.emap ∧ (emplaceAll w p).next = w.next ∧
      (emplaceAll w p).kind = w.kind ∧ (emplaceAll w p).remote = w.remote ∧
      (emplaceAll w p).owned = w.owned ∧
      ∀ m l, (m, l) ∈ w.emap → ∀ c, (emplaceAll w p).comp l c =
        if p.1 = m then (w.comp l c).or (p.2 c) else w.comp l c := by
  unfold emplaceAll
  split
  · rename_i hl
    refine ⟨hi, rfl, rfl, rfl, rfl, rfl, fun m l hml c => ?_⟩
    rw [if_neg]
    rintro rfl
    rw [(localOf_iff hi.keys _ l).2 hml] at hl
    cases hl
  · rename_i l hl
    rw [localOf_iff hi.keys] at hl
    refine ⟨⟨hi.keys, hi.vals, hi.lt, hi.mods, hi.tracked, ?_, hi.remote, hi.owned⟩,
      rfl, rfl, rfl, rfl, rfl, fun m l' hml c => ?_⟩
    · intro e c hc
      simp only at hc
      split at hc
      · rename_i he
        rw [he]
        exact hi.lt _ hl
      · exact hi.comp e c hc
    · simp only
      by_cases hm : p.1 = m
      · have : l' = l := key_inj hi.keys hml (hm ▸ hl)
        rw [if_pos this, if_pos hm]
      · rw [if_neg, if_neg hm]
        rintro rfl
        exact hm (val_inj hi.vals hl hml)

theorem emplaces_spec (E : Env) : ∀ (es : List (ℕ × (ℕ → Option V))) (w : World V), Inv E w →
    Inv E (es.foldl emplaceAll w) ∧ (es.foldl emplaceAll w).emap = w.emap ∧
      (es.foldl emplaceAll w).next = w.next ∧
      (es.foldl emplaceAll w).kind = w.kind ∧ (es.foldl emplaceAll w).remote = w.remote ∧
      (es.foldl emplaceAll w).owned = w.owned ∧
      ∀ m l, (m, l) ∈ w.emap → (es.map (·.1)).Nodup → ∀ c, (es.foldl emplaceAll w).comp l c =
        match es.find? fun p => p.1 = m with
        | some p => (w.comp l c).or (p.2 c)
        | none => w.comp l c
  | [], w, hi => ⟨hi, rfl, rfl, rfl, rfl, rfl, fun _ _ _ _ _ => rfl⟩
  | p :: es, w, hi => by
    obtain ⟨i1, e1, n1, k1, r1, o1, c1⟩ := emplaceAll_spec E w p hi
    obtain ⟨i2, e2, n2, k2, r2, o2, c2⟩ := emplaces_spec E es _ i1
    rw [List.foldl_cons]
    refine ⟨i2, e2.trans e1, n2.trans n1, k2.trans k1, r2.trans r1, o2.trans o1, ?_⟩
    intro m l hml hn c
    rw [List.map_cons, List.nodup_cons] at hn
    rw [c2 m l (by rw [e1]; exact hml) hn.2 c, c1 m l hml c, List.find?_cons]
    by_cases hm : p.1 = m
    · subst hm
      have : (es.find? fun q => q.1 = p.1) = none := by
        rw [List.find?_eq_none]
        intro q hq
        simp only [decide_eq_true_eq]
        intro h
        exact hn.1 (h ▸ List.mem_map_of_mem hq)
      simp [this]
    · simp [hm]

theorem exportRemote_inv {E : Env} {w : World V} (hi : Inv E w) (es : List ℕ) :
    Inv E (exportRemote E w es) := by
  refine ⟨hi.keys, hi.vals, hi.lt, hi.mods, hi.tracked, hi.comp, ?_, hi.owned⟩
  intro e c hc
  simp only [exportRemote] at hc
  split at hc
  · exact hi.comp e c hc
  · exact hi.remote e c hc

theorem own_spec {E : Env} : ∀ {ms : List ℕ} {w w' : World V}, Inv E w →
    ms.foldlM ownOne w = some w' →
    Inv E w' ∧ w'.emap = w.emap ∧ w'.next = w.next ∧ w'.kind = w.kind ∧ w'.comp = w.comp ∧
      w'.remote = w.remote ∧
      ∀ l, l ∈ w'.owned ↔ l ∈ w.owned ∨ ∃ m ∈ ms, (m, l) ∈ w.emap
  | [], w, w', hi, h => by
    simp at h
    subst h
    exact ⟨hi, rfl, rfl, rfl, rfl, rfl, by simp⟩
  | m :: ms, w, w', hi, h => by
    rw [foldlM_cons] at h
    obtain ⟨w1, h1, h2⟩ := Option.bind_eq_some_iff.1 h
    unfold ownOne at h1
    split at h1
    · cases h1
    rename_i l hl
    split at h1
    · cases h1
    rw [localOf_iff hi.keys] at hl
    obtain rfl := Option.some.inj h1
    have i1 : Inv E { w with owned := w.owned ++ [l] } :=
      ⟨hi.keys, hi.vals, hi.lt, hi.mods, hi.tracked, hi.comp, hi.remote, by
        intro l' hl'
        rcases List.mem_append.1 hl' with h | h
        · exact hi.owned l' h
        · rw [List.mem_singleton.1 h]
          exact ⟨m, hl⟩⟩
    obtain ⟨i2, e2, n2, k2, c2, r2, o2⟩ := own_spec i1 h2
    refine ⟨i2, e2, n2, k2, c2, r2, fun l' => ?_⟩
    rw [o2]
    simp only [List.mem_append, List.mem_cons, exists_eq_or_imp, List.not_mem_nil, or_false]
    constructor
    · rintro ((h | rfl) | h)
      · exact .inl h
      · exact .inr (.inl hl)
      · exact .inr (.inr h)
    · rintro (h | h | h)
      · exact .inl (.inl h)
      · exact .inl (.inr (key_inj hi.keys h hl))
      · exact .inr h

/-- Creating entities. -/
theorem create_spec {E : Env} {w w' : World V} {es : List (ℕ × (ℕ → Option V))} {ow : List ℕ}
    (hi : Inv E w) (h : create E w es ow = some w') :
    Inv E w' ∧ (es.map (·.1)).Nodup ∧ (∀ p ∈ es, ∀ l, (p.1, l) ∉ w.emap) ∧ w'.kind = w.kind ∧
      (∀ m ∈ es.map (·.1), ∃ l, (m, l) ∈ w'.emap) ∧
      (∀ m l, (m, l) ∈ w'.emap → (m, l) ∈ w.emap ∨ m ∈ es.map (·.1) ∧ w.next ≤ l) ∧
      (∀ p ∈ w.emap, p ∈ w'.emap) ∧
      ∀ m l, (m, l) ∈ w'.emap → ∀ c, c ∈ E.sets w.kind →
        w'.comp l c = learn m c (w.comp l c) (.create es ow) ∧
        w'.remote l c = learn m c (w.remote l c) (.create es ow) := by
  unfold create at h
  obtain ⟨w1, h1, h2⟩ := Option.bind_eq_some_iff.1 h
  obtain ⟨i1, nd1, no1, c1, r1, k1, o1, ne1, sub1, sup1, ex1⟩ := createAll_spec hi h1
  obtain ⟨i2, e2, n2, k2, r2, o2, c2⟩ := emplaces_spec E es w1 i1
  set w2 := es.foldl emplaceAll w1 with hw2
  obtain ⟨i3, e3, n3, k3, c3, r3, o3⟩ := own_spec (exportRemote_inv i2 _) h2
  have hem : w'.emap = w1.emap := by rw [e3, ← e2]; rfl
  refine ⟨i3, nd1, ?_, ?_, ?_, ?_, ?_, ?_⟩
  · intro p hp l
    exact no1 p.1 (List.mem_map_of_mem hp) l
  · rw [k3, ← k1, ← k2]
    rfl
  · intro m hm
    rw [hem]
    exact ex1 m hm
  · intro m l hml
    rw [hem] at hml
    exact sup1 _ hml
  · intro p hp
    rw [hem]
    exact sub1 p hp
  · intro m l hml c hc
    rw [hem] at hml
    have hcomp := c2 m l hml nd1 c
    have hrem : w'.remote l c = if l ∈ (es.map (·.1)).filterMap w2.localOf ∧ c ∈ E.sets w2.kind ∧
        (w2.comp l c).isSome then w2.comp l c else w2.remote l c := by
      rw [r3]
      rfl
    have hcc : w'.comp l c = w2.comp l c := by rw [c3]; rfl
    have hk2 : w2.kind = w.kind := k2.trans k1
    rw [hcc, hrem, hcomp, hk2, r2, r1, c1]
    have hin : l ∈ (es.map (·.1)).filterMap w2.localOf ↔ m ∈ es.map (·.1) := by
      rw [List.mem_filterMap]
      constructor
      · rintro ⟨m', hm', hl⟩
        rw [localOf_iff i2.keys, e2] at hl
        exact val_inj i1.vals hl hml ▸ hm'
      · intro hm
        exact ⟨m, hm, by rw [localOf_iff i2.keys, e2]; exact hml⟩
    simp only [learn]
    cases hf : es.find? fun p => p.1 = m with
    | none =>
      have hm : m ∉ es.map (·.1) := by
        rw [List.find?_eq_none] at hf
        intro hm
        obtain ⟨p, hp, hpm⟩ := List.mem_map.1 hm
        exact absurd (decide_eq_true hpm) (hf p hp)
      refine ⟨rfl, ?_⟩
      rw [if_neg fun h => hm (hin.1 h.1)]
    | some p =>
      have hp := List.mem_of_find?_eq_some hf
      have hpm : p.1 = m := by simpa using List.find?_some hf
      have hm : m ∈ es.map (·.1) := hpm ▸ List.mem_map_of_mem hp
      have hge : w.next ≤ l := by
        rcases sup1 _ hml with h | h
        · exact absurd h (no1 m hm l)
        · exact h.2
      have hnc : w.comp l c = none := by
        cases hx : w.comp l c with
        | none => rfl
        | some v => exact absurd (hi.comp l c (by simp [hx])) (by omega)
      have hnr : w.remote l c = none := by
        cases hx : w.remote l c with
        | none => rfl
        | some v => exact absurd (hi.remote l c (by simp [hx])) (by omega)
      simp only [hnc, hnr, Option.none_or, true_and]
      cases hx : p.2 c with
      | none => simp
      | some v => rw [if_pos ⟨hin.2 hm, hc, rfl⟩]

/-- Destroying an entity. -/
theorem destroyOne_spec {E : Env} {w : World V} (hi : Inv E w) (m : ℕ) :
    ∃ w', destroyOne E w m = some w' ∧ Inv E w' ∧ w'.kind = w.kind ∧
      (∀ m' l, (m', l) ∈ w'.emap ↔ (m', l) ∈ w.emap ∧ m' ≠ m) ∧
      ∀ m' l, (m', l) ∈ w'.emap → w'.comp l = w.comp l ∧ w'.remote l = w.remote l ∧
        (l ∈ w'.owned ↔ l ∈ w.owned) := by
  unfold destroyOne
  cases hl : w.localOf m with
  | none =>
    refine ⟨w, rfl, hi, rfl, fun m' l => ?_, fun _ _ _ => ⟨rfl, rfl, Iff.rfl⟩⟩
    refine ⟨fun h => ⟨h, ?_⟩, fun h => h.1⟩
    rintro rfl
    rw [(localOf_iff hi.keys _ l).2 h] at hl
    cases hl
  | some l =>
    rw [localOf_iff hi.keys] at hl
    simp only [hi.tracked _ hl]
    have hmem : ∀ m' l', (m', l') ∈ w.emap.filter (fun p => p.1 ≠ m) ↔ (m', l') ∈ w.emap ∧ m' ≠ m := by
      intro m' l'
      simp [List.mem_filter]
    have hne : ∀ m' l', (m', l') ∈ w.emap → m' ≠ m → l' ≠ l := by
      rintro m' l' h1 h2 rfl
      exact h2 (val_inj hi.vals h1 hl)
    refine ⟨_, rfl, ⟨?_, ?_, ?_, ?_, ?_, ?_, ?_, ?_⟩, rfl, hmem, ?_⟩
    · exact hi.keys.sublist (List.filter_sublist.map _)
    · exact hi.vals.sublist (List.filter_sublist.map _)
    · intro p hp
      exact hi.lt p (List.mem_filter.1 hp).1
    · intro k e l' hl'
      simp only at hl'
      split at hl'
      · cases hl'
      · rename_i he
        obtain ⟨h1, m', h2⟩ := hi.mods _ _ _ hl'
        refine ⟨h1, m', (hmem _ _).2 ⟨h2, ?_⟩⟩
        rintro rfl
        exact he (key_inj hi.keys h2 hl)
    · intro p hp
      have := (hmem p.1 p.2).1 hp
      simp only
      rw [if_neg (hne _ _ this.1 this.2)]
      exact hi.tracked p this.1
    · intro e c hc
      simp only at hc
      split at hc
      · simp at hc
      · exact hi.comp e c hc
    · intro e c hc
      simp only at hc
      split at hc
      · simp at hc
      · exact hi.remote e c hc
    · intro l' hl'
      simp only [List.mem_filter, decide_eq_true_eq] at hl'
      obtain ⟨m', h2⟩ := hi.owned l' hl'.1
      refine ⟨m', (hmem _ _).2 ⟨h2, ?_⟩⟩
      rintro rfl
      exact hl'.2 (key_inj hi.keys h2 hl)
    · intro m' l' h
      have := (hmem m' l').1 h
      have hne := hne _ _ this.1 this.2
      refine ⟨?_, ?_, ?_⟩
      · funext c
        simp [hne]
      · funext c
        simp [hne]
      · simp [List.mem_filter, hne]

theorem destroy_spec {E : Env} : ∀ (ms : List ℕ) {w : World V}, Inv E w →
    ∃ w', ms.foldlM (destroyOne E) w = some w' ∧ Inv E w' ∧ w'.kind = w.kind ∧
      (∀ m' l, (m', l) ∈ w'.emap ↔ (m', l) ∈ w.emap ∧ m' ∉ ms) ∧
      ∀ m' l, (m', l) ∈ w'.emap → w'.comp l = w.comp l ∧ w'.remote l = w.remote l ∧
        (l ∈ w'.owned ↔ l ∈ w.owned)
  | [], w, hi => ⟨w, rfl, hi, rfl, by simp, fun _ _ _ => ⟨rfl, rfl, Iff.rfl⟩⟩
  | m :: ms, w, hi => by
    obtain ⟨w1, h1, i1, k1, e1, c1⟩ := destroyOne_spec hi m
    obtain ⟨w2, h2, i2, k2, e2, c2⟩ := destroy_spec ms i1
    refine ⟨w2, by rw [foldlM_cons, h1]; exact h2, i2, k2.trans k1, ?_, ?_⟩
    · intro m' l
      rw [e2, e1, List.mem_cons]
      tauto
    · intro m' l h
      obtain ⟨a, b, c⟩ := c2 m' l h
      obtain ⟨a', b', c'⟩ := c1 m' l ((e2 m' l).1 h).1
      exact ⟨a.trans a', b.trans b', c.trans c'⟩

end Edyn.Extra
