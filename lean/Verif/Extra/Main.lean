import Verif.Extra.Inv
import Mathlib.Data.List.Perm.Subperm

/-!
# Where an extrapolation starts and what it reports: theorems
-/

namespace Edyn.Extra

variable {V : Type}

theorem collect_spec {w : World V} : ∀ {ms acc snap : List ℕ},
    collect w ms acc = some (some snap) →
    snap = acc ++ ms.filterMap w.localOf ∧ ∀ m ∈ ms, ∃ l, w.localOf m = some l
  | [], acc, snap, h => by
    simp [collect] at h
    simp [h]
  | m :: ms, acc, snap, h => by
    unfold collect at h
    split at h
    · cases h
    rename_i l hl
    split at h
    · cases h
    obtain ⟨h1, h2⟩ := collect_spec h
    refine ⟨?_, ?_⟩
    · rw [h1, List.filterMap_cons, hl]
      simp
    · intro m' hm'
      rcases List.mem_cons.1 hm' with rfl | hm'
      · exact ⟨l, hl⟩
      · exact h2 m' hm'

/-- The stages of the start of an extrapolation. -/
theorem start_stages {E : Env} {w w1 : World V} {x : Run V}
    (h : start E w x = some (some w1)) :
    (∀ m ∈ x.entities, ∃ l, w.localOf m = some l) ∧
    ∃ wb wc, x.latest.foldlM (importInput E) (importRemote E w (involved w x)) = some wb ∧
      x.pools.foldlM (replaceInto E x.entities) wb = some wc ∧
      w1 = exportRemote E wc (x.entities.filterMap w.localOf) := by
  unfold start at h
  obtain ⟨o, ho, h⟩ := Option.bind_eq_some_iff.1 h
  cases o with
  | none => simp at h
  | some snap =>
    obtain ⟨hs, hk⟩ := collect_spec ho
    rw [List.nil_append] at hs
    subst hs
    simp only at h
    obtain ⟨wb, hb, h⟩ := Option.bind_eq_some_iff.1 h
    obtain ⟨wc, hc, h⟩ := Option.map_eq_some_iff.1 h
    exact ⟨hk, wb, wc, hb, hc, (Option.some.inj h).symm⟩

theorem importRemote_track (E : Env) (w : World V) (es : List ℕ) :
    Track E w (importRemote E w es) (fun _ _ => False) ∧
      ∀ e c, ((importRemote E w es).comp e c).isSome = (w.comp e c).isSome := by
  have hs : ∀ e c, ((importRemote E w es).comp e c).isSome = (w.comp e c).isSome := by
    intro e c
    simp only [importRemote]
    split
    · rename_i h
      rw [h.2.2.1, h.2.2.2]
    · rfl
  exact ⟨⟨rfl, rfl, rfl, rfl, rfl, fun _ => rfl, fun _ _ => rfl, by simp [tracked, importRemote],
    fun _ h => h, fun e c h => by rw [hs]; exact h⟩, hs⟩

/-- The start of an extrapolation, as far as tracking is concerned. -/
theorem start_track {E : Env} {w w1 : World V} {x : Run V} (hi : Inv E w)
    (h : start E w x = some (some w1)) :
    ∃ wc, w1 = exportRemote E wc (x.entities.filterMap w.localOf) ∧
      Track E w wc fun l c => ∃ m, (m, l) ∈ w.emap ∧ (w1.comp l c).isSome ∧ ∃ v, x.Gives m c v := by
  obtain ⟨hk, wb, wc, hb, hc, rfl⟩ := start_stages h
  refine ⟨wc, rfl, ?_⟩
  have t1 := (importRemote_track E w (involved w x)).1
  have t2 := (importLatest_track hb).1
  obtain ⟨t3, s3, -⟩ := pools_track hc
  refine ((t1.trans t2).trans t3).congr fun l c => ?_
  have hs : ((exportRemote E wc (x.entities.filterMap w.localOf)).comp l c).isSome =
      (wb.comp l c).isSome := s3 l c
  have hloc : ∀ m, wb.localOf m = w.localOf m := fun m => by rw [t2.localOf, t1.localOf]
  simp only [or_false, false_or, hs, hloc, Run.Gives, localOf_iff hi.keys]
  constructor
  · rintro ⟨h1, p, hp, hpc, cell, hcell, m, hm, hml⟩
    exact ⟨m, hml, h1, cell.2, p, hp, hpc, cell.1, hcell, hm⟩
  · rintro ⟨m, hml, h1, v, p, hp, hpc, i, hcell, hm⟩
    exact ⟨h1, p, hp, hpc, (i, v), hcell, m, hm, hml⟩

/-- The whole of an extrapolation, as far as tracking is concerned. -/
theorem middle_track {E : Env} {w w1 w2 : World V} {x : Run V} (hi : Inv E w)
    (h : start E w x = some (some w1)) (h2 : x.writes.foldlM (Write.apply E) w1 = some w2) :
    w2.emap = w.emap ∧ w2.next = w.next ∧ w2.kind = w.kind ∧ w2.owned = w.owned ∧
      w2.remote = w1.remote ∧
      (∀ e, (w2.mods w.kind e).isSome = (w.mods w.kind e).isSome) ∧
      (∀ k, k ≠ w.kind → w2.mods k = w.mods k) ∧
      (∀ e, (tracked w2 e).Nodup) ∧
      ∀ e c, c ∈ tracked w2 e ↔ ∃ m, (m, e) ∈ w.emap ∧ c ∈ E.sets w.kind ∧ x.Replaces w1 m e c := by
  obtain ⟨wc, rfl, t⟩ := start_track hi h
  obtain ⟨t2, -⟩ := writes_track h2
  have hnil : ∀ e, tracked w e = [] := by
    intro e
    unfold tracked
    cases hx : w.mods w.kind e with
    | none => rfl
    | some l => exact (hi.mods _ _ _ hx).1
  have hsm : ∀ e, (w.mods w.kind e).isSome ↔ ∃ m, (m, e) ∈ w.emap := by
    intro e
    constructor
    · intro hs
      obtain ⟨l, hl⟩ := Option.isSome_iff_exists.1 hs
      exact (hi.mods _ _ _ hl).2
    · rintro ⟨m, hm⟩
      rw [hi.tracked _ hm]
      rfl
  refine ⟨t2.emap.trans t.emap, t2.next.trans t.next, t2.kind.trans t.kind, t2.owned.trans t.owned,
    t2.remote, ?_, ?_, ?_, ?_⟩
  · intro e
    have h1 := t2.some e
    have hk : (exportRemote E wc (x.entities.filterMap w.localOf)).kind = w.kind := t.kind
    rw [hk] at h1
    rw [h1]
    exact t.some e
  · intro k hk
    have hk' : (exportRemote E wc (x.entities.filterMap w.localOf)).kind = w.kind := t.kind
    rw [t2.other k (by rw [hk']; exact hk)]
    exact t.other k hk
  · intro e
    refine t2.nodup e ?_
    have := t.nodup e (by rw [hnil]; exact List.nodup_nil)
    exact this
  · intro e c
    rw [t2.mem]
    have hk' : (exportRemote E wc (x.entities.filterMap w.localOf)).kind = w.kind := t.kind
    have h1 : (c ∈ tracked (exportRemote E wc (x.entities.filterMap w.localOf)) e) ↔
        c ∈ tracked wc e := Iff.rfl
    have h3 : ((exportRemote E wc (x.entities.filterMap w.localOf)).mods
        (exportRemote E wc (x.entities.filterMap w.localOf)).kind e).isSome =
        (w.mods w.kind e).isSome := by
      rw [hk']
      exact t.some e
    rw [h1, t.mem, hnil, h3, hk', hsm]
    simp only [List.not_mem_nil, false_or, Run.Replaces]
    constructor
    · rintro (⟨-, h5, m, h6, h7, h8⟩ | ⟨⟨m, h4⟩, h5, h6⟩)
      · exact ⟨m, h6, h5, .inl ⟨h8, h7⟩⟩
      · exact ⟨m, h4, h5, .inr h6⟩
    · rintro ⟨m, h4, h5, ⟨h8, h7⟩ | h6⟩
      · exact .inl ⟨⟨m, h4⟩, h5, m, h4, h7, h8⟩
      · exact .inr ⟨⟨m, h4⟩, h5, h6⟩

theorem mem_mapM {α β : Type} {f : α → Option β} : ∀ {l : List α} {r : List β},
    l.mapM f = some r → ∀ b, b ∈ r ↔ ∃ a ∈ l, f a = some b
  | [], r, h, b => by
    simp at h
    simp [h]
  | a :: l, r, h, b => by
    rw [List.mapM_cons] at h
    obtain ⟨b0, h0, h⟩ := Option.bind_eq_some_iff.1 h
    obtain ⟨bs, h1, h⟩ := Option.bind_eq_some_iff.1 h
    obtain rfl := Option.some.inj h
    simp only [List.mem_cons, exists_eq_or_imp, h0, mem_mapM h1 b, Option.some.injEq]
    constructor
    · rintro (rfl | h)
      · exact .inl rfl
      · exact .inr h
    · rintro (rfl | h)
      · exact .inl rfl
      · exact .inr h

theorem mem_opsOf {E : Env} {w : World V} {e : ℕ} {os : List (ℕ × ℕ × V)}
    (h : opsOf E w e = some os) (m c : ℕ) (v : V) :
    (m, c, v) ∈ os ↔ c ∈ (w.mods w.kind e).getD [] ∧ ¬ (e ∈ w.owned ∧ E.isInput c = true) ∧
      w.comp e c = some v ∧ w.mainOf e = some m := by
  unfold opsOf at h
  split at h
  · rename_i hm
    obtain rfl := Option.some.inj h
    simp [hm]
  · rename_i l hm
    rw [mem_mapM h, hm]
    simp only [List.mem_filter, Option.getD_some]
    constructor
    · rintro ⟨c', ⟨h1, h2⟩, h3⟩
      obtain ⟨v', h4, h3⟩ := Option.bind_eq_some_iff.1 h3
      obtain ⟨m', h5, h3⟩ := Option.map_eq_some_iff.1 h3
      cases h3
      refine ⟨h1, ?_, h4, h5⟩
      rintro ⟨h6, h7⟩
      simp [h6, h7] at h2
    · rintro ⟨h1, h2, h3, h4⟩
      refine ⟨c, ⟨h1, ?_⟩, ?_⟩
      · by_cases h6 : e ∈ w.owned
        · simpa [h6] using h2
        · simp [h6]
      rw [h3, h4]
      rfl

/-- The end of an extrapolation. -/
theorem finish_spec {E : Env} {w w' : World V} {ops : List (ℕ × ℕ × V)}
    (h : finish E w = some (w', ops)) :
    w' = clearModified w ∧ ops ≠ [] ∧ ∀ m c v, (m, c, v) ∈ ops ↔
      ∃ e, e < w.next ∧ c ∈ (w.mods w.kind e).getD [] ∧ ¬ (e ∈ w.owned ∧ E.isInput c = true) ∧
        w.comp e c = some v ∧ w.mainOf e = some m := by
  unfold finish at h
  obtain ⟨oss, ho, h⟩ := Option.bind_eq_some_iff.1 h
  split at h
  · cases h
  rename_i hne
  have h := Option.some.inj h
  rw [Prod.mk.injEq] at h
  obtain ⟨rfl, rfl⟩ := h
  refine ⟨rfl, by simpa using hne, fun m c v => ?_⟩
  rw [List.mem_flatten]
  constructor
  · rintro ⟨os, hos, hm⟩
    obtain ⟨e, he, hoe⟩ := (mem_mapM ho os).1 hos
    exact ⟨e, List.mem_range.1 he, (mem_opsOf hoe m c v).1 hm⟩
  · rintro ⟨e, he, h1⟩
    have : ∃ os, os ∈ oss ∧ opsOf E w e = some os := by
      have key : ∀ {l : List ℕ} {r : List (List (ℕ × ℕ × V))}, l.mapM (opsOf E w) = some r →
          ∀ a ∈ l, ∃ b ∈ r, opsOf E w a = some b := by
        intro l
        induction l with
        | nil => simp
        | cons a l ih =>
          intro r hr a' ha'
          rw [List.mapM_cons] at hr
          obtain ⟨b0, h0, hr⟩ := Option.bind_eq_some_iff.1 hr
          obtain ⟨bs, h1, hr⟩ := Option.bind_eq_some_iff.1 hr
          obtain rfl := Option.some.inj hr
          rcases List.mem_cons.1 ha' with rfl | ha'
          · exact ⟨b0, List.mem_cons_self, h0⟩
          · obtain ⟨b, hb, hab⟩ := ih h1 a' ha'
            exact ⟨b, List.mem_cons_of_mem _ hb, hab⟩
      exact key ho e (List.mem_range.2 he)
    obtain ⟨os, hos, hoe⟩ := this
    exact ⟨os, hos, (mem_opsOf hoe m c v).2 h1⟩

theorem nodup_opsOf {E : Env} {w : World V} {e : ℕ} {os : List (ℕ × ℕ × V)}
    (hn : ((w.mods w.kind e).getD []).Nodup) (h : opsOf E w e = some os) :
    (os.map fun o => (o.1, o.2.1)).Nodup := by
  unfold opsOf at h
  split at h
  · obtain rfl := Option.some.inj h
    simp
  · rename_i l hm
    rw [hm] at hn
    have hn' : (l.filter fun c => !(decide (e ∈ w.owned) && E.isInput c)).Nodup := List.Nodup.filter _ hn
    generalize l.filter (fun c => !(decide (e ∈ w.owned) && E.isInput c)) = l' at h hn'
    clear hn hm
    induction l' generalizing os with
    | nil =>
      simp at h
      simp [h]
    | cons c l' ih =>
      rw [List.mapM_cons] at h
      obtain ⟨b0, h0, h⟩ := Option.bind_eq_some_iff.1 h
      obtain ⟨bs, h1, h⟩ := Option.bind_eq_some_iff.1 h
      obtain rfl := Option.some.inj h
      obtain ⟨v, h4, h0⟩ := Option.bind_eq_some_iff.1 h0
      obtain ⟨m, h5, rfl⟩ := Option.map_eq_some_iff.1 h0
      rw [List.nodup_cons] at hn'
      rw [List.map_cons, List.nodup_cons]
      refine ⟨?_, ih h1 hn'.2⟩
      intro hmem
      obtain ⟨o, ho, heq⟩ := List.mem_map.1 hmem
      obtain ⟨c', hc', ho'⟩ := (mem_mapM h1 o).1 ho
      obtain ⟨v', h4', h0'⟩ := Option.bind_eq_some_iff.1 ho'
      obtain ⟨m', h5', rfl⟩ := Option.map_eq_some_iff.1 h0'
      simp at heq
      exact hn'.1 (heq.2 ▸ hc')

/-- No component is reported twice. -/
theorem finish_nodup {E : Env} {w w' : World V} {ops : List (ℕ × ℕ × V)}
    (hk : (w.emap.map (·.1)).Nodup) (hv : (w.emap.map (·.2)).Nodup) (hn : ∀ e, ((w.mods w.kind e).getD []).Nodup)
    (h : finish E w = some (w', ops)) : (ops.map fun o => (o.1, o.2.1)).Nodup := by
  unfold finish at h
  obtain ⟨oss, ho, h⟩ := Option.bind_eq_some_iff.1 h
  split at h
  · cases h
  have h := Option.some.inj h
  rw [Prod.mk.injEq] at h
  obtain ⟨-, rfl⟩ := h
  refine (fun key => key _ _ List.nodup_range ho) (?_ : ∀ (l : List ℕ) (oss : List (List (ℕ × ℕ × V))),
    l.Nodup → l.mapM (opsOf E w) = some oss → (oss.flatten.map fun o => (o.1, o.2.1)).Nodup)
  intro l
  induction l with
  | nil =>
    intro oss _ ho
    simp at ho
    simp [ho]
  | cons e l ih =>
    intro oss hr ho
    rw [List.mapM_cons] at ho
    obtain ⟨b0, h0, ho⟩ := Option.bind_eq_some_iff.1 ho
    obtain ⟨bs, h1, ho⟩ := Option.bind_eq_some_iff.1 ho
    obtain rfl := Option.some.inj ho
    rw [List.nodup_cons] at hr
    rw [List.flatten_cons, List.map_append, List.nodup_append]
    refine ⟨nodup_opsOf (hn e) h0, ?_, ?_⟩
    · exact ih bs hr.2 h1
    · rintro a ha b hb rfl
      obtain ⟨o, ho, rfl⟩ := List.mem_map.1 ha
      obtain ⟨o', ho', heq⟩ := List.mem_map.1 hb
      obtain ⟨os, hos, hmem⟩ := List.mem_flatten.1 ho'
      obtain ⟨e', he', hoe⟩ := (mem_mapM h1 os).1 hos
      have m1 := ((mem_opsOf h0 o.1 o.2.1 o.2.2).1 ho).2.2.2
      have m2 := ((mem_opsOf hoe o'.1 o'.2.1 o'.2.2).1 hmem).2.2.2
      have : o'.1 = o.1 := (Prod.mk.inj heq).1
      rw [this] at m2
      rw [mainOf_iff hv] at m1 m2
      exact hr.1 (key_inj hk m1 m2 ▸ he')

/-- An extrapolation which is not aborted, in its three stages. -/
theorem extrapolate_stages {E : Env} {w w' : World V} {x : Run V} {r : List (ℕ × ℕ × V)}
    (h : extrapolate E w x = some (w', some r)) :
    ∃ w1 w2, start E w x = some (some w1) ∧ x.writes.foldlM (Write.apply E) w1 = some w2 ∧
      finish E w2 = some (w', r) := by
  unfold extrapolate at h
  obtain ⟨o, ho, h⟩ := Option.bind_eq_some_iff.1 h
  cases o with
  | none => simp at h
  | some w1 =>
    simp only at h
    obtain ⟨w2, h2, h⟩ := Option.bind_eq_some_iff.1 h
    obtain ⟨q, hq, h⟩ := Option.map_eq_some_iff.1 h
    refine ⟨w1, w2, ho, h2, ?_⟩
    rw [hq]
    cases q
    simp only [Prod.mk.injEq, Option.some.injEq] at h
    rw [h.1, h.2]

theorem extrapolate_aborted {E : Env} {w w' : World V} {x : Run V}
    (h : extrapolate E w x = some (w', none)) : w' = w := by
  unfold extrapolate at h
  obtain ⟨o, ho, h⟩ := Option.bind_eq_some_iff.1 h
  cases o with
  | none => simp at h; exact h.symm
  | some w1 =>
    simp only at h
    obtain ⟨w2, h2, h⟩ := Option.bind_eq_some_iff.1 h
    obtain ⟨q, hq, h⟩ := Option.map_eq_some_iff.1 h
    simp at h

theorem foldlM_remote_lt {E : Env} {w w1 : World V} {x : Run V} (hi : Inv E w)
    (h : start E w x = some (some w1)) :
    (∀ e c, (w1.comp e c).isSome → e < w.next) ∧ ∀ e c, (w1.remote e c).isSome → e < w.next := by
  obtain ⟨hk, wb, wc, hb, hc, rfl⟩ := start_stages h
  have t1 := importRemote_track E w (involved w x)
  have t2 := (importLatest_track hb).1
  obtain ⟨t3, s3, -⟩ := pools_track hc
  have hlat : ∀ {is : List (ℕ × ℕ × V)} {a b : World V}, a.emap = w.emap →
      (∀ e c, (a.comp e c).isSome → e < w.next) → is.foldlM (importInput E) a = some b →
      ∀ e c, (b.comp e c).isSome → e < w.next := by
    intro is
    induction is with
    | nil =>
      intro a b _ ha hab
      simp at hab
      subst hab
      exact ha
    | cons i is ih =>
      intro a b he ha hab
      rw [foldlM_cons] at hab
      obtain ⟨a', h1, h2⟩ := Option.bind_eq_some_iff.1 hab
      refine ih ((importInput_track h1).1.emap.trans he) ?_ h2
      unfold importInput at h1
      split at h1
      · obtain rfl := Option.some.inj h1
        exact ha
      · rename_i l hl
        have hl' : (i.1, l) ∈ w.emap := by
          rw [localOf_iff (by rw [he]; exact hi.keys), he] at hl
          exact hl
        have hset : ∀ e c, ((a.setComp l i.2.1 i.2.2).comp e c).isSome → e < w.next := by
          intro e c hs
          rw [setComp_comp] at hs
          split at hs
          · rename_i h
            rw [h.1]
            exact hi.lt _ hl'
          · exact ha e c hs
        split at h1
        · rw [(patch_track h1).2.1]
          exact hset
        · obtain rfl := Option.some.inj h1
          exact hset
  have hwb := hlat (a := importRemote E w (involved w x)) (b := wb) rfl
    (fun e c h => hi.comp e c (by rw [← t1.2]; exact h)) hb
  refine ⟨fun e c h => hwb e c (by rw [← s3]; exact h), fun e c h => ?_⟩
  have hr : wc.remote = w.remote := (t3.remote.trans t2.remote).trans t1.1.remote
  simp only [exportRemote, hr] at h
  split at h
  · exact hwb e c (by rw [← s3]; exact h)
  · exact hi.remote e c h

theorem writes_lt {E : Env} {w : World V} (hi : Inv E w) : ∀ {as : List (Write V)} {a b : World V},
    a.emap = w.emap → (∀ e c, (a.comp e c).isSome → e < w.next) →
    as.foldlM (Write.apply E) a = some b → ∀ e c, (b.comp e c).isSome → e < w.next
  | [], a, b, _, ha, hab => by
    simp at hab
    subst hab
    exact ha
  | q :: as, a, b, he, ha, hab => by
    rw [foldlM_cons] at hab
    obtain ⟨a', h1, h2⟩ := Option.bind_eq_some_iff.1 hab
    refine writes_lt hi ((write_track h1).1.emap.trans he) ?_ h2
    intro e c hs
    by_cases hem : ∃ v, q = .emplace e c v
    · obtain ⟨v, rfl⟩ := hem
      simp only [Write.apply] at h1
      split at h1
      · cases h1
      · rename_i hx
        simp only [Bool.or_eq_true, not_or] at hx
        obtain ⟨m, hm⟩ : ∃ m, a.mainOf e = some m := by
          cases hy : a.mainOf e with
          | none => simp [hy] at hx
          | some m => exact ⟨m, rfl⟩
        rw [mainOf_iff (by rw [he]; exact hi.vals), he] at hm
        exact hi.lt _ hm
    · rw [(write_track h1).2 e c fun v h => hem ⟨v, h⟩] at hs
      exact ha e c hs

/-- Extrapolations preserve the invariant. -/
theorem extrapolate_inv {E : Env} {w w' : World V} {x : Run V} {r : List (ℕ × ℕ × V)}
    (hi : Inv E w) (h : extrapolate E w x = some (w', some r)) :
    Inv E w' ∧ w'.emap = w.emap ∧ w'.kind = w.kind ∧ w'.owned = w.owned ∧ w'.next = w.next := by
  obtain ⟨w1, w2, h1, h2, h3⟩ := extrapolate_stages h
  obtain ⟨em, ne, ki, ow, re, sm, ot, nd, tr⟩ := middle_track hi h1 h2
  obtain ⟨rfl, -, -⟩ := finish_spec h3
  obtain ⟨wc, hwc, t⟩ := start_track hi h1
  have em1 : w1.emap = w.emap := by rw [hwc]; exact t.emap
  obtain ⟨lt1, lr1⟩ := foldlM_remote_lt hi h1
  refine ⟨⟨?_, ?_, ?_, ?_, ?_, ?_, ?_, ?_⟩, em, ki, ow, ne⟩
  · simp only [clearModified, em]
    exact hi.keys
  · simp only [clearModified, em]
    exact hi.vals
  · simp only [clearModified, em, ne]
    exact hi.lt
  · intro k e l hl
    simp only [clearModified, ki, em] at hl ⊢
    split at hl
    · rename_i hk
      obtain ⟨l', hl', rfl⟩ := Option.map_eq_some_iff.1 hl
      refine ⟨rfl, ?_⟩
      have := sm e
      rw [← hk, hl'] at this
      obtain ⟨l'', hl''⟩ := Option.isSome_iff_exists.1 this.symm
      exact (hi.mods _ _ _ hl'').2
    · rename_i hk
      rw [ot k hk] at hl
      exact hi.mods _ _ _ hl
  · intro p hp
    simp only [clearModified, em, ki] at hp ⊢
    rw [if_pos trivial]
    have := sm p.2
    rw [hi.tracked p hp] at this
    obtain ⟨l'', hl''⟩ := Option.isSome_iff_exists.1 this
    rw [hl'']
    rfl
  · intro e c hc
    simp only [clearModified, ne] at hc ⊢
    exact writes_lt hi em1 lt1 h2 e c hc
  · intro e c hc
    simp only [clearModified, ne, re] at hc ⊢
    exact lr1 e c hc
  · intro l hl
    simp only [clearModified, em, ow] at hl ⊢
    exact hi.owned l hl

/-- The component types are not registered anew. -/
def Plain (h : List (Op V)) : Prop := ∀ op ∈ h, ∀ k, op ≠ .context k

theorem exec_inv {E : Env} {w w' : World V} {op : Op V} (hi : Inv E w) (hp : ∀ k, op ≠ .context k)
    (h : exec E w op = some w') : Inv E w' ∧ w'.kind = w.kind := by
  cases op with
  | create es ow =>
    obtain ⟨h1, -, -, h2, -⟩ := create_spec hi h
    exact ⟨h1, h2⟩
  | destroy ms =>
    obtain ⟨w2, h1, h2, h3, -⟩ := destroy_spec ms hi
    simp only [exec, h1, Option.some.injEq] at h
    subst h
    exact ⟨h2, h3⟩
  | context k => exact absurd rfl (hp k)
  | extrapolate x =>
    simp only [exec] at h
    obtain ⟨⟨a, b⟩, h1, rfl⟩ := Option.map_eq_some_iff.1 h
    cases b with
    | none =>
      obtain rfl := extrapolate_aborted h1
      exact ⟨hi, rfl⟩
    | some r =>
      obtain ⟨h2, -, h3, -⟩ := extrapolate_inv hi h1
      exact ⟨h2, h3⟩

theorem foldlM_inv {E : Env} : ∀ {h : List (Op V)} {w w' : World V}, Inv E w → Plain h →
    h.foldlM (exec E) w = some w' → Inv E w' ∧ w'.kind = w.kind
  | [], w, w', hi, _, hr => by
    simp at hr
    subst hr
    exact ⟨hi, rfl⟩
  | op :: h, w, w', hi, hp, hr => by
    rw [foldlM_cons] at hr
    obtain ⟨w1, h1, h2⟩ := Option.bind_eq_some_iff.1 hr
    obtain ⟨i1, k1⟩ := exec_inv hi (hp op List.mem_cons_self) h1
    obtain ⟨i2, k2⟩ := foldlM_inv i1 (fun o ho => hp o (List.mem_cons_of_mem _ ho)) h2
    exact ⟨i2, k2.trans k1⟩

/-- **The result of an extrapolation.** After any history of messages, the result
holds the final value of exactly those components of known entities which were
replaced while the request was served, except for the inputs of owned entities.
No component is in it twice. -/
theorem result_exact {E : Env} {k : ℕ} {h : List (Op V)} {w w' w1 : World V} {x : Run V}
    {r : List (ℕ × ℕ × V)} (hp : Plain h) (hr : run E k h = some w)
    (hs : start E w x = some (some w1)) (hx : extrapolate E w x = some (w', some r)) :
    (∀ m c v, (m, c, v) ∈ r ↔ ∃ l, (m, l) ∈ w.emap ∧ c ∈ E.sets k ∧
      ¬ (l ∈ w.owned ∧ E.isInput c = true) ∧ x.Replaces w1 m l c ∧ w'.comp l c = some v) ∧
    (r.map fun o => (o.1, o.2.1)).Nodup ∧ r ≠ [] := by
  obtain ⟨hi, hk⟩ := foldlM_inv (Inv.init E k) hp hr
  have hk : w.kind = k := hk
  obtain ⟨w1', w2, h1, h2, h3⟩ := extrapolate_stages hx
  rw [hs] at h1
  obtain rfl := Option.some.inj (Option.some.inj h1)
  obtain ⟨em, ne, ki, ow, re, sm, ot, nd, tr⟩ := middle_track hi hs h2
  obtain ⟨rfl, hne, hm⟩ := finish_spec h3
  refine ⟨fun m c v => ?_, finish_nodup (by rw [em]; exact hi.keys) (by rw [em]; exact hi.vals) nd h3,
    hne⟩
  rw [hm]
  have hc : ∀ e, c ∈ (w2.mods w2.kind e).getD [] ↔ _ := fun e => tr e c
  simp only [hc, mainOf_iff (w := w2) (by rw [em]; exact hi.vals), em, ow, ne, hk]
  constructor
  · rintro ⟨e, h4, ⟨m', h5, h6, h7⟩, h8, h9, h10⟩
    obtain rfl := val_inj hi.vals h5 h10
    exact ⟨e, h5, h6, h8, h7, h9⟩
  · rintro ⟨l, h5, h6, h8, h7, h9⟩
    exact ⟨l, hi.lt _ h5, ⟨m, h5, h6, h7⟩, h8, h9, h5⟩

theorem given_none {x : Run V} {m c : ℕ} (h : m ∉ x.entities) : x.given m c = none := by
  unfold Run.given
  have hcell : ∀ (t : ℕ) (cells : List (ℕ × V)), cells.foldl (fun old cell =>
      if t = c ∧ x.entities[cell.1]? = some m then some cell.2 else old) none = none := by
    intro t cells
    induction cells with
    | nil => rfl
    | cons a l ih =>
      rw [List.foldl_cons, if_neg]
      · exact ih
      · rintro ⟨-, hm⟩
        exact h (List.mem_of_getElem? hm)
  generalize x.pools = pools
  induction pools with
  | nil => rfl
  | cons p l ih =>
    rw [List.foldl_cons, hcell]
    exact ih

/-- What the worker holds about an entity is what it was sent. -/
def Matches (E : Env) (h : List (Op V)) (w : World V) : Prop :=
  ∀ m l, (m, l) ∈ w.emap → ∀ c ∈ E.sets w.kind, E.isInput c = false →
    w.remote l c = sent m c h ∧ (w.comp l c).isSome = (sent m c h).isSome

theorem sent_snoc (m c : ℕ) (h : List (Op V)) (op : Op V) :
    sent m c (h ++ [op]) = learn m c (sent m c h) op := by
  simp [sent]

/-- The start of an extrapolation, value by value. -/
theorem start_values {E : Env} {h : List (Op V)} {w w1 : World V} {x : Run V} (hi : Inv E w)
    (hm : Matches E h w) (hf : Fine E w (.extrapolate x)) (hs : start E w x = some (some w1))
    {m l : ℕ} (hml : (m, l) ∈ w.emap) {c : ℕ} (hc : c ∈ E.sets w.kind) (hci : E.isInput c = false) :
    (l ∈ involved w x → w1.comp l c = sent m c (h ++ [.extrapolate x])) ∧
    w1.remote l c = sent m c (h ++ [.extrapolate x]) ∧
    (w1.comp l c).isSome = (sent m c (h ++ [.extrapolate x])).isSome := by
  obtain ⟨hk, wb, wc, hb, hcc, rfl⟩ := start_stages hs
  obtain ⟨hinv, htame⟩ := hf
  obtain ⟨hrem, hcomp⟩ := hm m l hml c hc hci
  have t1 := importRemote_track E w (involved w x)
  obtain ⟨t2, s2⟩ := importLatest_track hb
  obtain ⟨t3, s3, -⟩ := pools_track hcc
  have hloc : wb.localOf m = some l := by
    rw [t2.localOf, t1.1.localOf, localOf_iff hi.keys]
    exact hml
  have hinj : ∀ m', wb.localOf m' = some l → m' = m := by
    intro m' h
    rw [t2.localOf, t1.1.localOf, localOf_iff hi.keys] at h
    exact val_inj hi.vals h hml
  have hg := pools_given hcc hloc hinj c
  have hwb : wb.comp l c = (importRemote E w (involved w x)).comp l c := by
    refine s2 l c fun i hi heq => ?_
    rw [heq, htame.1 i hi] at hci
    cases hci
  have hkind : wc.kind = w.kind := (t3.kind.trans t2.kind).trans t1.1.kind
  have hremote : wc.remote = w.remote := (t3.remote.trans t2.remote).trans t1.1.remote
  have hval : l ∈ involved w x → wc.comp l c = sent m c (h ++ [.extrapolate x]) := by
    intro hl
    rw [hg, hwb, sent_snoc]
    simp only [learn]
    congr 1
    simp only [importRemote]
    split
    · exact hrem
    · rename_i hn
      cases hx : sent m c h with
      | none =>
        rw [hx] at hcomp
        simpa using hcomp
      | some v =>
        rw [hx] at hcomp hrem
        exact absurd ⟨hl, hc, hcomp, by rw [hrem]; rfl⟩ hn
  have hsome : (wc.comp l c).isSome = (sent m c (h ++ [.extrapolate x])).isSome := by
    rw [s3, hwb, t1.2, hcomp, sent_snoc]
    simp [learn]
  refine ⟨hval, ?_, hsome⟩
  simp only [exportRemote, hkind, hremote]
  by_cases hl : l ∈ x.entities.filterMap w.localOf
  · obtain ⟨m', hm', hl'⟩ := List.mem_filterMap.1 hl
    obtain ⟨l', hl'', hinv'⟩ := hinv m' hm'
    rw [hl'] at hl''
    obtain rfl := Option.some.inj hl''
    by_cases hcs : (wc.comp l c).isSome
    · rw [if_pos ⟨hl, hc, hcs⟩]
      exact hval hinv'
    · rw [if_neg fun h => hcs h.2.2, hrem]
      rw [hsome] at hcs
      have h2 : sent m c (h ++ [.extrapolate x]) = none := by simpa using hcs
      rw [h2]
      rw [sent_snoc] at h2
      simpa [learn] using h2
  · rw [if_neg fun h => hl h.1, hrem, sent_snoc]
    have hm' : m ∉ x.entities := by
      intro hm'
      exact hl (List.mem_filterMap.2 ⟨m, hm', (localOf_iff hi.keys m l).2 hml⟩)
    simp [learn, given_none hm']

theorem Orderly.matches {E : Env} {k : ℕ} {h : List (Op V)} {w : World V} (ho : Orderly E k h w) :
    Inv E w ∧ w.kind = k ∧ Matches E h w := by
  induction ho with
  | nil => exact ⟨Inv.init E k, rfl, by simp [Matches]⟩
  | @snoc h w op w' ho hf hx ih =>
    obtain ⟨hi, hk, hm⟩ := ih
    have hne : ∀ k, op ≠ .context k := by
      rintro k rfl
      exact hf
    obtain ⟨hi', hk'⟩ := exec_inv hi hne hx
    refine ⟨hi', hk'.trans hk, ?_⟩
    intro m l hml c hc hci
    rw [hk'] at hc
    rw [sent_snoc]
    cases op with
    | create es ow =>
      obtain ⟨-, nd, no, -, ex, sup, sub, val⟩ := create_spec hi hx
      obtain ⟨v1, v2⟩ := val m l hml c hc
      rw [v1, v2]
      simp only [learn]
      cases hfi : es.find? fun p => p.1 = m with
      | some p => exact ⟨rfl, rfl⟩
      | none =>
        have hmm : (m, l) ∈ w.emap := by
          rcases sup m l hml with h | ⟨h, -⟩
          · exact h
          · rw [List.find?_eq_none] at hfi
            obtain ⟨p, hp, hpm⟩ := List.mem_map.1 h
            exact absurd (decide_eq_true hpm) (hfi p hp)
        exact hm m l hmm c hc hci
    | destroy ms =>
      obtain ⟨w2, h1, h2, h3, h4, h5⟩ := destroy_spec ms hi
      simp only [exec, h1, Option.some.injEq] at hx
      subst hx
      obtain ⟨a, b⟩ := (h4 m l).1 hml
      obtain ⟨c1, c2, -⟩ := h5 m l hml
      rw [c1, c2]
      simp only [learn, b, if_false]
      exact hm m l a c hc hci
    | context k => exact absurd rfl (hne k)
    | extrapolate x =>
      simp only [exec] at hx
      obtain ⟨⟨a, b⟩, h1, rfl⟩ := Option.map_eq_some_iff.1 hx
      cases b with
      | none =>
        exfalso
        unfold extrapolate at h1
        obtain ⟨o, ho', h1⟩ := Option.bind_eq_some_iff.1 h1
        cases o with
        | some w1 =>
          simp only at h1
          obtain ⟨w2, h2, h1⟩ := Option.bind_eq_some_iff.1 h1
          obtain ⟨q, hq, h1⟩ := Option.map_eq_some_iff.1 h1
          simp at h1
        | none =>
          unfold start at ho'
          obtain ⟨o', ho'', h2⟩ := Option.bind_eq_some_iff.1 ho'
          cases o' with
          | some s =>
            simp only at h2
            obtain ⟨w2, h3, h2⟩ := Option.bind_eq_some_iff.1 h2
            obtain ⟨q, hq, h2⟩ := Option.map_eq_some_iff.1 h2
            cases h2
          | none =>
            have : ∀ (ms acc : List ℕ), (∀ m ∈ ms, ∃ l, w.localOf m = some l) →
                collect w ms acc ≠ some none := by
              intro ms
              induction ms with
              | nil => simp [collect]
              | cons m ms ih =>
                intro acc hkn
                obtain ⟨l, hl⟩ := hkn m List.mem_cons_self
                simp only [collect, hl]
                split
                · simp
                · exact ih _ fun m hm => hkn m (List.mem_cons_of_mem _ hm)
            exact this x.entities [] (fun m hm => (hf.1 m hm).imp fun _ h => h.1) ho''
      | some r =>
        obtain ⟨w1, w2, h3, h4, h5⟩ := extrapolate_stages h1
        obtain ⟨em, -⟩ := middle_track hi h3 h4
        obtain ⟨-, -, -, -, re, -⟩ := middle_track hi h3 h4
        obtain ⟨rfl, -, -⟩ := finish_spec h5
        simp only [clearModified, em] at hml
        obtain ⟨-, v1, v2⟩ := start_values hi hm hf h3 hml hc hci
        rw [sent_snoc] at v1 v2
        simp only [clearModified, re, v1, true_and]
        rw [(writes_track h4).2 l c, v2]
        intro v hv
        rw [hf.2.2 l c v hv] at hci
        cases hci

/-- **The initial state of an extrapolation.** In a history of messages without
disturbance, an extrapolation starts with the last value which the worker was
sent of every component (other than inputs) of every entity which takes part in
it. -/
theorem starts_from_last_sent_partial {E : Env} {k : ℕ} {h : List (Op V)} {w w1 : World V}
    {x : Run V} (ho : Orderly E k h w) (hf : Fine E w (.extrapolate x))
    (hs : start E w x = some (some w1)) {m l : ℕ} (hml : (m, l) ∈ w.emap)
    (hl : l ∈ involved w x) {c : ℕ} (hc : c ∈ E.sets k) (hci : E.isInput c = false) :
    w1.comp l c = sent m c (h ++ [.extrapolate x]) := by
  obtain ⟨hi, hk, hm⟩ := ho.matches
  exact (start_values hi hm hf hs hml (hk ▸ hc) hci).1 hl

/-- Entities which take no part in an extrapolation and are not in its snapshot
are left as the previous extrapolations left them, but for inputs. -/
theorem others_keep {E : Env} {k : ℕ} {h : List (Op V)} {w w1 : World V} {x : Run V}
    (hp : Plain h) (hr : run E k h = some w) (ht : x.Tame E) (hs : start E w x = some (some w1))
    {m l : ℕ} (hml : (m, l) ∈ w.emap) (hl : l ∉ involved w x) (hm : m ∉ x.entities) {c : ℕ}
    (hci : E.isInput c = false) : w1.comp l c = w.comp l c := by
  obtain ⟨hi, -⟩ := foldlM_inv (Inv.init E k) hp hr
  obtain ⟨hk, wb, wc, hb, hcc, rfl⟩ := start_stages hs
  have t1 := importRemote_track E w (involved w x)
  obtain ⟨t2, s2⟩ := importLatest_track hb
  have hloc : wb.localOf m = some l := by
    rw [t2.localOf, t1.1.localOf, localOf_iff hi.keys]
    exact hml
  have hinj : ∀ m', wb.localOf m' = some l → m' = m := by
    intro m' h
    rw [t2.localOf, t1.1.localOf, localOf_iff hi.keys] at h
    exact val_inj hi.vals h hml
  have hwb : wb.comp l c = (importRemote E w (involved w x)).comp l c := by
    refine s2 l c fun i hi heq => ?_
    rw [heq, ht.1 i hi] at hci
    cases hci
  have hg := pools_given hcc hloc hinj c
  simp only [exportRemote]
  rw [hg, hwb, given_none hm]
  simp [importRemote, hl]

end Edyn.Extra
