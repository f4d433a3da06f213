import Verif.Extra.Main

/-!
# Extrapolations do not fail: theorems
-/

namespace Edyn.Extra

variable {V : Type}

/-- The array of indices of modified components is never full when a new one
is recorded. -/
def Bounded (E : Env) (w : World V) : Prop :=
  ∀ e, (tracked w e).Nodup ∧ ∀ c ∈ tracked w e, c ∈ E.sets w.kind

theorem Track.bounded {E : Env} {w w' : World V} {S : ℕ → ℕ → Prop} (t : Track E w w' S)
    (h : Bounded E w) : Bounded E w' := by
  intro e
  refine ⟨t.nodup e (h e).1, fun c hc => ?_⟩
  rw [t.kind]
  rcases (t.mem e c).1 hc with hc | hc
  · exact (h e).2 c hc
  · exact hc.2.1

theorem onUpdate_total {E : Env} {w : World V} (hb : Bounded E w) (e : ℕ) {c : ℕ}
    (hc : c ∈ E.sets w.kind) : ∃ w', onUpdate E w e c = some w' := by
  unfold onUpdate
  cases hm : w.mods w.kind e with
  | none => exact ⟨_, rfl⟩
  | some l =>
    simp only
    split
    · exact ⟨_, rfl⟩
    · rename_i hl
      obtain ⟨hn, hs⟩ := hb e
      simp only [tracked, hm, Option.getD_some] at hn hs
      have hn' : (c :: l).Nodup := List.nodup_cons.2 ⟨hl, hn⟩
      have hs' : c :: l ⊆ E.sets w.kind := by
        intro a ha
        rcases List.mem_cons.1 ha with rfl | ha
        · exact hc
        · exact hs a ha
      have := (List.subperm_of_subset hn' hs').length_le
      rw [List.length_cons] at this
      rw [if_pos (by omega)]
      exact ⟨_, rfl⟩

theorem patch_total {E : Env} {w : World V} (hb : Bounded E w) (b : Bool) {e c : ℕ}
    (h : (w.comp e c).isSome) (v : V) : ∃ w', patch E b w e c v = some w' := by
  unfold patch
  have h0 : ¬ (w.comp e c).isNone = true := by
    cases hx : w.comp e c
    · simp [hx] at h
    · simp
  rw [if_neg h0]
  split
  · rename_i hc
    simp only [Bool.and_eq_true, decide_eq_true_eq] at hc
    exact onUpdate_total (w := w.setComp e c v) hb e hc.2
  · exact ⟨_, rfl⟩

theorem replaceCell_total {E : Env} {w : World V} (hb : Bounded E w) {es : List ℕ} (c : ℕ)
    {cell : ℕ × V} (h : cell.1 < es.length) : ∃ w', replaceCell E es c w cell = some w' := by
  unfold replaceCell
  rw [List.getElem?_eq_getElem h]
  simp only
  cases w.localOf es[cell.1] with
  | none => exact ⟨_, rfl⟩
  | some l =>
    simp only
    split
    · rename_i hs
      exact patch_total hb true hs _
    · exact ⟨_, rfl⟩

theorem replaceInto_total {E : Env} {es : List ℕ} {c : ℕ} : ∀ {cells : List (ℕ × V)} {w : World V},
    Bounded E w → (∀ cell ∈ cells, cell.1 < es.length) →
    ∃ w', cells.foldlM (replaceCell E es c) w = some w' ∧ Bounded E w'
  | [], w, hb, _ => ⟨w, rfl, hb⟩
  | cell :: cells, w, hb, h => by
    obtain ⟨w1, h1⟩ := replaceCell_total hb c (h cell List.mem_cons_self)
    obtain ⟨w2, h2, hb2⟩ := replaceInto_total (c := c) ((replaceCell_track h1).1.bounded hb)
      fun a ha => h a (List.mem_cons_of_mem _ ha)
    exact ⟨w2, by rw [foldlM_cons, h1]; exact h2, hb2⟩

theorem pools_total {E : Env} {es : List ℕ} : ∀ {pools : List (Pool V)} {w : World V},
    Bounded E w → (∀ p ∈ pools, ∀ cell ∈ p.cells, cell.1 < es.length) →
    ∃ w', pools.foldlM (replaceInto E es) w = some w' ∧ Bounded E w'
  | [], w, hb, _ => ⟨w, rfl, hb⟩
  | p :: pools, w, hb, h => by
    obtain ⟨w1, h1, hb1⟩ := replaceInto_total (c := p.type) hb (h p List.mem_cons_self)
    obtain ⟨w2, h2, hb2⟩ := pools_total hb1 fun a ha => h a (List.mem_cons_of_mem _ ha)
    refine ⟨w2, ?_, hb2⟩
    rw [foldlM_cons, show replaceInto E es w p = some w1 from h1]
    exact h2

theorem importInput_total {E : Env} {w : World V} (hb : Bounded E w) (i : ℕ × ℕ × V) :
    ∃ w', importInput E w i = some w' := by
  unfold importInput
  cases w.localOf i.1 with
  | none => exact ⟨_, rfl⟩
  | some l =>
    simp only
    split
    · rename_i hs
      exact patch_total hb false hs _
    · exact ⟨_, rfl⟩

theorem importLatest_total {E : Env} : ∀ (is : List (ℕ × ℕ × V)) {w : World V},
    Bounded E w → ∃ w', is.foldlM (importInput E) w = some w' ∧ Bounded E w'
  | [], w, hb => ⟨w, rfl, hb⟩
  | i :: is, w, hb => by
    obtain ⟨w1, h1⟩ := importInput_total hb i
    obtain ⟨w2, h2, hb2⟩ := importLatest_total is ((importInput_track h1).1.bounded hb)
    exact ⟨w2, by rw [foldlM_cons, h1]; exact h2, hb2⟩

/-- A write to a component which exists. -/
def Write.Ok (w : World V) : Write V → Prop
  | .raw e c _ => (w.comp e c).isSome
  | .patch e c _ => (w.comp e c).isSome
  | .emplace _ _ _ => False

theorem writes_total {E : Env} : ∀ (as : List (Write V)) {w : World V}, Bounded E w →
    (∀ a ∈ as, a.Ok w) → ∃ w', as.foldlM (Write.apply E) w = some w' ∧ Bounded E w'
  | [], w, hb, _ => ⟨w, rfl, hb⟩
  | a :: as, w, hb, h => by
    have ha := h a List.mem_cons_self
    obtain ⟨w1, h1⟩ : ∃ w1, a.apply E w = some w1 := by
      cases a with
      | raw e c v =>
        simp only [Write.apply]
        have ha' : (w.comp e c).isSome := ha
        rw [if_pos ha']
        exact ⟨_, rfl⟩
      | patch e c v => exact patch_total hb true ha v
      | emplace e c v => exact absurd ha id
    have t := (write_track h1).1
    obtain ⟨w2, h2, hb2⟩ := writes_total as (t.bounded hb) fun a' ha' => by
      have := h a' (List.mem_cons_of_mem _ ha')
      cases a' with
      | raw e c v => exact t.has e c this
      | patch e c v => exact t.has e c this
      | emplace e c v => exact this
    exact ⟨w2, by rw [foldlM_cons, h1]; exact h2, hb2⟩

theorem collect_total {E : Env} {w : World V} (hi : Inv E w) : ∀ {ms acc : List ℕ}, ms.Nodup →
    (∀ m ∈ ms, ∀ l ∈ acc, (m, l) ∉ w.emap) →
    ((∃ m ∈ ms, ∀ l, (m, l) ∉ w.emap) → collect w ms acc = some none) ∧
    ((∀ m ∈ ms, ∃ l, (m, l) ∈ w.emap) → ∃ s, collect w ms acc = some (some s))
  | [], acc, _, _ => ⟨by simp, fun _ => ⟨acc, rfl⟩⟩
  | m :: ms, acc, hn, ha => by
    rw [List.nodup_cons] at hn
    cases hl : w.localOf m with
    | none =>
      have hno : ∀ l, (m, l) ∉ w.emap := by
        intro l h
        rw [(localOf_iff hi.keys m l).2 h] at hl
        cases hl
      refine ⟨fun _ => by simp [collect, hl], fun h => ?_⟩
      obtain ⟨l, h⟩ := h m List.mem_cons_self
      exact absurd h (hno l)
    | some l =>
      have hml := (localOf_iff hi.keys m l).1 hl
      have hla : l ∉ acc := fun h => ha m List.mem_cons_self l h hml
      obtain ⟨h1, h2⟩ := collect_total hi (ms := ms) (acc := acc ++ [l]) hn.2 (by
        intro m' hm' l' hl' hmm
        rcases List.mem_append.1 hl' with h | h
        · exact ha m' (List.mem_cons_of_mem _ hm') l' h hmm
        · rw [List.mem_singleton.1 h] at hmm
          exact hn.1 (val_inj hi.vals hmm hml ▸ hm'))
      simp only [collect, hl, hla, if_false]
      refine ⟨?_, fun h => h2 fun m' hm' => h m' (List.mem_cons_of_mem _ hm')⟩
      rintro ⟨m', hm', hno⟩
      rcases List.mem_cons.1 hm' with rfl | hm'
      · exact absurd hml (hno l)
      · exact h1 ⟨m', hm', hno⟩

theorem mapM_total {α β : Type} {f : α → Option β} : ∀ {l : List α},
    (∀ a ∈ l, ∃ b, f a = some b) → ∃ r, l.mapM f = some r
  | [], _ => ⟨[], by simp⟩
  | a :: l, h => by
    obtain ⟨b, hb⟩ := h a List.mem_cons_self
    obtain ⟨r, hr⟩ := mapM_total fun a' ha' => h a' (List.mem_cons_of_mem _ ha')
    exact ⟨b :: r, by simp [List.mapM_cons, hb, hr]⟩

/-- **Extrapolations do not fail.** After any history of messages, a request
whose snapshot names no entity twice and refers to its own entities, and during
which only existing components are written, is aborted if an entity is unknown,
and otherwise gives a result, provided that there is anything to report. In
particular the array of modified components never overflows. -/
theorem extrapolate_total {E : Env} {k : ℕ} {h : List (Op V)} {w : World V} {x : Run V}
    (hp : Plain h) (hr : run E k h = some w) (hn : x.entities.Nodup)
    (hidx : ∀ p ∈ x.pools, ∀ cell ∈ p.cells, cell.1 < x.entities.length)
    (hw : ∀ a ∈ x.writes, a.Ok w) :
    ((∃ m ∈ x.entities, ∀ l, (m, l) ∉ w.emap) → extrapolate E w x = some (w, none)) ∧
    ((∀ m ∈ x.entities, ∃ l, (m, l) ∈ w.emap) →
      (∃ m l c, (m, l) ∈ w.emap ∧ c ∈ E.sets k ∧ ¬ (l ∈ w.owned ∧ E.isInput c = true) ∧
        x.Replaces w m l c) →
      ∃ w' r, extrapolate E w x = some (w', some r)) := by
  obtain ⟨hi, hk⟩ := foldlM_inv (Inv.init E k) hp hr
  have hk : w.kind = k := hk
  obtain ⟨c1, c2⟩ := collect_total hi (acc := []) hn (by simp)
  constructor
  · intro hu
    simp [extrapolate, start, c1 hu]
  · intro hkn hrep
    obtain ⟨s, hs⟩ := c2 hkn
    have hb0 : Bounded E w := by
      intro e
      have : tracked w e = [] := by
        unfold tracked
        cases hx : w.mods w.kind e with
        | none => rfl
        | some l => exact (hi.mods _ _ _ hx).1
      simp [this]
    have hsnap := (collect_spec hs).1
    rw [List.nil_append] at hsnap
    subst hsnap
    have t1 := importRemote_track E w (involved w x)
    obtain ⟨wb, hb, bb⟩ := importLatest_total x.latest (t1.1.bounded hb0)
    obtain ⟨wc, hc, bc⟩ := pools_total bb hidx
    have hstart : start E w x = some (some (exportRemote E wc (x.entities.filterMap w.localOf))) := by
      unfold start
      rw [hs]
      simp only [Option.bind_some]
      have hb' : List.foldlM (importInput E) (importRemote E w
          (x.reach (List.filter x.connecting (List.filterMap w.localOf x.entities)))) x.latest =
          some wb := hb
      rw [hb', Option.bind_some, hc, Option.map_some]
    obtain ⟨wc', hwc', t⟩ := start_track hi hstart
    set w1 := exportRemote E wc (x.entities.filterMap w.localOf) with hw1
    have hhas : ∀ e c, (w.comp e c).isSome → (w1.comp e c).isSome := by
      intro e c h
      rw [hwc']
      exact t.has e c h
    have hok : ∀ a ∈ x.writes, a.Ok w1 := by
      intro a ha
      have := hw a ha
      cases a with
      | raw e c v => exact hhas e c this
      | patch e c v => exact hhas e c this
      | emplace e c v => exact this
    obtain ⟨w2, h2, b2⟩ := writes_total x.writes (w := w1) bc hok
    obtain ⟨em, ne, ki, ow, re, sm, ot, nd, tr⟩ := middle_track hi hstart h2
    have t2 := (writes_track h2).1
    have hcomp : ∀ e c, c ∈ tracked w2 e → (w2.comp e c).isSome := by
      intro e c hc
      obtain ⟨m, hm, -, hrp⟩ := (tr e c).1 hc
      rcases hrp with ⟨-, h⟩ | ⟨v, hv⟩
      · exact t2.has e c h
      · exact t2.has e c (hok _ hv)
    obtain ⟨oss, hoss⟩ : ∃ oss, (List.range w2.next).mapM (opsOf E w2) = some oss := by
      refine mapM_total fun e _ => ?_
      unfold opsOf
      cases hm : w2.mods w2.kind e with
      | none => exact ⟨_, rfl⟩
      | some l =>
        simp only
        refine mapM_total fun c hc => ?_
        have hcl : c ∈ tracked w2 e := by
          simp only [tracked, hm, Option.getD_some]
          exact (List.mem_filter.1 hc).1
        obtain ⟨v, hv⟩ := Option.isSome_iff_exists.1 (hcomp e c hcl)
        obtain ⟨m, hme, -⟩ := (tr e c).1 hcl
        have : w2.mainOf e = some m := by
          rw [mainOf_iff (by rw [em]; exact hi.vals), em]
          exact hme
        rw [hv, this]
        exact ⟨_, rfl⟩
    obtain ⟨m, l, c, hml, hcs, hno, hrp⟩ := hrep
    have hcl : c ∈ tracked w2 l := by
      refine (tr l c).2 ⟨m, hml, hk ▸ hcs, ?_⟩
      rcases hrp with ⟨h3, h4⟩ | h3
      · exact .inl ⟨h3, hhas l c h4⟩
      · exact .inr h3
    obtain ⟨v, hv⟩ := Option.isSome_iff_exists.1 (hcomp l c hcl)
    have hmain : w2.mainOf l = some m := by
      rw [mainOf_iff (by rw [em]; exact hi.vals), em]
      exact hml
    have hne : ¬ oss.flatten.isEmpty = true := by
      intro hem
      rw [List.isEmpty_iff] at hem
      have hlr : l ∈ List.range w2.next := by
        rw [List.mem_range, ne]
        exact hi.lt _ hml
      have hex : ∃ os ∈ oss, opsOf E w2 l = some os := by
        have key : ∀ {L : List ℕ} {r : List (List (ℕ × ℕ × V))}, L.mapM (opsOf E w2) = some r →
            ∀ a ∈ L, ∃ b ∈ r, opsOf E w2 a = some b := by
          intro L
          induction L with
          | nil => simp
          | cons a L ih =>
            intro r hr a' ha'
            rw [List.mapM_cons] at hr
            obtain ⟨b0, h0, hr⟩ := Option.bind_eq_some_iff.1 hr
            obtain ⟨bs, h1, hr⟩ := Option.bind_eq_some_iff.1 hr
            obtain rfl := Option.some.inj hr
            rcases List.mem_cons.1 ha' with rfl | ha'
            · exact ⟨b0, List.mem_cons_self, h0⟩
            · obtain ⟨b, hb, hab⟩ := ih h1 a' ha'
              exact ⟨b, List.mem_cons_of_mem _ hb, hab⟩
        exact key hoss l hlr
      obtain ⟨os, hos, hol⟩ := hex
      have hmem := (mem_opsOf hol m c v).2 ⟨hcl, by rw [ow]; exact hno, hv, hmain⟩
      have : (m, c, v) ∈ oss.flatten := List.mem_flatten.2 ⟨os, hos, hmem⟩
      rw [hem] at this
      cases this
    refine ⟨clearModified w2, oss.flatten, ?_⟩
    unfold extrapolate
    rw [hstart]
    simp only [Option.bind_some]
    rw [h2]
    simp only [Option.bind_some, finish, hoss, hne]
    simp

/-- **Destroying entities does not fail**, and exactly the named ones are
forgotten. -/
theorem destroy_total {E : Env} {k : ℕ} {h : List (Op V)} {w : World V}
    (hp : Plain h) (hr : run E k h = some w) (ms : List ℕ) :
    ∃ w', exec E w (.destroy ms) = some w' ∧
      ∀ m l, (m, l) ∈ w'.emap ↔ (m, l) ∈ w.emap ∧ m ∉ ms := by
  obtain ⟨hi, -⟩ := foldlM_inv (Inv.init E k) hp hr
  obtain ⟨w', h1, -, -, h2, -⟩ := destroy_spec ms hi
  exact ⟨w', h1, h2⟩

end Edyn.Extra
