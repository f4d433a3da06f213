import Verif.Repl.Replay

/-!
# C18: what holds of every legal history, whatever the components refer to
-/

namespace Edyn.Repl.RegOps

open Edyn.EntityMap (Entity EMap)
open Edyn.Repl.Mapping (Good)

/-- The invariant without references. -/
structure Shape (types : List Nat) (s : Src) (g : Reg) (m : EMap) : Prop where
  good : Good m
  dom : ∀ e, e ∈ s.watched ↔ ∃ l, m.map.get? e = some l
  live : ∀ l, l ∈ g.live ↔ ∃ e, m.map.get? e = some l
  comps : ∀ e l ty, m.map.get? e = some l → (g.comps.get? (l, ty)).map Val.data =
    if ty ∈ types then (s.reg.comps.get? (e, ty)).map Val.data else none
  lt : ∀ e l, m.map.get? e = some l → l < g.next
  none : ∀ l ty, l ∉ g.live → g.comps.get? (l, ty) = none

theorem Shape.inj {types s g m} (h : Shape types s g m) {e e' l : Entity}
    (h1 : m.map.get? e = some l) (h2 : m.map.get? e' = some l) : e = e' := by
  have a := h.good.iff.2 h1
  have b := h.good.iff.2 h2
  rw [a] at b
  exact Option.some.inj b

theorem mapChild_data (b : Bool) (live : List Entity) (m : EMap) (v : Val) :
    (mapChild b live m v).data = v.data := rfl

/-- Executing a run of `emplace` operations of one entity. -/
theorem exec_emplaces_data (c : Cfg) (src : Reg) (m : EMap) (e l : Entity)
    (hm : m.map.get? e = some l) (tys : List Nat) : ∀ (g : Reg), l ∈ g.live →
    ∃ g', execAll c g m (tys.filterMap fun ty => (src.comps.get? (e, ty)).map fun v =>
        Op.emplace e ty v) = some (g', m) ∧ g'.live = g.live ∧ g'.next = g.next ∧
      (∀ l' ty, l' ≠ l → g'.comps.get? (l', ty) = g.comps.get? (l', ty)) ∧
      ∀ ty, (g'.comps.get? (l, ty)).map Val.data =
        if ty ∈ tys ∧ g.comps.get? (l, ty) = none then
          (src.comps.get? (e, ty)).map Val.data
        else (g.comps.get? (l, ty)).map Val.data := by
  induction tys with
  | nil => intro g _; exact ⟨g, rfl, rfl, rfl, fun _ _ _ => rfl, by simp⟩
  | cons ty tys ih =>
    intro g hl
    cases hv : src.comps.get? (e, ty) with
    | none =>
      obtain ⟨g', h1, h2, h3, h4, h5⟩ := ih g hl
      refine ⟨g', ?_, h2, h3, h4, ?_⟩
      · rw [List.filterMap_cons_none (by simp [hv])]; exact h1
      · intro t
        rw [h5]
        by_cases ht : t = ty
        · subst ht
          by_cases hg : g.comps.get? (l, t) = none
          · simp [hg, hv]
          · simp [hg]
        · simp [ht]
    | some v =>
      rw [List.filterMap_cons_some (b := Op.emplace e ty v) (by simp [hv])]
      by_cases hn : g.comps.get? (l, ty) = none
      · obtain ⟨g', h1, h2, h3, h4, h5⟩ := ih ⟨g.live, g.next,
          g.comps.set (l, ty) (mapChild c.through g.live m v)⟩ hl
        refine ⟨g', ?_, h2, h3, ?_, ?_⟩
        · simp only [execAll, exec, hm]
          rw [if_pos ⟨hl, hn⟩, Option.bind_some]
          exact h1
        · intro l' t hl'
          rw [h4 l' t hl']
          simp [AMap.get?_set, hl']
        · intro t
          rw [h5]
          simp only [AMap.get?_set, Prod.mk.injEq, List.mem_cons, true_and]
          by_cases ht : t = ty
          · subst ht; simp [hn, hv, mapChild_data]
          · simp [ht]
      · obtain ⟨g', h1, h2, h3, h4, h5⟩ := ih g hl
        refine ⟨g', ?_, h2, h3, h4, ?_⟩
        · simp only [execAll, exec, hm]
          rw [if_neg (fun h => hn h.2), Option.bind_some]
          exact h1
        · intro t
          rw [h5]
          by_cases ht : t = ty
          · subst ht; simp [hn]
          · simp [ht]

/-- Setting a component on both sides keeps the shape. -/
theorem Shape.set {types s g m} (h : Shape types s g m) {e l : Entity} {ty : Nat} {v w : Val}
    (hl : m.map.get? e = some l) (hty : ty ∈ types) (hd : w.data = v.data) :
    Shape types ⟨⟨s.reg.live, s.reg.next, s.reg.comps.set (e, ty) v⟩, s.watched⟩
      ⟨g.live, g.next, g.comps.set (l, ty) w⟩ m := by
  refine ⟨h.good, h.dom, h.live, ?_, h.lt, ?_⟩
  · intro e' l' t hl'
    simp only [AMap.get?_set, Prod.mk.injEq]
    by_cases hx : l' = l ∧ t = ty
    · obtain ⟨rfl, rfl⟩ := hx
      have := h.inj hl hl'
      subst this
      simp [hty, hd]
    · rw [if_neg hx, h.comps e' l' t hl']
      have : ¬ (e' = e ∧ t = ty) := by
        rintro ⟨rfl, rfl⟩
        rw [hl] at hl'; exact hx ⟨(Option.some.inj hl').symm, rfl⟩
      rw [if_neg this]
  · intro l' t hl'
    simp only [AMap.get?_set, Prod.mk.injEq]
    rw [if_neg, h.none l' t hl']
    rintro ⟨rfl, rfl⟩; exact hl' ((h.live l').2 ⟨e, hl⟩)

/-- A change in the source which the observer does not look at. -/
theorem Shape.ignore {types s g m} (h : Shape types s g m) {e : Entity} {ty : Nat}
    (comps : AMap (Entity × Nat) Val)
    (hc : ∀ a t, ¬ (a = e ∧ t = ty) → comps.get? (a, t) = s.reg.comps.get? (a, t))
    (hw : ¬ (e ∈ s.watched ∧ ty ∈ types)) :
    Shape types ⟨⟨s.reg.live, s.reg.next, comps⟩, s.watched⟩ g m := by
  refine ⟨h.good, h.dom, h.live, ?_, h.lt, h.none⟩
  intro e' l' t hl'
  rw [h.comps e' l' t hl']
  by_cases ht : t ∈ types
  · have : ¬ (e' = e ∧ t = ty) := by
      rintro ⟨rfl, rfl⟩; exact hw ⟨(h.dom e').2 ⟨l', hl'⟩, ht⟩
    simp only [hc e' t this]
  · simp [ht]

/-- One event. -/
theorem shape_step (c : Cfg) (types : List Nat)
    (hmerge : ∀ ty ∈ types, ∀ a b, (c.merge ty a b).data = b.data)
    {s s' : Src} {g : Reg} {m : EMap} {v : Ev}
    {ops : List Op} (h : Shape types s g m) (hr : record types s v = some (s', ops)) :
    ∃ g' m', execAll c g m ops = some (g', m') ∧ Shape types s' g' m' := by
  cases v with
  | spawn =>
    simp only [record, Option.some.injEq, Prod.mk.injEq] at hr
    obtain ⟨rfl, rfl⟩ := hr
    exact ⟨g, m, rfl, ⟨h.good, h.dom, h.live, h.comps, h.lt, h.none⟩⟩
  | kill e =>
    simp only [record] at hr
    split at hr
    case isFalse => simp at hr
    simp only [Option.some.injEq, Prod.mk.injEq] at hr
    obtain ⟨rfl, rfl⟩ := hr
    exact ⟨g, m, rfl, ⟨h.good, h.dom, h.live, h.comps, h.lt, h.none⟩⟩
  | emplace e ty v =>
    simp only [record] at hr
    split at hr
    case isFalse => simp at hr
    rename_i hpre
    simp only [Option.some.injEq, Prod.mk.injEq] at hr
    obtain ⟨rfl, rfl⟩ := hr
    by_cases hw : e ∈ s.watched ∧ ty ∈ types
    · rw [if_pos hw]
      obtain ⟨l, hl⟩ := (h.dom e).1 hw.1
      have hlive := (h.live l).2 ⟨e, hl⟩
      have hc0 : g.comps.get? (l, ty) = none := by
        have := h.comps e l ty hl
        rw [if_pos hw.2, hpre.2] at this
        simpa using this
      refine ⟨⟨g.live, g.next, g.comps.set (l, ty) (mapChild c.through g.live m v)⟩, m, ?_,
        h.set hl hw.2 rfl⟩
      simp only [execAll, exec, hl]
      rw [if_pos ⟨hlive, hc0⟩, Option.bind_some]
    · rw [if_neg hw]
      exact ⟨g, m, rfl, h.ignore _ (fun a t hat => by simp [AMap.get?_set, hat]) hw⟩
  | patch e ty v =>
    simp only [record] at hr
    split at hr
    case isFalse => simp at hr
    rename_i hpre
    simp only [Option.some.injEq, Prod.mk.injEq] at hr
    obtain ⟨rfl, rfl⟩ := hr
    by_cases hw : e ∈ s.watched ∧ ty ∈ types
    · rw [if_pos hw]
      obtain ⟨l, hl⟩ := (h.dom e).1 hw.1
      have hlive := (h.live l).2 ⟨e, hl⟩
      obtain ⟨old, hold⟩ := Option.isSome_iff_exists.1 hpre
      have hc0 : ∃ w, g.comps.get? (l, ty) = some w := by
        have := h.comps e l ty hl
        rw [if_pos hw.2, hold, Option.map_some, Option.map_eq_some_iff] at this
        obtain ⟨w, hw', _⟩ := this
        exact ⟨w, hw'⟩
      obtain ⟨w, hc0⟩ := hc0
      refine ⟨⟨g.live, g.next, g.comps.set (l, ty)
        (c.merge ty w (mapChild c.through g.live m v))⟩, m, ?_,
        h.set hl hw.2 (hmerge ty hw.2 _ _)⟩
      simp only [execAll, exec, hl, hc0]
      rw [if_pos hlive, Option.bind_some]
    · rw [if_neg hw]
      exact ⟨g, m, rfl, h.ignore _ (fun a t hat => by simp [AMap.get?_set, hat]) hw⟩
  | erase e ty =>
    simp only [record] at hr
    split at hr
    case isFalse => simp at hr
    rename_i hpre
    simp only [Option.some.injEq, Prod.mk.injEq] at hr
    obtain ⟨rfl, rfl⟩ := hr
    by_cases hw : e ∈ s.watched ∧ ty ∈ types
    · rw [if_pos hw]
      obtain ⟨l, hl⟩ := (h.dom e).1 hw.1
      have hlive := (h.live l).2 ⟨e, hl⟩
      refine ⟨⟨g.live, g.next, g.comps.erase (l, ty)⟩, m, ?_, ?_⟩
      · simp only [execAll, exec, hl]
        rw [if_pos hlive, Option.bind_some]
      · refine ⟨h.good, h.dom, h.live, ?_, h.lt, ?_⟩
        · intro e' l' t hl'
          simp only [AMap.get?_erase, Prod.mk.injEq]
          by_cases hx : l' = l ∧ t = ty
          · obtain ⟨rfl, rfl⟩ := hx
            have := h.inj hl hl'
            subst this
            simp
          · rw [if_neg hx, h.comps e' l' t hl']
            have : ¬ (e' = e ∧ t = ty) := by
              rintro ⟨rfl, rfl⟩
              rw [hl] at hl'; exact hx ⟨(Option.some.inj hl').symm, rfl⟩
            rw [if_neg this]
        · intro l' t hl'
          simp only [AMap.get?_erase, h.none l' t hl', ite_self]
    · rw [if_neg hw]
      exact ⟨g, m, rfl, h.ignore _ (fun a t hat => by simp [AMap.get?_erase, hat]) hw⟩
  | again e ty =>
    simp only [record] at hr
    cases hc : s.reg.comps.get? (e, ty) with
    | none => rw [hc] at hr; simp at hr
    | some v =>
      rw [hc] at hr
      simp only [Option.some.injEq, Prod.mk.injEq] at hr
      obtain ⟨rfl, rfl⟩ := hr
      refine ⟨g, m, ?_, h⟩
      by_cases hw : e ∈ s.watched ∧ ty ∈ types
      · rw [if_pos hw]
        obtain ⟨l, hl⟩ := (h.dom e).1 hw.1
        have hc0 : g.comps.get? (l, ty) ≠ none := by
          intro hn
          have := h.comps e l ty hl
          rw [if_pos hw.2, hc, hn] at this
          simp at this
        simp [execAll, exec, hl, hc0]
      · rw [if_neg hw]; rfl
  | unobserve e =>
    simp only [record] at hr
    split at hr
    case isFalse => simp at hr
    rename_i hw
    simp only [Option.some.injEq, Prod.mk.injEq] at hr
    obtain ⟨rfl, rfl⟩ := hr
    obtain ⟨l, hml⟩ := (h.dom e).1 hw
    have hlive := (h.live l).2 ⟨e, hml⟩
    obtain ⟨m', h1, h2, h3⟩ := h.good.erase hml
    refine ⟨⟨g.live.filter (fun x => decide (x ≠ l)), g.next,
          ⟨g.comps.entries.filter fun p => decide (p.1.1 ≠ l)⟩⟩, m', ?_, ?_⟩
    · simp only [execAll, exec, hml, h1, Option.map_some]
      rw [if_pos hlive, Option.bind_some]
    · have hget : ∀ l' t, (⟨g.comps.entries.filter fun p => decide (p.1.1 ≠ l)⟩ :
          AMap (Entity × Nat) Val).get? (l', t) = if l' = l then none else g.comps.get? (l', t) :=
        drop_get? g.comps l
      refine ⟨h2, ?_, ?_, ?_, ?_, ?_⟩
      · intro a
        simp only [List.mem_filter, decide_eq_true_eq, h.dom, h3]
        constructor
        · rintro ⟨⟨b, hb⟩, hne⟩; exact ⟨b, hb, hne⟩
        · rintro ⟨b, hb, hne⟩; exact ⟨⟨b, hb⟩, hne⟩
      · intro l'
        simp only [List.mem_filter, decide_eq_true_eq, h.live, h3]
        constructor
        · rintro ⟨⟨a, ha⟩, hne⟩
          refine ⟨a, ha, ?_⟩
          rintro rfl; rw [hml] at ha; exact hne (Option.some.inj ha).symm
        · rintro ⟨a, ha, hne⟩
          refine ⟨⟨a, ha⟩, ?_⟩
          rintro rfl; exact hne (h.inj ha hml)
      · intro a b t hb
        rw [h3] at hb
        rw [hget, if_neg, h.comps a b t hb.1]
        rintro rfl; exact hb.2 (h.inj hb.1 hml)
      · intro a b hb
        exact h.lt a b ((h3 a b).1 hb).1
      · intro l' t hl'
        simp only [List.mem_filter, decide_eq_true_eq, not_and, Classical.not_not] at hl'
        rw [hget]
        by_cases hx : l' = l
        · simp [hx]
        · rw [if_neg hx]
          exact h.none l' t fun hm => hx (hl' hm)
  | observe e =>
    simp only [record] at hr
    split at hr
    case isFalse => simp at hr
    rename_i hpre
    simp only [Option.some.injEq, Prod.mk.injEq] at hr
    obtain ⟨rfl, rfl⟩ := hr
    have hme : m.map.get? e = none := by
      cases hx : m.map.get? e with
      | none => rfl
      | some l => exact absurd ((h.dom e).2 ⟨l, hx⟩) hpre.2
    have hnext : ∀ a, m.map.get? a ≠ some g.next := fun a ha => Nat.lt_irrefl _ (h.lt a _ ha)
    obtain ⟨m', h1, h2, h3⟩ := h.good.insert hme hnext
    have hnl : g.next ∉ g.live := fun hin => by
      obtain ⟨a, ha⟩ := (h.live _).1 hin
      exact hnext a ha
    have hm'e : m'.map.get? e = some g.next := (h3 _ _).2 (Or.inl ⟨rfl, rfl⟩)
    obtain ⟨g', k1, k2, k3, k4, k5⟩ := exec_emplaces_data c s.reg m' e g.next hm'e types
      ⟨g.live ++ [g.next], g.next + 1, g.comps⟩ (by simp)
    have hcont : m.map.contains e = false := by simp [AMap.contains, hme]
    refine ⟨g', m', ?_, ⟨h2, ?_, ?_, ?_, ?_, ?_⟩⟩
    · simp only [execAll, exec, emplaceAll, hcont, h1, Option.map_some, Option.bind_some]
      exact k1
    · intro a
      simp only [List.mem_cons, h.dom, h3]
      constructor
      · rintro (rfl | ⟨l, hl⟩)
        · exact ⟨g.next, Or.inl ⟨rfl, rfl⟩⟩
        · exact ⟨l, Or.inr hl⟩
      · rintro ⟨l, ⟨rfl, _⟩ | hl⟩
        · exact Or.inl rfl
        · exact Or.inr ⟨l, hl⟩
    · intro l
      rw [k2]
      simp only [List.mem_append, List.mem_singleton, h.live, h3]
      constructor
      · rintro (⟨x, hx⟩ | rfl)
        · exact ⟨x, Or.inr hx⟩
        · exact ⟨e, Or.inl ⟨rfl, rfl⟩⟩
      · rintro ⟨x, ⟨_, rfl⟩ | hx⟩
        · exact Or.inr rfl
        · exact Or.inl ⟨x, hx⟩
    · intro a b t hb
      rcases (h3 a b).1 hb with ⟨rfl, rfl⟩ | hb'
      · rw [k5]
        have hz : g.comps.get? (g.next, t) = none := h.none _ _ hnl
        simp [hz]
      · rw [k4 b t (Nat.ne_of_lt (h.lt a b hb'))]
        exact h.comps a b t hb'
    · intro a l ha
      rw [k3]
      rcases (h3 a l).1 ha with ⟨rfl, rfl⟩ | hb'
      · exact Nat.lt_succ_self _
      · exact Nat.lt_succ_of_lt (h.lt a l hb')
    · intro l t hl
      rw [k2] at hl
      simp only [List.mem_append, List.mem_singleton, not_or] at hl
      rw [k4 l t hl.2]
      exact h.none l t hl.1

theorem shape_all (c : Cfg) (types : List Nat)
    (hmerge : ∀ ty ∈ types, ∀ a b, (c.merge ty a b).data = b.data)
    (evs : List Ev) : ∀ {s s' : Src} {g : Reg} {m : EMap} {ops : List Op}, Shape types s g m →
    recordAll types s evs = some (s', ops) →
    ∃ g' m', execAll c g m ops = some (g', m') ∧ Shape types s' g' m' := by
  induction evs with
  | nil =>
    intro s s' g m ops h hr
    simp only [recordAll, Option.some.injEq, Prod.mk.injEq] at hr
    obtain ⟨rfl, rfl⟩ := hr
    exact ⟨g, m, rfl, h⟩
  | cons v vs ih =>
    intro s s' g m ops h hr
    simp only [recordAll, Option.bind_eq_some_iff, Option.map_eq_some_iff] at hr
    obtain ⟨⟨s1, o1⟩, hr1, ⟨s2, o2⟩, hr2, heq⟩ := hr
    simp only [Prod.mk.injEq] at heq
    obtain ⟨rfl, rfl⟩ := heq
    obtain ⟨g1, m1, k1, k2⟩ := shape_step c types hmerge h hr1
    obtain ⟨g2, m2, k3, k4⟩ := ih k2 hr2
    refine ⟨g2, m2, ?_, k4⟩
    rw [execAll_append, k1, Option.bind_some]
    exact k3

/-- Nothing in a mapped component, maps aside, refers to an entity which is not valid. -/
theorem mapChild_valid (b : Bool) (live : List Entity) (m : EMap) (v : Val) (e : Entity)
    (h : some e ∈ (mapChild b live m v).refs ∨ (∃ a ∈ (mapChild b live m v).arrays, some e ∈ a) ∨
      ∃ a ∈ (mapChild b live m v).seqs, some e ∈ a) : e ∈ live := by
  have hv : ∀ a : List (Option Entity), some e ∈ a.map (validRef live) → e ∈ live := by
    intro a ha
    obtain ⟨r, _, hr⟩ := List.mem_map.1 ha
    cases r with
    | none => simp [validRef] at hr
    | some x =>
      simp only [validRef, Option.bind_some] at hr
      split at hr
      · cases hr; assumption
      · cases hr
  have hf : ∀ a : List (Option Entity), some e ∈ compactFixed b a → some e ∈ a := by
    intro a ha
    cases b with
    | false => simpa [compactFixed] using ha
    | true =>
      simp only [compactFixed, if_true, List.mem_append, List.mem_filter] at ha
      rcases ha with ha | ha
      · exact ha.1
      · exact List.mem_of_mem_drop ha
  have hd : ∀ a : List (Option Entity), some e ∈ compactDyn b a → some e ∈ a := by
    intro a ha
    cases b with
    | false => exact List.mem_of_mem_take (by simpa [compactDyn] using ha)
    | true =>
      simp only [compactDyn, if_true, List.mem_filter] at ha
      exact ha.1
  rcases h with h | ⟨a, ha, h⟩ | ⟨a, ha, h⟩
  · exact hv _ h
  · obtain ⟨a', _, rfl⟩ := List.mem_map.1 ha
    exact hv _ (hf _ h)
  · obtain ⟨a', _, rfl⟩ := List.mem_map.1 ha
    exact hv _ (hd _ h)

end Edyn.Repl.RegOps
