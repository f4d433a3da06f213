import Verif.Repl.RegOps
import Mathlib.Tactic.Tauto

/-!
# C18: replaying a registry operation stream reproduces the source registry
-/

namespace Edyn.Repl.RegOps

open Edyn.EntityMap (Entity EMap)
open Edyn.Repl.Mapping (Good)

/-! ## Specification -/

/-- The value with every entity replaced by its counterpart. -/
def Val.rename (f : Entity → Option Entity) (v : Val) : Val where
  data := v.data
  refs := v.refs.map (·.bind f)
  arrays := v.arrays.map (·.map (·.bind f))
  seqs := v.seqs.map (·.map (·.bind f))
  assoc := v.assoc.map (·.map fun p => (p.1, p.2.bind f))

/-- The entities a value names. -/
def Val.names (v : Val) (e : Entity) : Prop :=
  some e ∈ v.refs ∨ (∃ a ∈ v.arrays, some e ∈ a) ∨ (∃ a ∈ v.seqs, some e ∈ a) ∨
    ∃ a ∈ v.assoc, ∃ k, (k, some e) ∈ a

/-- Nulls occur only at the end of arrays, and not at all in containers and maps. -/
def Val.Tight (v : Val) : Prop :=
  (∀ a ∈ v.arrays, ∃ (es : List Entity) (n : Nat), a = es.map some ++ List.replicate n none) ∧
  (∀ a ∈ v.seqs, none ∉ a) ∧ ∀ a ∈ v.assoc, ∀ k, (k, none) ∉ a

/-- The value carried by an operation. -/
def Op.value : Op → Option Val
  | .emplace _ _ v => some v
  | .replace _ _ v => some v
  | _ => none

/-- An entity observed by an event. -/
def Ev.observed : Ev → List Entity
  | .observe e => [e]
  | _ => []

/-- A history in which every recorded value names only entities which are watched by then, and no
entity is observed a second time. -/
def Tidy (types : List Nat) (s : Src) (seen : List Entity) : List Ev → Prop
  | [] => True
  | v :: vs =>
    match record types s v with
    | none => True
    | some (s', ops) =>
      (∀ o ∈ ops, ∀ val, o.value = some val → val.Tight ∧ ∀ e, val.names e → e ∈ s'.watched) ∧
      (∀ e ∈ v.observed, e ∉ seen) ∧ Tidy types s' (v.observed ++ seen) vs

/-- The destination mirrors the source under the correspondence `f`: exactly the watched entities
are mapped, exactly their images are valid, and each image carries exactly the shared components of
its original, entities replaced by their counterparts. -/
def Mirrors (types : List Nat) (s : Src) (g : Reg) (m : EMap) (f : Entity → Option Entity) : Prop :=
  (∀ e l, EntityMap.at? m e = some l ↔ e ∈ s.watched ∧ f e = some l) ∧
  (∀ l, l ∈ g.live ↔ ∃ e ∈ s.watched, f e = some l) ∧
  (∀ e l ty, e ∈ s.watched → f e = some l →
    g.comps.get? (l, ty) =
      if ty ∈ types then (s.reg.comps.get? (e, ty)).map (Val.rename f) else none) ∧
  (∀ e ∈ s.watched, (f e).isSome) ∧
  (∀ e e' l, f e = some l → f e' = some l → e = e')

/-- The full claim: for every legal history. Refuted below. -/
def ReplayFull : Prop := ∀ (c : Cfg) (types : List Nat) (n k : Nat) (evs : List Ev) (s : Src)
  (ops : List Op), (∀ ty ∈ types, ∀ a b, c.merge ty a b = b) →
  recordAll types ⟨emptyReg n, []⟩ evs = some (s, ops) →
  ∃ g m f, execAll c (emptyReg k) EntityMap.init ops = some (g, m) ∧ Mirrors types s g m f

/-! ## Mapping of values -/

theorem filter_isSome_map (es : List Entity) :
    (es.map some).filter Option.isSome = es.map some := by
  rw [List.filter_eq_self]
  intro a ha
  obtain ⟨x, _, rfl⟩ := List.mem_map.1 ha
  rfl

theorem compactFixed_tight (b : Bool) (es : List Entity) (n : Nat) :
    compactFixed b (es.map some ++ List.replicate n none) =
      es.map some ++ List.replicate n none := by
  have hn : (List.replicate n (none : Option Entity)).filter Option.isSome = [] := by
    rw [List.filter_eq_nil_iff]
    intro a ha
    rw [(List.mem_replicate.1 ha).2]; simp
  cases b with
  | false => simp [compactFixed]
  | true =>
    simp only [compactFixed, if_true, List.filter_append, filter_isSome_map, hn, List.append_nil]
    rw [List.drop_left]

theorem compactDyn_tight (b : Bool) (l : List (Option Entity)) (h : none ∉ l) :
    compactDyn b l = l := by
  have hf : l.filter Option.isSome = l := by
    rw [List.filter_eq_self]
    intro a ha
    cases a with
    | none => exact absurd ha h
    | some _ => rfl
  cases b <;> simp [compactDyn, hf]

/-- All names known and valid: the mapping is the renaming. -/
theorem mapChild_exact (b : Bool) (live : List Entity) (m : EMap) (f : Entity → Option Entity)
    (v : Val) (ht : v.Tight)
    (hk : ∀ e, v.names e → ∃ l, m.map.get? e = some l ∧ f e = some l ∧ l ∈ live) :
    mapChild b live m v = v.rename f := by
  have h1 : ∀ r : Option Entity, (∀ e, r = some e → v.names e) →
      mapRef m r = r.bind f ∧ validRef live (r.bind f) = r.bind f ∧
        (r.isSome → (r.bind f).isSome) := by
    intro r hr
    cases r with
    | none => simp [mapRef, validRef]
    | some e =>
      obtain ⟨l, a1, a2, a3⟩ := hk e (hr e rfl)
      simp [mapRef, validRef, a1, a2, a3]
  have h2 : ∀ a : List (Option Entity), (∀ e, some e ∈ a → v.names e) →
      a.map (mapRef m) = a.map (·.bind f) ∧
      (a.map (·.bind f)).map (validRef live) = a.map (·.bind f) := by
    intro a ha
    constructor
    · apply List.map_congr_left
      intro r hr
      exact (h1 r (fun e he => ha e (he ▸ hr))).1
    · rw [List.map_map]
      apply List.map_congr_left
      intro r hr
      exact (h1 r (fun e he => ha e (he ▸ hr))).2.1
  have e1 : (v.refs.map (mapRef m)).map (validRef live) = v.refs.map (·.bind f) := by
    obtain ⟨x, y⟩ := h2 v.refs (fun e he => Or.inl he)
    rw [x, y]
  have e2 : (v.arrays.map fun a => compactFixed b (a.map (mapRef m))).map
      (fun a => compactFixed b (a.map (validRef live))) = v.arrays.map (·.map (·.bind f)) := by
    rw [List.map_map]
    apply List.map_congr_left
    intro a ha
    obtain ⟨x, y⟩ := h2 a (fun e he => Or.inr (Or.inl ⟨a, ha, he⟩))
    obtain ⟨es, n, hes⟩ := ht.1 a ha
    have hshape : ∃ es' : List Entity, a.map (·.bind f) = es'.map some ++ List.replicate n none := by
      have : ∀ es : List Entity, (∀ e ∈ es, ∃ l, f e = some l) →
          ∃ es' : List Entity, es.map (fun e => f e) = es'.map some := by
        intro es
        induction es with
        | nil => intro _; exact ⟨[], rfl⟩
        | cons e es ih =>
          intro h
          obtain ⟨l, hl⟩ := h e List.mem_cons_self
          obtain ⟨es', hes'⟩ := ih fun x hx => h x (List.mem_cons_of_mem _ hx)
          exact ⟨l :: es', by simp [hl, hes']⟩
      obtain ⟨es', hes'⟩ := this es (fun e he => by
        obtain ⟨l, _, h3, _⟩ := hk e (Or.inr (Or.inl ⟨a, ha, by
          rw [hes]; exact List.mem_append_left _ (List.mem_map.2 ⟨e, he, rfl⟩)⟩))
        exact ⟨l, h3⟩)
      refine ⟨es', ?_⟩
      rw [hes, List.map_append, List.map_map, List.map_replicate]
      rw [← hes']
      simp [Function.comp_def]
    obtain ⟨es', hes'⟩ := hshape
    simp only [Function.comp, x]
    rw [hes', compactFixed_tight, ← hes', y, hes', compactFixed_tight]
  have e3 : (v.seqs.map fun a => compactDyn b (a.map (mapRef m))).map
      (fun a => compactDyn b (a.map (validRef live))) = v.seqs.map (·.map (·.bind f)) := by
    rw [List.map_map]
    apply List.map_congr_left
    intro a ha
    have hn : ∀ e, some e ∈ a → v.names e := fun e he => Or.inr (Or.inr (Or.inl ⟨a, ha, he⟩))
    obtain ⟨x, y⟩ := h2 a hn
    have hnone : none ∉ a.map (·.bind f) := by
      intro hmem
      obtain ⟨r, hr, hrf⟩ := List.mem_map.1 hmem
      cases r with
      | none => exact ht.2.1 a ha hr
      | some e =>
        have := (h1 (some e) (fun e' he' => hn e' (he' ▸ hr))).2.2 rfl
        rw [hrf] at this; exact absurd this (by simp)
    simp only [Function.comp, x]
    rw [compactDyn_tight _ _ hnone, y, compactDyn_tight _ _ hnone]
  have e4 : v.assoc.map (mapAssoc m) = v.assoc.map (·.map fun p => (p.1, p.2.bind f)) := by
    apply List.map_congr_left
    intro a ha
    have hp : ∀ p ∈ a, mapRef m p.2 = p.2.bind f ∧ (p.2.bind f).isSome := by
      rintro ⟨k, r⟩ hp
      cases r with
      | none => exact absurd hp (ht.2.2 a ha k)
      | some e =>
        have hn : v.names e := Or.inr (Or.inr (Or.inr ⟨a, ha, k, hp⟩))
        have := h1 (some e) (fun e' he' => (Option.some.inj he') ▸ hn)
        exact ⟨this.1, this.2.2 rfl⟩
    unfold mapAssoc
    have hm : (a.map fun p => (p.1, mapRef m p.2)) = a.map fun p => (p.1, p.2.bind f) :=
      List.map_congr_left fun p hp' => by rw [(hp p hp').1]
    rw [hm, List.filter_eq_self]
    intro q hq
    obtain ⟨p, hp', rfl⟩ := List.mem_map.1 hq
    exact (hp p hp').2
  simp only [mapChild, Val.rename, e1, e2, e3, e4]

theorem rename_congr {f f' : Entity → Option Entity} {v : Val}
    (h : ∀ e, v.names e → f' e = f e) : v.rename f' = v.rename f := by
  have h1 : ∀ r : Option Entity, (∀ e, r = some e → v.names e) → r.bind f' = r.bind f := by
    intro r hr
    cases r with
    | none => rfl
    | some e => exact h e (hr e rfl)
  have e1 : v.refs.map (·.bind f') = v.refs.map (·.bind f) :=
    List.map_congr_left fun r hr => h1 r fun e he => Or.inl (he ▸ hr)
  have e2 : v.arrays.map (·.map (·.bind f')) = v.arrays.map (·.map (·.bind f)) :=
    List.map_congr_left fun a ha => List.map_congr_left fun r hr =>
      h1 r fun e he => Or.inr (Or.inl ⟨a, ha, he ▸ hr⟩)
  have e3 : v.seqs.map (·.map (·.bind f')) = v.seqs.map (·.map (·.bind f)) :=
    List.map_congr_left fun a ha => List.map_congr_left fun r hr =>
      h1 r fun e he => Or.inr (Or.inr (Or.inl ⟨a, ha, he ▸ hr⟩))
  have e4 : v.assoc.map (·.map fun p => (p.1, p.2.bind f')) =
      v.assoc.map (·.map fun p => (p.1, p.2.bind f)) :=
    List.map_congr_left fun a ha => List.map_congr_left fun p hp => by
      rw [h1 p.2 fun e he => Or.inr (Or.inr (Or.inr ⟨a, ha, p.1, by rw [← he]; exact hp⟩))]
  simp only [Val.rename, e1, e2, e3, e4]

/-- Dropping all components of one entity. -/
theorem drop_get? (comps : AMap (Entity × Nat) Val) (l l' : Entity) (t : Nat) :
    (⟨comps.entries.filter fun p => decide (p.1.1 ≠ l)⟩ : AMap (Entity × Nat) Val).get? (l', t) =
      if l' = l then none else comps.get? (l', t) := by
  simp only [AMap.get?]
  generalize comps.entries = es
  induction es with
  | nil => simp [AMap.lookupList]
  | cons p es ih =>
    obtain ⟨⟨a, b⟩, v⟩ := p
    by_cases ha : a = l
    · rw [List.filter_cons_of_neg (by simp [ha]), ih]
      by_cases hl' : l' = l
      · simp [hl']
      · have : ¬ ((l', t) = (a, b)) := by
          rintro ⟨⟩; exact hl' ha
        simp [hl', AMap.lookupList, this]
    · rw [List.filter_cons_of_pos (by simp [ha])]
      simp only [AMap.lookupList, ih]
      by_cases hx : (l', t) = (a, b)
      · rw [if_pos hx]
        have : l' ≠ l := by
          simp only [Prod.mk.injEq] at hx; rw [hx.1]; exact ha
        simp [this, hx]
      · simp [hx]

/-! ## Simulation -/

/-- The invariant: the destination mirrors the source, `f` is defined exactly on the entities ever
observed. -/
structure Sim (types : List Nat) (s : Src) (seen : List Entity) (g : Reg) (m : EMap)
    (f : Entity → Option Entity) : Prop where
  good : Good m
  map : ∀ e l, m.map.get? e = some l ↔ e ∈ s.watched ∧ f e = some l
  live : ∀ l, l ∈ g.live ↔ ∃ e ∈ s.watched, f e = some l
  comps : ∀ e l ty, e ∈ s.watched → f e = some l → g.comps.get? (l, ty) =
    if ty ∈ types then (s.reg.comps.get? (e, ty)).map (Val.rename f) else none
  dom : ∀ e, (f e).isSome ↔ e ∈ seen
  sub : ∀ e ∈ s.watched, e ∈ seen
  inj : ∀ e e' l, f e = some l → f e' = some l → e = e'
  lt : ∀ e l, f e = some l → l < g.next
  none : ∀ l ty, l ∉ g.live → g.comps.get? (l, ty) = none
  names : ∀ e ∈ s.watched, ∀ ty ∈ types, ∀ v, s.reg.comps.get? (e, ty) = some v →
    ∀ x, v.names x → x ∈ seen

theorem Sim.mirrors {types s seen g m f} (h : Sim types s seen g m f) : Mirrors types s g m f :=
  ⟨h.map, h.live, h.comps, fun e he => (h.dom e).2 (h.sub e he), h.inj⟩

/-- Executing a run of `emplace` operations of one entity. -/
theorem exec_emplaces (c : Cfg) (src : Reg) (m : EMap) (f : Entity → Option Entity) (e l : Entity)
    (hm : m.map.get? e = some l) (tys : List Nat) : ∀ (g : Reg), l ∈ g.live →
    (∀ ty ∈ tys, ∀ v, src.comps.get? (e, ty) = some v → v.Tight ∧
      ∀ x, v.names x → ∃ y, m.map.get? x = some y ∧ f x = some y ∧ y ∈ g.live) →
    ∃ g', execAll c g m (tys.filterMap fun ty => (src.comps.get? (e, ty)).map fun v =>
        Op.emplace e ty v) = some (g', m) ∧ g'.live = g.live ∧ g'.next = g.next ∧
      ∀ l' ty, g'.comps.get? (l', ty) =
        if l' = l ∧ ty ∈ tys ∧ g.comps.get? (l', ty) = none then
          (src.comps.get? (e, ty)).map (Val.rename f)
        else g.comps.get? (l', ty) := by
  induction tys with
  | nil => intro g _ _; exact ⟨g, rfl, rfl, rfl, by simp⟩
  | cons ty tys ih =>
    intro g hl hk
    have hk' : ∀ t ∈ tys, ∀ v, src.comps.get? (e, t) = some v → v.Tight ∧
        ∀ x, v.names x → ∃ y, m.map.get? x = some y ∧ f x = some y ∧ y ∈ g.live :=
      fun t ht => hk t (List.mem_cons_of_mem _ ht)
    cases hv : src.comps.get? (e, ty) with
    | none =>
      obtain ⟨g', h1, h2, h3, h4⟩ := ih g hl hk'
      refine ⟨g', ?_, h2, h3, ?_⟩
      · rw [List.filterMap_cons_none (by simp [hv])]; exact h1
      · intro l' t
        rw [h4]
        by_cases ht : t = ty
        · subst ht
          simp only [hv, Option.map_none, List.mem_cons, true_or, true_and]
          by_cases hg : g.comps.get? (l', t) = none
          · simp [hg]
          · simp [hg]
        · simp [ht]
    | some v =>
      rw [List.filterMap_cons_some (b := Op.emplace e ty v) (by simp [hv])]
      obtain ⟨htight, hnames⟩ := hk ty List.mem_cons_self v hv
      have hmc := mapChild_exact c.through g.live m f v htight hnames
      by_cases hn : g.comps.get? (l, ty) = none
      · obtain ⟨g', h1, h2, h3, h4⟩ := ih ⟨g.live, g.next, g.comps.set (l, ty) (v.rename f)⟩ hl hk'
        refine ⟨g', ?_, h2, h3, ?_⟩
        · simp only [execAll, exec, hm]
          rw [if_pos ⟨hl, hn⟩, Option.bind_some, hmc]
          exact h1
        · intro l' t
          rw [h4]
          simp only [AMap.get?_set, Prod.mk.injEq, List.mem_cons]
          by_cases hx : l' = l ∧ t = ty
          · obtain ⟨rfl, rfl⟩ := hx
            simp [hn, hv]
          · simp only [if_neg hx]
            by_cases hl' : l' = l
            · have : t ≠ ty := fun e => hx ⟨hl', e⟩
              simp [this]
            · simp [hl']
      · obtain ⟨g', h1, h2, h3, h4⟩ := ih g hl hk'
        refine ⟨g', ?_, h2, h3, ?_⟩
        · simp only [execAll, exec, hm]
          rw [if_neg (fun h => hn h.2), Option.bind_some]
          exact h1
        · intro l' t
          rw [h4]
          by_cases hx : l' = l ∧ t = ty
          · obtain ⟨rfl, rfl⟩ := hx
            simp [hn]
          · by_cases hl' : l' = l
            · have : t ≠ ty := fun e => hx ⟨hl', e⟩
              simp [this]
            · simp [hl']

theorem execAll_append (c : Cfg) (as bs : List Op) : ∀ (g : Reg) (m : EMap),
    execAll c g m (as ++ bs) = (execAll c g m as).bind fun p => execAll c p.1 p.2 bs := by
  induction as with
  | nil => intro g m; rfl
  | cons a as ih =>
    intro g m
    simp only [List.cons_append, execAll]
    cases h : exec c g m a with
    | none => rfl
    | some p => simp only [Option.bind_some]; exact ih _ _

/-- Known names, from the hypothesis of `Tidy`. -/
theorem Sim.known {types s seen g m f} (h : Sim types s seen g m f) {v : Val}
    (hv : ∀ e, v.names e → e ∈ s.watched) :
    ∀ e, v.names e → ∃ l, m.map.get? e = some l ∧ f e = some l ∧ l ∈ g.live := by
  intro e he
  have hw := hv e he
  obtain ⟨l, hl⟩ := Option.isSome_iff_exists.1 ((h.dom e).2 (h.sub e hw))
  exact ⟨l, (h.map e l).2 ⟨hw, hl⟩, hl, (h.live l).2 ⟨e, hw, hl⟩⟩

/-- One event: the destination follows. -/
theorem sim_step (c : Cfg) (types : List Nat) (hmerge : ∀ ty ∈ types, ∀ a b, c.merge ty a b = b)
    {s s' : Src} {seen : List Entity} {g : Reg} {m : EMap} {f : Entity → Option Entity} {v : Ev}
    {ops : List Op} (h : Sim types s seen g m f) (hr : record types s v = some (s', ops))
    (hk : ∀ o ∈ ops, ∀ val, o.value = some val → val.Tight ∧ ∀ e, val.names e → e ∈ s'.watched)
    (hfresh : ∀ e ∈ v.observed, e ∉ seen) :
    ∃ g' m' f', execAll c g m ops = some (g', m') ∧ Sim types s' (v.observed ++ seen) g' m' f' ∧
      ∀ e ∈ seen, f' e = f e := by
  cases v with
  | spawn =>
    simp only [record, Option.some.injEq, Prod.mk.injEq] at hr
    obtain ⟨rfl, rfl⟩ := hr
    exact ⟨g, m, f, rfl, ⟨h.good, h.map, h.live, h.comps, h.dom, h.sub, h.inj, h.lt, h.none,
      h.names⟩, fun _ _ => rfl⟩
  | kill e =>
    simp only [record] at hr
    split at hr
    case isFalse => simp at hr
    simp only [Option.some.injEq, Prod.mk.injEq] at hr
    obtain ⟨rfl, rfl⟩ := hr
    exact ⟨g, m, f, rfl, ⟨h.good, h.map, h.live, h.comps, h.dom, h.sub, h.inj, h.lt, h.none,
      h.names⟩, fun _ _ => rfl⟩
  | emplace e ty v =>
    simp only [record] at hr
    split at hr
    case isFalse => simp at hr
    rename_i hpre
    simp only [Option.some.injEq, Prod.mk.injEq] at hr
    obtain ⟨rfl, rfl⟩ := hr
    by_cases hw : e ∈ s.watched ∧ ty ∈ types
    · rw [if_pos hw] at hk ⊢
      obtain ⟨htight, hnames⟩ := hk _ (List.mem_singleton.2 rfl) v rfl
      obtain ⟨l, hl⟩ := Option.isSome_iff_exists.1 ((h.dom e).2 (h.sub e hw.1))
      have hml := (h.map e l).2 ⟨hw.1, hl⟩
      have hlive := (h.live l).2 ⟨e, hw.1, hl⟩
      have hc0 : g.comps.get? (l, ty) = none := by
        rw [h.comps e l ty hw.1 hl, if_pos hw.2, hpre.2]; rfl
      have hmc := mapChild_exact c.through g.live m f v htight (h.known hnames)
      refine ⟨⟨g.live, g.next, g.comps.set (l, ty) (v.rename f)⟩, m, f, ?_, ?_, fun _ _ => rfl⟩
      · simp only [execAll, exec, hml]
        rw [if_pos ⟨hlive, hc0⟩, Option.bind_some, hmc]
      · refine ⟨h.good, h.map, h.live, ?_, h.dom, h.sub, h.inj, h.lt, ?_, ?_⟩
        · intro e' l' t he' hl'
          simp only [AMap.get?_set, Prod.mk.injEq]
          by_cases hx : l' = l ∧ t = ty
          · obtain ⟨rfl, rfl⟩ := hx
            have := h.inj _ _ _ hl hl'
            subst this
            simp [hw.2]
          · rw [if_neg hx, h.comps e' l' t he' hl']
            have : ¬ (e' = e ∧ t = ty) := by
              rintro ⟨rfl, rfl⟩
              rw [hl] at hl'; exact hx ⟨(Option.some.inj hl').symm, rfl⟩
            rw [if_neg this]
        · intro l' t hl'
          simp only [AMap.get?_set, Prod.mk.injEq]
          rw [if_neg, h.none l' t hl']
          rintro ⟨rfl, rfl⟩; exact hl' hlive
        · intro e' he' t ht v' hv' x hx
          simp only [AMap.get?_set, Prod.mk.injEq] at hv'
          by_cases hy : e' = e ∧ t = ty
          · rw [if_pos hy] at hv'
            cases hv'
            exact h.sub x (hnames x hx)
          · rw [if_neg hy] at hv'
            exact h.names e' he' t ht v' hv' x hx
    · rw [if_neg hw]
      refine ⟨g, m, f, rfl, ⟨h.good, h.map, h.live, ?_, h.dom, h.sub, h.inj, h.lt, h.none, ?_⟩,
        fun _ _ => rfl⟩
      · intro e' l' t he' hl'
        rw [h.comps e' l' t he' hl']
        simp only [AMap.get?_set, Prod.mk.injEq]
        by_cases ht : t ∈ types
        · have : ¬ (e' = e ∧ t = ty) := by
            rintro ⟨rfl, rfl⟩; exact hw ⟨he', ht⟩
          simp [ht, this]
        · simp [ht]
      · intro e' he' t ht v' hv' x hx
        simp only [AMap.get?_set, Prod.mk.injEq] at hv'
        have : ¬ (e' = e ∧ t = ty) := by
          rintro ⟨rfl, rfl⟩; exact hw ⟨he', ht⟩
        rw [if_neg this] at hv'
        exact h.names e' he' t ht v' hv' x hx
  | patch e ty v =>
    simp only [record] at hr
    split at hr
    case isFalse => simp at hr
    rename_i hpre
    simp only [Option.some.injEq, Prod.mk.injEq] at hr
    obtain ⟨rfl, rfl⟩ := hr
    by_cases hw : e ∈ s.watched ∧ ty ∈ types
    · rw [if_pos hw] at hk ⊢
      obtain ⟨htight, hnames⟩ := hk _ (List.mem_singleton.2 rfl) v rfl
      obtain ⟨l, hl⟩ := Option.isSome_iff_exists.1 ((h.dom e).2 (h.sub e hw.1))
      have hml := (h.map e l).2 ⟨hw.1, hl⟩
      have hlive := (h.live l).2 ⟨e, hw.1, hl⟩
      obtain ⟨old, hold⟩ := Option.isSome_iff_exists.1 hpre
      have hc0 : g.comps.get? (l, ty) = some (old.rename f) := by
        rw [h.comps e l ty hw.1 hl, if_pos hw.2, hold]; rfl
      have hmc := mapChild_exact c.through g.live m f v htight (h.known hnames)
      refine ⟨⟨g.live, g.next, g.comps.set (l, ty) (v.rename f)⟩, m, f, ?_, ?_, fun _ _ => rfl⟩
      · simp only [execAll, exec, hml, hc0]
        rw [if_pos hlive, Option.bind_some, hmc, hmerge ty hw.2]
      · refine ⟨h.good, h.map, h.live, ?_, h.dom, h.sub, h.inj, h.lt, ?_, ?_⟩
        · intro e' l' t he' hl'
          simp only [AMap.get?_set, Prod.mk.injEq]
          by_cases hx : l' = l ∧ t = ty
          · obtain ⟨rfl, rfl⟩ := hx
            have := h.inj _ _ _ hl hl'
            subst this
            simp [hw.2]
          · rw [if_neg hx, h.comps e' l' t he' hl']
            have : ¬ (e' = e ∧ t = ty) := by
              rintro ⟨rfl, rfl⟩
              rw [hl] at hl'; exact hx ⟨(Option.some.inj hl').symm, rfl⟩
            rw [if_neg this]
        · intro l' t hl'
          simp only [AMap.get?_set, Prod.mk.injEq]
          rw [if_neg, h.none l' t hl']
          rintro ⟨rfl, rfl⟩; exact hl' hlive
        · intro e' he' t ht v' hv' x hx
          simp only [AMap.get?_set, Prod.mk.injEq] at hv'
          by_cases hy : e' = e ∧ t = ty
          · rw [if_pos hy] at hv'
            cases hv'
            exact h.sub x (hnames x hx)
          · rw [if_neg hy] at hv'
            exact h.names e' he' t ht v' hv' x hx
    · rw [if_neg hw]
      refine ⟨g, m, f, rfl, ⟨h.good, h.map, h.live, ?_, h.dom, h.sub, h.inj, h.lt, h.none, ?_⟩,
        fun _ _ => rfl⟩
      · intro e' l' t he' hl'
        rw [h.comps e' l' t he' hl']
        simp only [AMap.get?_set, Prod.mk.injEq]
        by_cases ht : t ∈ types
        · have : ¬ (e' = e ∧ t = ty) := by
            rintro ⟨rfl, rfl⟩; exact hw ⟨he', ht⟩
          simp [ht, this]
        · simp [ht]
      · intro e' he' t ht v' hv' x hx
        simp only [AMap.get?_set, Prod.mk.injEq] at hv'
        have : ¬ (e' = e ∧ t = ty) := by
          rintro ⟨rfl, rfl⟩; exact hw ⟨he', ht⟩
        rw [if_neg this] at hv'
        exact h.names e' he' t ht v' hv' x hx
  | erase e ty =>
    simp only [record] at hr
    split at hr
    case isFalse => simp at hr
    rename_i hpre
    simp only [Option.some.injEq, Prod.mk.injEq] at hr
    obtain ⟨rfl, rfl⟩ := hr
    by_cases hw : e ∈ s.watched ∧ ty ∈ types
    · rw [if_pos hw] at hk ⊢
      obtain ⟨l, hl⟩ := Option.isSome_iff_exists.1 ((h.dom e).2 (h.sub e hw.1))
      have hml := (h.map e l).2 ⟨hw.1, hl⟩
      have hlive := (h.live l).2 ⟨e, hw.1, hl⟩
      refine ⟨⟨g.live, g.next, g.comps.erase (l, ty)⟩, m, f, ?_, ?_, fun _ _ => rfl⟩
      · simp only [execAll, exec, hml]
        rw [if_pos hlive, Option.bind_some]
      · refine ⟨h.good, h.map, h.live, ?_, h.dom, h.sub, h.inj, h.lt, ?_, ?_⟩
        · intro e' l' t he' hl'
          simp only [AMap.get?_erase, Prod.mk.injEq]
          by_cases hx : l' = l ∧ t = ty
          · obtain ⟨rfl, rfl⟩ := hx
            have := h.inj _ _ _ hl hl'
            subst this
            simp
          · rw [if_neg hx, h.comps e' l' t he' hl']
            have : ¬ (e' = e ∧ t = ty) := by
              rintro ⟨rfl, rfl⟩
              rw [hl] at hl'; exact hx ⟨(Option.some.inj hl').symm, rfl⟩
            rw [if_neg this]
        · intro l' t hl'
          simp only [AMap.get?_erase, h.none l' t hl', ite_self]
        · intro e' he' t ht v' hv' x hx
          simp only [AMap.get?_erase, Prod.mk.injEq] at hv'
          by_cases hy : e' = e ∧ t = ty
          · rw [if_pos hy] at hv'; cases hv'
          · rw [if_neg hy] at hv'
            exact h.names e' he' t ht v' hv' x hx
    · rw [if_neg hw]
      refine ⟨g, m, f, rfl, ⟨h.good, h.map, h.live, ?_, h.dom, h.sub, h.inj, h.lt, h.none, ?_⟩,
        fun _ _ => rfl⟩
      · intro e' l' t he' hl'
        rw [h.comps e' l' t he' hl']
        simp only [AMap.get?_erase, Prod.mk.injEq]
        by_cases ht : t ∈ types
        · have : ¬ (e' = e ∧ t = ty) := by
            rintro ⟨rfl, rfl⟩; exact hw ⟨he', ht⟩
          simp [ht, this]
        · simp [ht]
      · intro e' he' t ht v' hv' x hx
        simp only [AMap.get?_erase, Prod.mk.injEq] at hv'
        have : ¬ (e' = e ∧ t = ty) := by
          rintro ⟨rfl, rfl⟩; exact hw ⟨he', ht⟩
        rw [if_neg this] at hv'
        exact h.names e' he' t ht v' hv' x hx
  | again e ty =>
    simp only [record] at hr
    cases hc : s.reg.comps.get? (e, ty) with
    | none => rw [hc] at hr; simp at hr
    | some v =>
      rw [hc] at hr
      simp only [Option.some.injEq, Prod.mk.injEq] at hr
      obtain ⟨rfl, rfl⟩ := hr
      refine ⟨g, m, f, ?_, h, fun _ _ => rfl⟩
      by_cases hw : e ∈ s.watched ∧ ty ∈ types
      · rw [if_pos hw]
        obtain ⟨l, hl⟩ := Option.isSome_iff_exists.1 ((h.dom e).2 (h.sub e hw.1))
        have hml := (h.map e l).2 ⟨hw.1, hl⟩
        have hc0 : g.comps.get? (l, ty) = some (v.rename f) := by
          rw [h.comps e l ty hw.1 hl, if_pos hw.2, hc]; rfl
        simp [execAll, exec, hml, hc0]
      · rw [if_neg hw]; rfl
  | unobserve e =>
    simp only [record] at hr
    split at hr
    case isFalse => simp at hr
    rename_i hw
    simp only [Option.some.injEq, Prod.mk.injEq] at hr
    obtain ⟨rfl, rfl⟩ := hr
    obtain ⟨l, hl⟩ := Option.isSome_iff_exists.1 ((h.dom e).2 (h.sub e hw))
    have hml := (h.map e l).2 ⟨hw, hl⟩
    have hlive := (h.live l).2 ⟨e, hw, hl⟩
    obtain ⟨m', h1, h2, h3⟩ := h.good.erase hml
    refine ⟨⟨g.live.filter (fun x => decide (x ≠ l)), g.next,
          ⟨g.comps.entries.filter fun p => decide (p.1.1 ≠ l)⟩⟩, m', f, ?_, ?_, fun _ _ => rfl⟩
    · simp only [execAll, exec, hml, h1, Option.map_some]
      rw [if_pos hlive, Option.bind_some]
    · have hget := drop_get? g.comps l
      refine ⟨h2, ?_, ?_, ?_, h.dom, ?_, h.inj, h.lt, ?_, ?_⟩
      · intro a b
        rw [h3, h.map]
        simp only [List.mem_filter, decide_eq_true_eq]
        tauto
      · intro l'
        simp only [List.mem_filter, decide_eq_true_eq, h.live]
        constructor
        · rintro ⟨⟨a, ha, hfa⟩, hne⟩
          refine ⟨a, ⟨ha, ?_⟩, hfa⟩
          rintro rfl; rw [hl] at hfa; exact hne (Option.some.inj hfa).symm
        · rintro ⟨a, ⟨ha, hne⟩, hfa⟩
          refine ⟨⟨a, ha, hfa⟩, ?_⟩
          rintro rfl; exact hne (h.inj _ _ _ hfa hl)
      · intro a b t ha hb
        simp only [List.mem_filter, decide_eq_true_eq] at ha
        rw [hget, if_neg, h.comps a b t ha.1 hb]
        rintro rfl; exact ha.2 (h.inj _ _ _ hb hl)
      · intro a ha
        simp only [List.mem_filter, decide_eq_true_eq] at ha
        exact h.sub a ha.1
      · intro l' t hl'
        simp only [List.mem_filter, decide_eq_true_eq, not_and, Classical.not_not] at hl'
        rw [hget]
        by_cases hx : l' = l
        · simp [hx]
        · rw [if_neg hx]
          exact h.none l' t fun hm => hx (hl' hm)
      · intro e' he' t ht v' hv' x hx
        simp only [List.mem_filter, decide_eq_true_eq] at he'
        exact h.names e' he'.1 t ht v' hv' x hx
  | observe e =>
    simp only [record] at hr
    split at hr
    case isFalse => simp at hr
    rename_i hpre
    simp only [Option.some.injEq, Prod.mk.injEq] at hr
    obtain ⟨rfl, rfl⟩ := hr
    have hseen : e ∉ seen := hfresh e (by simp [Ev.observed])
    have hfe : f e = none := by
      cases hx : f e with
      | none => rfl
      | some l => exact absurd ((h.dom e).1 (by simp [hx])) hseen
    have hme : m.map.get? e = none := by
      cases hx : m.map.get? e with
      | none => rfl
      | some l => exact absurd ((h.map e l).1 hx).1 hpre.2
    have hnext : ∀ a, m.map.get? a ≠ some g.next := fun a ha =>
      Nat.lt_irrefl _ (h.lt a _ ((h.map a _).1 ha).2)
    obtain ⟨m', h1, h2, h3⟩ := h.good.insert hme hnext
    let f' : Entity → Option Entity := fun x => if x = e then some g.next else f x
    have hf'e : f' e = some g.next := by simp [f']
    have hf' : ∀ x, x ≠ e → f' x = f x := fun x hx => by simp [f', hx]
    have hnl : g.next ∉ g.live := fun hin => by
      obtain ⟨a, _, ha⟩ := (h.live _).1 hin
      exact Nat.lt_irrefl _ (h.lt a _ ha)
    have hm'e : m'.map.get? e = some g.next := (h3 _ _).2 (Or.inl ⟨rfl, rfl⟩)
    -- known names for the new map
    have hkn : ∀ ty ∈ types, ∀ v, s.reg.comps.get? (e, ty) = some v → v.Tight ∧
        ∀ x, v.names x → ∃ y, m'.map.get? x = some y ∧ f' x = some y ∧
          y ∈ (⟨g.live ++ [g.next], g.next + 1, g.comps⟩ : Reg).live := by
      intro ty hty v hv
      obtain ⟨a1, a2⟩ := hk (.emplace e ty v) (List.mem_cons_of_mem _ (by
        simp only [emplaceAll, List.mem_filterMap]
        exact ⟨ty, hty, by simp [hv]⟩)) v rfl
      refine ⟨a1, fun x hx => ?_⟩
      have hxw := a2 x hx
      by_cases hxe : x = e
      · subst hxe
        exact ⟨g.next, hm'e, hf'e, by simp⟩
      · have hxw' : x ∈ s.watched := by
          rcases List.mem_cons.1 hxw with h' | h'
          · exact absurd h' hxe
          · exact h'
        obtain ⟨l, hl⟩ := Option.isSome_iff_exists.1 ((h.dom x).2 (h.sub x hxw'))
        exact ⟨l, (h3 x l).2 (Or.inr ((h.map x l).2 ⟨hxw', hl⟩)), by rw [hf' x hxe]; exact hl,
          List.mem_append_left _ ((h.live l).2 ⟨x, hxw', hl⟩)⟩
    obtain ⟨g', k1, k2, k3, k4⟩ := exec_emplaces c s.reg m' f' e g.next hm'e types
      ⟨g.live ++ [g.next], g.next + 1, g.comps⟩ (by simp) hkn
    have hcont : m.map.contains e = false := by simp [AMap.contains, hme]
    have hlt' : ∀ x l, f x = some l → l ≠ g.next := fun x l hl => Nat.ne_of_lt (h.lt x l hl)
    have hxe : ∀ x ∈ s.watched, x ≠ e := fun x hx hxe => hpre.2 (hxe ▸ hx)
    refine ⟨g', m', f', ?_, ⟨h2, ?_, ?_, ?_, ?_, ?_, ?_, ?_, ?_, ?_⟩, ?_⟩
    · simp only [execAll, exec, emplaceAll, hcont, h1, Option.map_some, Option.bind_some]
      exact k1
    · intro a b
      rw [h3]
      constructor
      · rintro (⟨rfl, rfl⟩ | hab)
        · exact ⟨List.mem_cons_self, hf'e⟩
        · obtain ⟨x, y⟩ := (h.map a b).1 hab
          exact ⟨List.mem_cons_of_mem _ x, by rw [hf' a (hxe a x)]; exact y⟩
      · rintro ⟨ha, hb⟩
        by_cases hae : a = e
        · subst hae; rw [hf'e] at hb; exact Or.inl ⟨rfl, (Option.some.inj hb).symm⟩
        · rw [hf' a hae] at hb
          have ha' : a ∈ s.watched := by
            rcases List.mem_cons.1 ha with h' | h'
            · exact absurd h' hae
            · exact h'
          exact Or.inr ((h.map a b).2 ⟨ha', hb⟩)
    · intro l
      rw [k2]
      simp only [List.mem_append, List.mem_singleton, h.live]
      constructor
      · rintro (⟨x, hx, hfx⟩ | rfl)
        · exact ⟨x, List.mem_cons_of_mem _ hx, by rw [hf' x (hxe x hx)]; exact hfx⟩
        · exact ⟨e, List.mem_cons_self, hf'e⟩
      · rintro ⟨x, hx, hfx⟩
        by_cases hae : x = e
        · subst hae; rw [hf'e] at hfx; exact Or.inr (Option.some.inj hfx).symm
        · rw [hf' x hae] at hfx
          rcases List.mem_cons.1 hx with h' | h'
          · exact absurd h' hae
          · exact Or.inl ⟨x, h', hfx⟩
    · intro a b t ha hb
      rw [k4]
      by_cases hae : a = e
      · subst hae; rw [hf'e] at hb; cases hb
        have hz : g.comps.get? (g.next, t) = none := h.none _ _ hnl
        simp [hz]
      · rw [hf' a hae] at hb
        have ha' : a ∈ s.watched := by
          rcases List.mem_cons.1 ha with h' | h'
          · exact absurd h' hae
          · exact h'
        rw [if_neg (fun hx => hlt' a b hb hx.1), h.comps a b t ha' hb]
        by_cases ht : t ∈ types
        · rw [if_pos ht, if_pos ht]
          cases hv : s.reg.comps.get? (a, t) with
          | none => rfl
          | some v =>
            simp only [Option.map_some, Option.some.injEq]
            refine (rename_congr fun x hx => hf' x ?_).symm
            rintro rfl
            exact hseen (h.names a ha' t ht v hv x hx)
        · rw [if_neg ht, if_neg ht]
    · intro x
      by_cases hae : x = e
      · subst hae; simp [hf'e, Ev.observed]
      · rw [hf' x hae, h.dom]; simp [Ev.observed, hae]
    · intro x hx
      rcases List.mem_cons.1 hx with rfl | h'
      · simp [Ev.observed]
      · exact List.mem_append_right _ (h.sub x h')
    · intro a b l ha hb
      by_cases hae : a = e <;> by_cases hbe : b = e
      · rw [hae, hbe]
      · rw [hae, hf'e] at ha; rw [hf' b hbe] at hb; cases ha; exact absurd rfl (hlt' b _ hb)
      · rw [hbe, hf'e] at hb; rw [hf' a hae] at ha; cases hb; exact absurd rfl (hlt' a _ ha)
      · rw [hf' a hae] at ha; rw [hf' b hbe] at hb; exact h.inj a b l ha hb
    · intro a l ha
      rw [k3]
      by_cases hae : a = e
      · rw [hae, hf'e] at ha; cases ha; exact Nat.lt_succ_self _
      · rw [hf' a hae] at ha; exact Nat.lt_succ_of_lt (h.lt a l ha)
    · intro l t hl
      rw [k2] at hl
      simp only [List.mem_append, List.mem_singleton, not_or] at hl
      rw [k4, if_neg (fun hx => hl.2 hx.1)]
      exact h.none l t hl.1
    · intro a ha t ht v hv x hx
      rcases List.mem_cons.1 ha with rfl | ha'
      · have := (hk (.emplace a t v) (List.mem_cons_of_mem _ (by
          simp only [emplaceAll, List.mem_filterMap]
          exact ⟨t, ht, by simp [hv]⟩)) v rfl).2 x hx
        rcases List.mem_cons.1 this with rfl | h'
        · simp [Ev.observed]
        · exact List.mem_append_right _ (h.sub x h')
      · exact List.mem_append_right _ (h.names a ha' t ht v hv x hx)
    · intro x hx
      exact hf' x fun hxe => hseen (hxe ▸ hx)

/-- Whole histories. -/
theorem sim_all (c : Cfg) (types : List Nat) (hmerge : ∀ ty ∈ types, ∀ a b, c.merge ty a b = b)
    (evs : List Ev) : ∀ {s s' : Src} {seen : List Entity} {g : Reg} {m : EMap}
    {f : Entity → Option Entity} {ops : List Op}, Sim types s seen g m f →
    Tidy types s seen evs → recordAll types s evs = some (s', ops) →
    ∃ g' m' f' seen', execAll c g m ops = some (g', m') ∧ Sim types s' seen' g' m' f' := by
  induction evs with
  | nil =>
    intro s s' seen g m f ops h _ hr
    simp only [recordAll, Option.some.injEq, Prod.mk.injEq] at hr
    obtain ⟨rfl, rfl⟩ := hr
    exact ⟨g, m, f, seen, rfl, h⟩
  | cons v vs ih =>
    intro s s' seen g m f ops h ht hr
    simp only [recordAll, Option.bind_eq_some_iff, Option.map_eq_some_iff] at hr
    obtain ⟨⟨s1, o1⟩, hr1, ⟨s2, o2⟩, hr2, heq⟩ := hr
    simp only [Prod.mk.injEq] at heq
    obtain ⟨rfl, rfl⟩ := heq
    simp only [Tidy, hr1] at ht
    obtain ⟨g1, m1, f1, k1, k2, _⟩ := sim_step c types hmerge h hr1 ht.1 ht.2.1
    obtain ⟨g2, m2, f2, seen2, k3, k4⟩ := ih k2 ht.2.2 hr2
    refine ⟨g2, m2, f2, seen2, ?_, k4⟩
    rw [execAll_append, k1, Option.bind_some]
    exact k3

end Edyn.Repl.RegOps
