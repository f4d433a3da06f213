import Verif.Repl.Mapping

/-!
# Invariants of the mapping protocol: identity
-/

namespace Edyn.Repl.Mapping

open Edyn.EntityMap (Entity EMap)

/-- The map is a bijection. -/
def Good (m : EMap) : Prop := ∃ s, EntityMap.Rel m s

theorem Good.iff {m : EMap} (h : Good m) {a b : Entity} :
    m.mapLocal.get? b = some a ↔ m.map.get? a = some b := by
  obtain ⟨s, h⟩ := h
  rw [h.fwd, h.bwd]

theorem good_init : Good EntityMap.init := ⟨_, EntityMap.rel_init⟩

theorem Good.insert {m : EMap} (h : Good m) {e l : Entity} (he : m.map.get? e = none)
    (hl : ∀ a, m.map.get? a ≠ some l) :
    ∃ m', EntityMap.insert m e l = some m' ∧ Good m' ∧
      ∀ a b, m'.map.get? a = some b ↔ (a = e ∧ b = l) ∨ m.map.get? a = some b := by
  obtain ⟨s, hs⟩ := h
  obtain ⟨m', h1, h2⟩ := EntityMap.rel_insert hs e l
    ⟨fun b hb => by rw [(hs.fwd _ _).2 hb] at he; exact absurd he (by simp),
     fun a ha => hl a ((hs.fwd _ _).2 ha)⟩
  refine ⟨m', h1, ⟨_, h2⟩, fun a b => ?_⟩
  rw [h2.fwd, hs.fwd]; rfl

theorem Good.erase {m : EMap} (h : Good m) {e l : Entity} (he : m.map.get? e = some l) :
    ∃ m', EntityMap.erase m e = some m' ∧ Good m' ∧
      ∀ a b, m'.map.get? a = some b ↔ m.map.get? a = some b ∧ a ≠ e := by
  obtain ⟨s, hs⟩ := h
  obtain ⟨m', h1, h2⟩ := EntityMap.rel_erase hs e ⟨l, (hs.fwd _ _).1 he⟩
  refine ⟨m', h1, ⟨_, h2⟩, fun a b => ?_⟩
  rw [h2.fwd, hs.fwd]; rfl

theorem Good.eraseLocal {m : EMap} (h : Good m) {e l : Entity} (he : m.map.get? e = some l) :
    ∃ m', EntityMap.eraseLocal m l = some m' ∧ Good m' ∧
      ∀ a b, m'.map.get? a = some b ↔ m.map.get? a = some b ∧ b ≠ l := by
  obtain ⟨s, hs⟩ := h
  obtain ⟨m', h1, h2⟩ := EntityMap.rel_eraseLocal hs l ⟨e, (hs.fwd _ _).1 he⟩
  refine ⟨m', h1, ⟨_, h2⟩, fun a b => ?_⟩
  rw [h2.fwd, hs.fwd]; rfl

/-- `unmap` on a good map: succeeds, changes nothing but the map, removes exactly the pair of `e`. -/
theorem unmap_spec {s : Side} (h : Good s.map) (e : Entity) :
    ∃ m, s.unmap e = some { s with map := m } ∧ Good m ∧
      ∀ a b, m.map.get? a = some b ↔ s.map.map.get? a = some b ∧ b ≠ e := by
  by_cases hc : s.map.mapLocal.contains e = true
  · obtain ⟨a, ha⟩ := AMap.contains_iff.1 hc
    obtain ⟨m, h1, h2, h3⟩ := h.eraseLocal (h.iff.1 ha)
    exact ⟨m, by simp [Side.unmap, hc, h1], h2, h3⟩
  · refine ⟨s.map, by simp [Side.unmap, hc], h, fun a b => ⟨fun hab => ⟨hab, ?_⟩, fun hab => hab.1⟩⟩
    rintro rfl
    exact hc (AMap.contains_iff.2 ⟨a, h.iff.2 hab⟩)

theorem retire_spec {s : Side} (h : Good s.map) (e : Entity) :
    ∃ m, s.retire e = some { s with
        map := m, live := s.live.filter (fun x => decide (x.ent ≠ e)),
        out := s.out ++ [.destroy e] } ∧ Good m ∧
      ∀ a b, m.map.get? a = some b ↔ s.map.map.get? a = some b ∧ b ≠ e := by
  obtain ⟨m, h1, h2, h3⟩ := unmap_spec h e
  exact ⟨m, by simp only [Side.retire, h1, Option.map_some, Side.drop], h2, h3⟩

theorem dropImporting_spec {s : Side} (h : Good s.map) (e : Entity) :
    ∃ m, s.dropImporting e = some { s with
        map := m, live := s.live.filter (fun x => decide (x.ent ≠ e)) } ∧ Good m ∧
      ∀ a b, m.map.get? a = some b → s.map.map.get? a = some b := by
  by_cases hc : s.eraseOnImport = true
  · obtain ⟨m, h1, h2, h3⟩ := unmap_spec h e
    exact ⟨m, by simp only [Side.dropImporting, hc, if_true, h1, Option.map_some, Side.drop], h2,
      fun a b hab => ((h3 a b).1 hab).1⟩
  · exact ⟨s.map, by unfold Side.dropImporting; rw [if_neg hc]; rfl, h, fun a b hab => hab⟩

/-- The entity named by a creation. -/
def Op.createId : Op → Option Entity
  | .create e _ => some e
  | _ => none

/-- The identifiers of the creations in flight. -/
def creates (l : List Op) : List Entity := l.filterMap Op.createId

theorem mem_creates {l : List Op} {e : Entity} :
    e ∈ creates l ↔ ∃ bs, Op.create e bs ∈ l := by
  simp only [creates, List.mem_filterMap]
  constructor
  · rintro ⟨o, ho, h⟩
    cases o with
    | create e' bs => simp only [Op.createId, Option.some.injEq] at h; subst h; exact ⟨bs, ho⟩
    | destroy _ => simp [Op.createId] at h
    | mapEnt _ _ => simp [Op.createId] at h
  · rintro ⟨bs, h⟩; exact ⟨_, h, rfl⟩

/-- "the same logical entity": entity here, entity there, born here. -/
abbrev Same := Entity → Entity → Bool → Prop

/-- Seen from the other side. -/
def flip (K : Same) : Same := fun r s b => K s r (!b)

/-- The part of the invariant which concerns identity. -/
structure Safe (s : Side) (K : Same) : Prop where
  good : Good s.map
  kfun : ∀ m w b w' b', K m w b → K m w' b' → w = w' ∧ b = b'
  klt : ∀ m w b, K m w b → m < s.next
  mapK : ∀ w m, s.map.map.get? w = some m → ∃ b, K m w b
  outMap : ∀ e loc, Op.mapEnt e loc ∈ s.out → K e loc false
  outCreate : ∀ m bs, Op.create m bs ∈ s.out → m < s.next ∧ ∀ w b, ¬ K m w b
  nodup : (creates s.out).Nodup

theorem Safe.mono {s t : Side} {K : Same} (h : Safe s K) (hg : Good t.map)
    (hm : ∀ a b, t.map.map.get? a = some b → s.map.map.get? a = some b)
    (hn : s.next ≤ t.next)
    (ho : ∀ o ∈ t.out, o ∈ s.out ∨ ∃ e, o = Op.destroy e)
    (hc : List.Sublist (creates t.out) (creates s.out)) : Safe t K where
  good := hg
  kfun := h.kfun
  klt m w b hk := Nat.lt_of_lt_of_le (h.klt m w b hk) hn
  mapK w m hw := h.mapK w m (hm w m hw)
  outMap e loc hin := by
    rcases ho _ hin with h1 | ⟨x, h1⟩
    · exact h.outMap e loc h1
    · exact absurd h1 (by simp)
  outCreate m bs hin := by
    rcases ho _ hin with h1 | ⟨x, h1⟩
    · exact ⟨Nat.lt_of_lt_of_le (h.outCreate m bs h1).1 hn, (h.outCreate m bs h1).2⟩
    · exact absurd h1 (by simp)
  nodup := h.nodup.sublist hc

theorem Safe.retire {s : Side} {K : Same} (h : Safe s K) (e : Entity) :
    ∃ t, s.retire e = some t ∧ Safe t K := by
  obtain ⟨m, h1, h2, h3⟩ := retire_spec h.good e
  refine ⟨_, h1, h.mono h2 (fun a b hab => ((h3 a b).1 hab).1) (Nat.le_refl _) ?_ ?_⟩
  · intro o ho
    simp only [List.mem_append, List.mem_singleton] at ho
    rcases ho with ho | ho
    · exact Or.inl ho
    · exact Or.inr ⟨e, ho⟩
  · simp [creates, Op.createId]

theorem Safe.retireAll {K : Same} (es : List Entity) : ∀ {s : Side}, Safe s K →
    ∃ t, s.retireAll es = some t ∧ Safe t K := by
  induction es with
  | nil => intro s h; exact ⟨s, rfl, h⟩
  | cons e es ih =>
    intro s h
    obtain ⟨t, h1, h2⟩ := h.retire e
    obtain ⟨u, h3, h4⟩ := ih h2
    exact ⟨u, by simp only [Side.retireAll, h1, Option.bind_some, h3], h4⟩

theorem Safe.drop {s : Side} {K : Same} (h : Safe s K) (e : Entity) : Safe (s.drop e) K :=
  h.mono h.good (fun _ _ hab => hab) (Nat.le_refl _) (fun _ ho => Or.inl ho) (List.Sublist.refl _)

theorem Safe.dropImporting {s : Side} {K : Same} (h : Safe s K) (e : Entity) :
    ∃ t, s.dropImporting e = some t ∧ Safe t K := by
  obtain ⟨m, h1, h2, h3⟩ := dropImporting_spec h.good e
  exact ⟨_, h1, h.mono h2 h3 (Nat.le_refl _) (fun _ ho => Or.inl ho) (List.Sublist.refl _)⟩

theorem Safe.dropAllImporting {K : Same} (es : List Entity) : ∀ {s : Side}, Safe s K →
    ∃ t, s.dropAllImporting es = some t ∧ Safe t K := by
  induction es with
  | nil => intro s h; exact ⟨s, rfl, h⟩
  | cons e es ih =>
    intro s h
    obtain ⟨t, h1, h2⟩ := h.dropImporting e
    obtain ⟨u, h3, h4⟩ := ih h2
    exact ⟨u, by simp only [Side.dropAllImporting, h1, Option.bind_some, h3], h4⟩

theorem Safe.pop {r : Side} {K : Same} (h : Safe r K) {o : Op} {rest : List Op}
    (hr : r.out = o :: rest) : Safe { r with out := rest } K := by
  refine h.mono h.good (fun _ _ hab => hab) (Nat.le_refl _) (fun x hx => Or.inl ?_) ?_
  · rw [hr]; exact List.mem_cons_of_mem _ hx
  · rw [hr]; exact List.Sublist.filterMap _ (List.sublist_cons_self _ _)

/-- The pair made by a step of `s`, if it imports a creation: its own new entity and the entity it
stands for. -/
def birth (s r : Side) : Act → Option (Entity × Entity)
  | .recv =>
    match r.out with
    | .create e _ :: _ => if s.map.map.contains e then none else some (s.next, e)
    | _ => none
  | _ => none

/-- The relation after a step of `s`. -/
def grow (K : Same) (b : Option (Entity × Entity)) : Same := fun m w c =>
  K m w c ∨ (b = some (m, w) ∧ c = false)

theorem grow_none (K : Same) : grow K none = K := by
  funext m w c; simp [grow]

theorem Safe.new {s t : Side} {K : Same} (h : Safe s K) {bs : List Entity}
    (ht : s.new bs = some t) : Safe t K := by
  unfold Side.new at ht
  split at ht
  case isFalse => simp at ht
  simp only [Option.some.injEq] at ht
  subst ht
  refine ⟨h.good, h.kfun, fun m w b hk => Nat.lt_succ_of_lt (h.klt m w b hk), h.mapK, ?_, ?_, ?_⟩
  · intro e loc hin
    simp only [List.mem_append, List.mem_singleton, reduceCtorEq, or_false] at hin
    exact h.outMap e loc hin
  · intro m bs' hin
    simp only [List.mem_append, List.mem_singleton, Op.create.injEq] at hin
    rcases hin with hin | ⟨rfl, _⟩
    · exact ⟨Nat.lt_succ_of_lt (h.outCreate m bs' hin).1, (h.outCreate m bs' hin).2⟩
    · exact ⟨Nat.lt_succ_self _, fun w b hk => absurd (h.klt _ w b hk) (Nat.lt_irrefl _)⟩
  · simp only [creates, List.filterMap_append]
    refine List.nodup_append.2 ⟨h.nodup, by simp [List.filterMap, Op.createId], ?_⟩
    intro a ha b hb
    simp only [List.filterMap, Op.createId, List.mem_singleton] at hb
    subst hb
    obtain ⟨bs', hb'⟩ := mem_creates.1 ha
    exact Nat.ne_of_lt (h.outCreate a bs' hb').1

theorem Safe.clear {s t : Side} {K : Same} (h : Safe s K) {e : Entity}
    (ht : s.clear e = some t) : Safe t K := by
  unfold Side.clear at ht
  split at ht
  case isFalse => simp at ht
  obtain ⟨u, h1, h2⟩ := h.retireAll (s.edgesOf e)
  obtain ⟨v, h3, h4⟩ := h2.retire e
  simp only [h1, h3, Option.bind_some, Option.map_some, Option.some.injEq] at ht
  subst ht
  exact h4.mono h4.good (fun _ _ hab => hab) (Nat.le_refl _) (fun _ ho => Or.inl ho)
    (List.Sublist.refl _)

theorem Safe.del {s : Side} {K : Same} (h : Safe s K) {e : Entity} (hv : s.valid e = true) :
    ∃ t, s.del e = some t ∧ Safe t K := by
  unfold Side.del
  by_cases hw : s.watched e = true
  · obtain ⟨u, h1, h2⟩ := h.retireAll (s.edgesOf e)
    obtain ⟨v, h3, h4⟩ := h2.retire e
    exact ⟨v, by simp only [hw, if_true, h1, Option.bind_some, h3], h4⟩
  · exact ⟨s.drop e, by rw [if_neg hw, if_pos hv], h.drop e⟩

/-- Importing a creation. -/
theorem exec_create {s : Side} {K : Same} (h : Safe s K) {e : Entity} {bs : List Entity}
    (he : ∀ l b, ¬ K l e b) :
    ∃ m, s.exec (.create e bs) = some { s with
        live := s.live ++ [⟨s.next, s.localBodies bs, true⟩], next := s.next + 1, map := m,
        out := s.out ++ [.mapEnt s.next e] } ∧ Good m ∧ s.map.map.get? e = none ∧
      ∀ a b, m.map.get? a = some b ↔ (a = e ∧ b = s.next) ∨ s.map.map.get? a = some b := by
  have hn : s.map.map.get? e = none := by
    cases hg : s.map.map.get? e with
    | none => rfl
    | some l => obtain ⟨b, hb⟩ := h.mapK e l hg; exact absurd hb (he l b)
  have hc : s.map.map.contains e = false := by simp [AMap.contains, hn]
  have hl : ∀ a, s.map.map.get? a ≠ some s.next := fun a ha => by
    obtain ⟨b, hb⟩ := h.mapK a _ ha
    exact Nat.lt_irrefl _ (h.klt _ _ _ hb)
  obtain ⟨m, h1, h2, h3⟩ := h.good.insert hn hl
  have hm : m.map.get? e = some s.next := (h3 e s.next).2 (Or.inl ⟨rfl, rfl⟩)
  refine ⟨m, ?_, h2, hn, h3⟩
  simp only [Side.exec, hc, h1, Option.map_some, Option.bind_some]
  rw [if_neg (by simp)]
  simp only [Option.bind_some, hm, Option.map_some]

theorem Safe.exec_create_safe {s : Side} {K : Same} (h : Safe s K) {e : Entity}
    (he : ∀ l b, ¬ K l e b) {m : EMap} (hg : Good m)
    (hm : ∀ a b, m.map.get? a = some b ↔ (a = e ∧ b = s.next) ∨ s.map.map.get? a = some b)
    (x : List Entry) :
    Safe { s with live := x, next := s.next + 1, map := m,
                  out := s.out ++ [.mapEnt s.next e] } (grow K (some (s.next, e))) := by
  refine ⟨hg, ?_, ?_, ?_, ?_, ?_, ?_⟩
  · intro m1 w b w' b' h1 h2
    simp only [grow, Option.some.injEq, Prod.mk.injEq] at h1 h2
    rcases h1 with h1 | ⟨⟨rfl, rfl⟩, rfl⟩ <;> rcases h2 with h2 | ⟨⟨h2a, h2b⟩, h2c⟩
    · exact h.kfun _ _ _ _ _ h1 h2
    · subst h2a; exact absurd (h.klt _ _ _ h1) (Nat.lt_irrefl _)
    · exact absurd (h.klt _ _ _ h2) (Nat.lt_irrefl _)
    · exact ⟨h2b, h2c.symm⟩
  · intro m1 w b hk
    simp only [grow, Option.some.injEq, Prod.mk.injEq] at hk
    rcases hk with hk | ⟨⟨rfl, rfl⟩, rfl⟩
    · exact Nat.lt_succ_of_lt (h.klt _ _ _ hk)
    · exact Nat.lt_succ_self _
  · intro w m1 hw
    rcases (hm w m1).1 hw with ⟨rfl, rfl⟩ | hw'
    · exact ⟨false, Or.inr ⟨rfl, rfl⟩⟩
    · obtain ⟨b, hb⟩ := h.mapK w m1 hw'; exact ⟨b, Or.inl hb⟩
  · intro e1 loc hin
    simp only [List.mem_append, List.mem_singleton, Op.mapEnt.injEq] at hin
    rcases hin with hin | ⟨rfl, rfl⟩
    · exact Or.inl (h.outMap _ _ hin)
    · exact Or.inr ⟨rfl, rfl⟩
  · intro m1 bs hin
    simp only [List.mem_append, List.mem_singleton, reduceCtorEq, or_false] at hin
    obtain ⟨h1, h2⟩ := h.outCreate m1 bs hin
    refine ⟨Nat.lt_succ_of_lt h1, fun w b hk => ?_⟩
    simp only [grow, Option.some.injEq, Prod.mk.injEq] at hk
    rcases hk with hk | ⟨⟨rfl, rfl⟩, rfl⟩
    · exact h2 w b hk
    · exact Nat.lt_irrefl _ h1
  · simpa [creates, List.filterMap, Op.createId] using h.nodup

/-- The other side after its creation has been imported. -/
theorem Safe.pop_create {r : Side} {K : Same} (h : Safe r (flip K)) {e n : Entity}
    {bs : List Entity} {rest : List Op} (hr : r.out = .create e bs :: rest)
    (hn : ∀ w b, ¬ K n w b) :
    Safe { r with out := rest } (flip (grow K (some (n, e)))) := by
  have hp := h.pop hr
  have hnd : e ∉ creates rest := by
    have := h.nodup
    rw [hr] at this
    simp only [creates, List.filterMap_cons, Op.createId, List.nodup_cons] at this
    exact this.1
  have hlt := (h.outCreate e bs (by rw [hr]; exact List.mem_cons_self)).1
  have hun := (h.outCreate e bs (by rw [hr]; exact List.mem_cons_self)).2
  refine ⟨hp.good, ?_, ?_, ?_, ?_, ?_, hp.nodup⟩
  · intro m w b w' b' h1 h2
    simp only [flip, grow, Option.some.injEq, Prod.mk.injEq] at h1 h2
    rcases h1 with h1 | ⟨⟨rfl, rfl⟩, h1⟩ <;> rcases h2 with h2 | ⟨⟨h2a, h2b⟩, h2c⟩
    · exact h.kfun _ _ _ _ _ h1 h2
    · subst h2b; exact absurd h1 (hun _ _)
    · exact absurd h2 (hun _ _)
    · refine ⟨h2a, ?_⟩
      cases b <;> cases b' <;> simp_all
  · intro m w b hk
    simp only [flip, grow, Option.some.injEq, Prod.mk.injEq] at hk
    rcases hk with hk | ⟨⟨rfl, rfl⟩, _⟩
    · exact h.klt _ _ _ hk
    · exact hlt
  · intro w m hw
    obtain ⟨b, hb⟩ := hp.mapK w m hw
    exact ⟨b, Or.inl hb⟩
  · intro e1 loc hin
    exact Or.inl (hp.outMap e1 loc hin)
  · intro m bs' hin
    refine ⟨(hp.outCreate m bs' hin).1, fun w b hk => ?_⟩
    simp only [flip, grow, Option.some.injEq, Prod.mk.injEq] at hk
    rcases hk with hk | ⟨⟨rfl, rfl⟩, _⟩
    · exact (hp.outCreate m bs' hin).2 w b hk
    · exact hnd (mem_creates.2 ⟨bs', hin⟩)

theorem exec_destroy {s : Side} {K : Same} (h : Safe s K) (e : Entity) :
    ∃ t, s.exec (.destroy e) = some t ∧ Safe t K := by
  simp only [Side.exec]
  cases hg : s.map.map.get? e with
  | none => exact ⟨s, rfl, h⟩
  | some l =>
    obtain ⟨m, h1, h2, h3⟩ := h.good.erase hg
    have ht : Safe { s with map := m } K :=
      h.mono h2 (fun a b hab => ((h3 a b).1 hab).1) (Nat.le_refl _) (fun _ ho => Or.inl ho)
        (List.Sublist.refl _)
    simp only [h1, Option.bind_some]
    by_cases hv : Side.valid { s with map := m } l = true
    · obtain ⟨u, h4, h5⟩ := ht.dropAllImporting (Side.edgesOf { s with map := m } l)
      exact ⟨u.drop l, by rw [if_pos hv, h4]; rfl, h5.drop l⟩
    · exact ⟨_, by rw [if_neg hv], ht⟩

/-- Importing a mapping. -/
theorem exec_mapEnt {s : Side} {K : Same} (h : Safe s K) {e loc : Entity} (hk : K loc e true)
    (hu : ∀ m b, K m e b → m = loc) :
    ∃ m, s.exec (.mapEnt e loc) = some { s with map := m } ∧ Good m ∧
      ∀ a b, m.map.get? a = some b ↔
        (a = e ∧ b = loc ∧ s.valid loc = true) ∨ s.map.map.get? a = some b := by
  simp only [Side.exec]
  by_cases hv : s.valid loc = true
  · rw [if_pos hv]
    cases hg : s.map.map.get? e with
    | some l =>
      obtain ⟨b, hb⟩ := h.mapK e l hg
      have hl := hu l b hb
      subst hl
      simp only [if_true]
      refine ⟨s.map, rfl, h.good, fun a b => ⟨Or.inr, ?_⟩⟩
      rintro (⟨rfl, rfl, _⟩ | h1)
      · exact hg
      · exact h1
    | none =>
      have hl : ∀ a, s.map.map.get? a ≠ some loc := fun a ha => by
        obtain ⟨b, hb⟩ := h.mapK a _ ha
        have := (h.kfun _ _ _ _ _ hb hk).1
        subst this
        rw [hg] at ha; exact absurd ha (by simp)
      obtain ⟨m, h1, h2, h3⟩ := h.good.insert hg hl
      refine ⟨m, by simp only [h1, Option.map_some], h2, fun a b => ?_⟩
      rw [h3]; simp [hv]
  · rw [if_neg hv]
    exact ⟨s.map, rfl, h.good, fun a b => by simp [hv]⟩

theorem Safe.exec_mapEnt_safe {s : Side} {K : Same} (h : Safe s K) {e loc : Entity}
    (hk : K loc e true) {m : EMap} (hg : Good m)
    (hm : ∀ a b, m.map.get? a = some b ↔
      (a = e ∧ b = loc ∧ s.valid loc = true) ∨ s.map.map.get? a = some b) :
    Safe { s with map := m } K := by
  refine ⟨hg, h.kfun, h.klt, fun w m1 hw => ?_, h.outMap, h.outCreate, h.nodup⟩
  rcases (hm w m1).1 hw with ⟨rfl, rfl, _⟩ | hw'
  · exact ⟨true, hk⟩
  · exact h.mapK w m1 hw'

/-- Side `s` moves: identity is preserved. -/
theorem act_safe {s r s' r' : Side} {K : Same} (hs : Safe s K) (hr : Safe r (flip K)) {a : Act}
    (hno : ∀ e bs, a ≠ .remake e bs) (h : act s r a = some (s', r')) :
    Safe s' (grow K (birth s r a)) ∧ Safe r' (flip (grow K (birth s r a))) := by
  cases a with
  | new bs =>
    simp only [act, Option.map_eq_some_iff, Prod.mk.injEq] at h
    obtain ⟨t, h1, rfl, rfl⟩ := h
    simp only [birth, grow_none]
    exact ⟨hs.new h1, hr⟩
  | del e =>
    simp only [act, Option.map_eq_some_iff, Prod.mk.injEq] at h
    obtain ⟨t, h1, rfl, rfl⟩ := h
    simp only [birth, grow_none]
    refine ⟨?_, hr⟩
    by_cases hv : s.valid e = true
    · obtain ⟨u, h2, h3⟩ := hs.del hv
      rw [h1] at h2
      exact (Option.some.inj h2) ▸ h3
    · exfalso
      have hw : ¬ s.watched e = true := fun hw => hv (by
        simp only [Side.watched, Side.valid, List.any_eq_true, Bool.and_eq_true] at hw ⊢
        obtain ⟨x, hx, h2, _⟩ := hw
        exact ⟨x, hx, h2⟩)
      simp only [Side.del] at h1
      rw [if_neg hw, if_neg hv] at h1
      exact absurd h1 (by simp)
  | clear e =>
    simp only [act, Option.map_eq_some_iff, Prod.mk.injEq] at h
    obtain ⟨t, h1, rfl, rfl⟩ := h
    simp only [birth, grow_none]
    exact ⟨hs.clear h1, hr⟩
  | remake e bs => exact absurd rfl (hno e bs)
  | recv =>
    simp only [act] at h
    cases ho : r.out with
    | nil =>
      rw [ho] at h
      simp only [Option.some.injEq, Prod.mk.injEq] at h
      obtain ⟨rfl, rfl⟩ := h
      simp only [birth, ho, grow_none]
      exact ⟨hs, hr⟩
    | cons o rest =>
      rw [ho] at h
      simp only [Option.map_eq_some_iff, Prod.mk.injEq] at h
      obtain ⟨t, h1, rfl, rfl⟩ := h
      cases o with
      | create e bs =>
        have hun : ∀ l b, ¬ K l e b := fun l b hk =>
          (hr.outCreate e bs (by rw [ho]; exact List.mem_cons_self)).2 l (!b)
            (by simpa [flip] using hk)
        obtain ⟨m, h2, h3, h4, h5⟩ := exec_create (bs := bs) hs hun
        rw [h1] at h2
        have h2 := Option.some.inj h2
        subst h2
        have hb : birth s r .recv = some (s.next, e) := by
          simp [birth, ho, AMap.contains, h4]
        rw [hb]
        exact ⟨hs.exec_create_safe hun h3 h5 _,
          hr.pop_create ho fun w b hk => Nat.lt_irrefl _ (hs.klt _ _ _ hk)⟩
      | destroy e =>
        obtain ⟨u, h2, h3⟩ := exec_destroy hs e
        rw [h1] at h2
        have h2 := Option.some.inj h2
        subst h2
        simp only [birth, ho, grow_none]
        exact ⟨h3, hr.pop ho⟩
      | mapEnt e loc =>
        have hk : K loc e true := by
          simpa [flip] using hr.outMap e loc (by rw [ho]; exact List.mem_cons_self)
        have hu : ∀ m b, K m e b → m = loc := fun m b hmb =>
          (hr.kfun e m (!b) loc false (by simpa [flip] using hmb) (by simpa [flip] using hk)).1
        obtain ⟨m, h2, h3, h4⟩ := exec_mapEnt hs hk hu
        rw [h1] at h2
        have h2 := Option.some.inj h2
        subst h2
        simp only [birth, ho, grow_none]
        exact ⟨hs.exec_mapEnt_safe hk h3 h4, hr.pop ho⟩

/-- A reception never fails. -/
theorem recv_defined {s r : Side} {K : Same} (hs : Safe s K) (hr : Safe r (flip K)) :
    ∃ p, act s r .recv = some p := by
  simp only [act]
  cases ho : r.out with
  | nil => exact ⟨_, rfl⟩
  | cons o rest =>
    simp only
    cases o with
    | create e bs =>
      have hun : ∀ l b, ¬ K l e b := fun l b hk =>
        (hr.outCreate e bs (by rw [ho]; exact List.mem_cons_self)).2 l (!b)
          (by simpa [flip] using hk)
      obtain ⟨m, h2, _⟩ := exec_create (bs := bs) hs hun
      exact ⟨_, by rw [h2]; rfl⟩
    | destroy e =>
      obtain ⟨u, h2, h3⟩ := exec_destroy hs e
      exact ⟨_, by rw [h2]; rfl⟩
    | mapEnt e loc =>
      have hk : K loc e true := by
        simpa [flip] using hr.outMap e loc (by rw [ho]; exact List.mem_cons_self)
      have hu : ∀ m b, K m e b → m = loc := fun m b hmb =>
        (hr.kfun e m (!b) loc false (by simpa [flip] using hmb) (by simpa [flip] using hk)).1
      obtain ⟨m, h2, _⟩ := exec_mapEnt hs hk hu
      exact ⟨_, by rw [h2]; rfl⟩

end Edyn.Repl.Mapping
