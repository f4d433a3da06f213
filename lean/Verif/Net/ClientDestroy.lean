import Verif.EntityMap.Props
import Mathlib.Tactic.Tauto

/-!
# Entity map upkeep on the client (C45)

Models `on_destroy_networked_entity` and `destroy_remote_entities` of
`src/edyn/networking/sys/client_side.cpp` on top of the model of `entity_map`.
-/

namespace Edyn.Net.ClientDestroy

open Edyn.EntityMap

/-- `on_destroy_networked_entity`, `client_side.cpp` lines 68-78: `entity` is an entity of the
client's registry.  The list is `client_destroyed_entities`. -/
def onDestroy (importing : Bool) (m : EMap) (destroyed : List Entity) (entity : Entity) :
    Option (EMap × List Entity) :=
  if importing then some (m, destroyed)
  else if contains m entity then
    match erase m entity with
    | none => none
    | some m => some (m, destroyed ++ [entity])
  else some (m, destroyed ++ [entity])

/-- The loop over the entries of a destroyed asset, lines 560-567; the result lists the local
entities that are destroyed in the registry. -/
def destroyEntries (valid : Entity → Bool) : EMap → List Entity → Option (EMap × List Entity)
  | m, [] => some (m, [])
  | m, r :: rs =>
    match at? m r with
    | none => none
    | some l =>
      match erase m r with
      | none => none
      | some m =>
        match destroyEntries valid m rs with
        | none => none
        | some (m, ds) => some (m, if valid l then l :: ds else ds)

/-- `destroy_remote_entities`, lines 548-582.  `asset l` lists the remote entities of the asset held
by local entity `l` (`none`: no `asset_ref`).  The registry destroys the entities in the list; since
`importing_entities` is set, `on_destroy_networked_entity` does nothing meanwhile. -/
def destroyRemote (valid : Entity → Bool) (asset : Entity → Option (List Entity)) :
    EMap → List Entity → Option (EMap × List Entity)
  | m, [] => some (m, [])
  | m, r :: rs =>
    match at? m r with
    | none => destroyRemote valid asset m rs
    | some l =>
      match erase m r with
      | none => none
      | some m =>
        if valid l then
          match destroyEntries valid m ((asset l).getD []) with
          | none => none
          | some (m, ds) =>
            match destroyRemote valid asset m rs with
            | none => none
            | some (m, ds') => some (m, ds ++ l :: ds')
        else
          destroyRemote valid asset m rs

/-! ## Specification -/

/-- `m` is a map that some history of calls produces. -/
def Reachable (m : EMap) : Prop := ∃ os, run init os = some m

/-- The pairs of a map. -/
def Pair (m : EMap) (r l : Entity) : Prop := at? m r = some l

/-- **C45 in full**: destroying local entity `e` removes exactly the pair whose local entity it
is. -/
def FullStatement : Prop :=
  ∀ (m : EMap) (ds : List Entity) (e : Entity), Reachable m →
    ∃ m' ds', onDestroy false m ds e = some (m', ds') ∧
      ∀ r l, Pair m' r l ↔ Pair m r l ∧ l ≠ e

/-! ## Lemmas -/

theorem run_snoc (m m1 m2 : EMap) (os : List Op) (o : Op) (h1 : run m os = some m1)
    (h2 : step m1 o = some m2) : run m (os ++ [o]) = some m2 := by
  induction os generalizing m with
  | nil => cases h1; simp [run, h2]
  | cons p os ih =>
    simp only [run, List.cons_append] at h1 ⊢
    cases h : step m p with
    | none => rw [h] at h1; cases h1
    | some m' =>
      rw [h] at h1
      simp only [Option.bind_some] at h1 ⊢
      exact ih m' h1

theorem spec_snoc (s : Spec.Pairs) (os : List Op) (o : Op) :
    Spec.run s (os ++ [o]) = Spec.step (Spec.run s os) o := by
  induction os generalizing s with
  | nil => rfl
  | cons p os ih => exact ih _

/-- `erase` of a mapped remote entity succeeds and removes exactly its pair. -/
theorem erase_reachable {m : EMap} (h : Reachable m) {r l : Entity} (hp : Pair m r l) :
    ∃ m', erase m r = some m' ∧ Reachable m' ∧
      ∀ a b, Pair m' a b ↔ Pair m a b ∧ a ≠ r := by
  obtain ⟨os, hos⟩ := h
  have : ∃ m', erase m r = some m' := by
    unfold erase
    unfold Pair at? at hp
    rw [hp]
    exact ⟨_, rfl⟩
  obtain ⟨m', hm'⟩ := this
  have hrun := run_snoc init m m' os (.erase r) hos hm'
  refine ⟨m', hm', ⟨_, hrun⟩, fun a b => ?_⟩
  unfold Pair
  rw [(lookups_match_spec _ _ hrun a b).1, spec_snoc, (lookups_match_spec _ _ hos a b).1]
  rfl

/-! ## C45 -/

/-- **C45, what the code does.** Destroying local entity `e` removes exactly the pair whose *remote*
entity has the same identifier as `e`.  Missing for the full property: that this is the pair of
`e`. -/
theorem client_destroy_partial (m : EMap) (ds : List Entity) (e : Entity) (h : Reachable m) :
    ∃ m', onDestroy false m ds e = some (m', ds ++ [e]) ∧ Reachable m' ∧
      (∀ r l, Pair m' r l ↔ Pair m r l ∧ r ≠ e) ∧
      ((∀ r l, Pair m r l → (r = e ↔ l = e)) → ∀ r l, Pair m' r l ↔ Pair m r l ∧ l ≠ e) := by
  have main : ∃ m', onDestroy false m ds e = some (m', ds ++ [e]) ∧ Reachable m' ∧
      (∀ r l, Pair m' r l ↔ Pair m r l ∧ r ≠ e) := by
    unfold onDestroy
    by_cases hc : contains m e = true
    · obtain ⟨l, hl⟩ := AMap.contains_iff.1 hc
      obtain ⟨m', h1, h2, h3⟩ := erase_reachable h (r := e) (l := l) hl
      exact ⟨m', by simp [hc, h1], h2, h3⟩
    · refine ⟨m, by simp [hc], h, fun r l => ?_⟩
      constructor
      · intro hp
        refine ⟨hp, ?_⟩
        rintro rfl
        exact hc (AMap.contains_iff.2 ⟨l, hp⟩)
      · exact fun hp => hp.1
  obtain ⟨m', h1, h2, h3⟩ := main
  refine ⟨m', h1, h2, h3, fun hid r l => ?_⟩
  rw [h3]
  constructor
  · rintro ⟨hp, hr⟩; exact ⟨hp, fun hl => hr ((hid r l hp).2 hl)⟩
  · rintro ⟨hp, hl⟩; exact ⟨hp, fun hr => hl ((hid r l hp).1 hr)⟩

/-- **Finding.** The full property is false: with remote 20 mapped to local 30 and remote 10 mapped
to local 20, destroying local 20 leaves its pair in place and removes the pair of local 30. -/
theorem client_destroy_wrong_pair : ¬ FullStatement := by
  intro h
  have hr : Reachable ⟨⟨[(10, 20), (20, 30)]⟩, ⟨[(20, 10), (30, 20)]⟩⟩ :=
    ⟨[.insert 20 30, .insert 10 20], by decide⟩
  obtain ⟨m', ds', h1, h2⟩ := h _ [] 20 hr
  have h3 : onDestroy false ⟨⟨[(10, 20), (20, 30)]⟩, ⟨[(20, 10), (30, 20)]⟩⟩ [] 20 =
      some (⟨⟨[(10, 20)]⟩, ⟨[(20, 10)]⟩⟩, [20]) := by decide
  rw [h3] at h1
  cases h1
  have := (h2 10 20).1 (by unfold Pair; decide)
  exact this.2 rfl

/-- While remote entities are imported or destroyed the signal handler leaves the map alone. -/
theorem importing_ignored (m : EMap) (ds : List Entity) (e : Entity) :
    onDestroy true m ds e = some (m, ds) := rfl

theorem destroyEntries_spec (valid : Entity → Bool) (rs : List Entity) {m : EMap}
    (h : Reachable m) (hnd : rs.Nodup) (hmap : ∀ r ∈ rs, ∃ l, Pair m r l) :
    ∃ m' ds, destroyEntries valid m rs = some (m', ds) ∧ Reachable m' ∧
      (∀ r l, Pair m' r l ↔ Pair m r l ∧ r ∉ rs) ∧
      (∀ l, l ∈ ds ↔ valid l = true ∧ ∃ r ∈ rs, Pair m r l) := by
  induction rs generalizing m with
  | nil => exact ⟨m, [], rfl, h, by simp, by simp⟩
  | cons r rs ih =>
    rw [List.nodup_cons] at hnd
    obtain ⟨l, hl⟩ := hmap r (by simp)
    obtain ⟨m1, e1, e2, e3⟩ := erase_reachable h hl
    obtain ⟨m2, ds, f1, f2, f3, f4⟩ := ih e2 hnd.2 (by
      intro r' hr'
      obtain ⟨l', hl'⟩ := hmap r' (List.mem_cons_of_mem _ hr')
      exact ⟨l', (e3 r' l').2 ⟨hl', fun he => hnd.1 (he ▸ hr')⟩⟩)
    have hat : at? m r = some l := hl
    refine ⟨m2, if valid l then l :: ds else ds, by simp [destroyEntries, hat, e1, f1], f2, ?_, ?_⟩
    · intro a b
      rw [f3, e3, List.mem_cons]
      tauto
    · intro x
      have hx : x ∈ ds ↔ valid x = true ∧ ∃ r' ∈ rs, Pair m r' x := by
        rw [f4]
        constructor
        · rintro ⟨h1, r', h2, h3⟩; exact ⟨h1, r', h2, ((e3 _ _).1 h3).1⟩
        · rintro ⟨h1, r', h2, h3⟩
          exact ⟨h1, r', h2, (e3 _ _).2 ⟨h3, fun he => hnd.1 (he ▸ h2)⟩⟩
      have hrx : Pair m r x ↔ x = l := by
        constructor
        · intro hp
          unfold Pair at hp hl
          rw [hl] at hp
          exact (Option.some.inj hp).symm
        · rintro rfl; exact hl
      simp only [List.mem_cons, exists_eq_or_imp, hrx]
      by_cases hv : valid l = true
      · simp only [hv, if_true, List.mem_cons, hx]
        constructor
        · rintro (rfl | h)
          · exact ⟨hv, Or.inl rfl⟩
          · exact ⟨h.1, Or.inr h.2⟩
        · rintro ⟨h1, h2 | h2⟩
          · exact Or.inl h2
          · exact Or.inr ⟨h1, h2⟩
      · simp only [hv, Bool.false_eq_true, if_false, hx]
        constructor
        · rintro h; exact ⟨h.1, Or.inr h.2⟩
        · rintro ⟨h1, rfl | h2⟩
          · exact absurd h1 hv
          · exact ⟨h1, h2⟩

/-- **C45, server requests.** Processing the destruction of loose remote entities never fails,
removes exactly their pairs, and destroys exactly their valid local entities. -/
theorem destroy_remote_exact (valid : Entity → Bool) (rs : List Entity) (m : EMap)
    (h : Reachable m) :
    ∃ m' ds, destroyRemote valid (fun _ => none) m rs = some (m', ds) ∧ Reachable m' ∧
      (∀ r l, Pair m' r l ↔ Pair m r l ∧ r ∉ rs) ∧
      (∀ l, l ∈ ds ↔ valid l = true ∧ ∃ r ∈ rs, Pair m r l) := by
  induction rs generalizing m with
  | nil => exact ⟨m, [], rfl, h, by simp, by simp⟩
  | cons r rs ih =>
    cases hl : at? m r with
    | none =>
      obtain ⟨m', ds, h1, h2, h3, h4⟩ := ih m h
      refine ⟨m', ds, by simp [destroyRemote, hl, h1], h2, ?_, ?_⟩
      · intro a b
        rw [h3, List.mem_cons]
        constructor
        · rintro ⟨hp, hn⟩
          refine ⟨hp, ?_⟩
          rintro (rfl | h')
          · unfold Pair at hp; rw [hl] at hp; cases hp
          · exact hn h'
        · tauto
      · intro x
        rw [h4]
        simp only [List.mem_cons, exists_eq_or_imp]
        constructor
        · rintro ⟨h1, h2⟩; exact ⟨h1, Or.inr h2⟩
        · rintro ⟨h1, h2 | h2⟩
          · unfold Pair at h2; rw [hl] at h2; cases h2
          · exact ⟨h1, h2⟩
    | some l =>
      obtain ⟨m1, e1, e2, e3⟩ := erase_reachable h (r := r) (l := l) hl
      obtain ⟨m2, ds, f1, f2, f3, f4⟩ := ih m1 e2
      have hrx : ∀ x, Pair m r x ↔ x = l := by
        intro x
        unfold Pair
        rw [hl, Option.some.injEq]
        exact eq_comm
      have hmem : ∀ x, (valid x = true ∧ ∃ r' ∈ r :: rs, Pair m r' x) ↔
          (valid x = true ∧ x = l) ∨ x ∈ ds := by
        intro x
        rw [f4]
        simp only [List.mem_cons, exists_eq_or_imp, hrx, e3]
        constructor
        · rintro ⟨h1, h2 | ⟨r', h2, h3⟩⟩
          · exact Or.inl ⟨h1, h2⟩
          · by_cases hr : r' = r
            · subst hr; exact Or.inl ⟨h1, (hrx x).1 h3⟩
            · exact Or.inr ⟨h1, r', h2, h3, hr⟩
        · rintro (⟨h1, h2⟩ | ⟨h1, r', h2, h3, _⟩)
          · exact ⟨h1, Or.inl h2⟩
          · exact ⟨h1, Or.inr ⟨r', h2, h3⟩⟩
      have hpairs : ∀ a b, Pair m2 a b ↔ Pair m a b ∧ a ∉ r :: rs := by
        intro a b
        rw [f3, e3, List.mem_cons]
        tauto
      by_cases hv : valid l = true
      · refine ⟨m2, l :: ds, by simp [destroyRemote, hl, e1, hv, destroyEntries, f1], f2, hpairs, ?_⟩
        intro x
        rw [hmem, List.mem_cons]
        constructor
        · rintro (rfl | h)
          · exact Or.inl ⟨hv, rfl⟩
          · exact Or.inr h
        · rintro (⟨_, h⟩ | h)
          · exact Or.inl h
          · exact Or.inr h
      · refine ⟨m2, ds, by simp [destroyRemote, hl, e1, hv, f1], f2, hpairs, ?_⟩
        intro x
        rw [hmem]
        constructor
        · exact Or.inr
        · rintro (⟨h1, rfl⟩ | h)
          · exact absurd h1 hv
          · exact h

/-- **C45, asset.** Destroying one asset whose entries are all mapped removes the pair of the asset
and of all its entries. -/
theorem destroy_asset_exact (valid : Entity → Bool) (asset : Entity → Option (List Entity))
    (m : EMap) (h : Reachable m) {r l : Entity} {rs : List Entity} (hl : Pair m r l)
    (hv : valid l = true) (ha : asset l = some rs) (hnd : rs.Nodup) (hr : r ∉ rs)
    (hmap : ∀ r' ∈ rs, ∃ l', Pair m r' l') :
    ∃ m' ds, destroyRemote valid asset m [r] = some (m', ds) ∧ Reachable m' ∧
      (∀ a b, Pair m' a b ↔ Pair m a b ∧ a ≠ r ∧ a ∉ rs) ∧
      (∀ x, x ∈ ds ↔ x = l ∨ (valid x = true ∧ ∃ r' ∈ rs, Pair m r' x)) := by
  obtain ⟨m1, e1, e2, e3⟩ := erase_reachable h hl
  obtain ⟨m2, ds, f1, f2, f3, f4⟩ := destroyEntries_spec valid rs e2 hnd (by
    intro r' hr'
    obtain ⟨l', hl'⟩ := hmap r' hr'
    exact ⟨l', (e3 r' l').2 ⟨hl', fun he => hr (he ▸ hr')⟩⟩)
  have hat : at? m r = some l := hl
  refine ⟨m2, ds ++ [l], by simp [destroyRemote, hat, e1, hv, ha, f1], f2, ?_, ?_⟩
  · intro a b
    rw [f3, e3]
    tauto
  · intro x
    rw [List.mem_append, List.mem_singleton, f4]
    constructor
    · rintro (⟨h1, r', h2, h3⟩ | h1)
      · exact Or.inr ⟨h1, r', h2, ((e3 _ _).1 h3).1⟩
      · exact Or.inl h1
    · rintro (h1 | ⟨h1, r', h2, h3⟩)
      · exact Or.inr h1
      · exact Or.inl ⟨h1, r', h2, (e3 _ _).2 ⟨h3, fun he => hr (he ▸ h2)⟩⟩

/-- **Finding.** If an entry of an asset is not mapped any more (the server told the client before
that this entry was destroyed), processing the destruction of the asset throws. -/
theorem destroy_asset_missing_entry :
    ∃ m, Reachable m ∧
      (destroyRemote (fun _ => true) (fun l => if l = 50 then some [1, 2] else none) m
        [1, 5]) = none :=
  ⟨⟨⟨[(1, 10), (2, 20), (5, 50)]⟩, ⟨[(10, 1), (20, 2), (50, 5)]⟩⟩,
    ⟨[.insert 5 50, .insert 2 20, .insert 1 10], by decide⟩, by decide⟩

/-! ### Non-vacuity -/

example : ∃ m, Reachable m ∧ Pair m 5 50 ∧
    destroyRemote (fun _ => true) (fun l => if l = 50 then some [1, 2] else none) m [5] =
      some (⟨⟨[(7, 70)]⟩, ⟨[(70, 7)]⟩⟩, [10, 20, 50]) :=
  ⟨⟨⟨[(7, 70), (1, 10), (2, 20), (5, 50)]⟩, ⟨[(70, 7), (10, 1), (20, 2), (50, 5)]⟩⟩,
    ⟨[.insert 5 50, .insert 2 20, .insert 1 10, .insert 7 70], by decide⟩, by unfold Pair; decide, by decide⟩

end Edyn.Net.ClientDestroy
