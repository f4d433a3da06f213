import Verif.Net.Authority
import Mathlib.Tactic.Linarith

/-!
# What a client may change on the server: proofs
-/

namespace Edyn.Net.Auth

open Edyn.EntityMap (Entity EMap insert erase contains at?)
open Edyn.Net.TimedQueue (Timed insertPacket)

variable {env : Env}

/-! ## Snapshots -/

theorem start_at {r : Reg} {e s : Entity} (h : r.start e = some s) : At r e s := by
  unfold Reg.start at h
  split at h
  · next hf =>
    rename_i w a b
    have hm := List.mem_of_find?_eq_some hf
    have hw := List.find?_some hf
    simp only [decide_eq_true_eq] at hw
    simp only [Option.some.injEq] at h
    subst hw h
    exact Or.inr (Or.inl ⟨a, b, hm, Or.inl rfl⟩)
  · split at h
    · next hn =>
      simp only [Option.some.injEq] at h
      subst h
      refine Or.inl ⟨?_, rfl⟩
      intro k
      rw [k] at hn
      simp at hn
    · cases hc : r.comp e .child with
      | none => rw [hc] at h; simp at h
      | some v =>
        rw [hc] at h
        simp only [Option.bind_some] at h
        cases hp : (v.refs[0]?).join with
        | none => rw [hp] at h; simp at h
        | some p =>
          rw [hp] at h
          simp only [Option.bind_some] at h
          split at h
          · simp only [Option.some.injEq] at h
            subst h
            refine Or.inr (Or.inr ⟨v, hc, ?_⟩)
            exact Option.join_eq_some_iff.1 hp
          · simp at h

theorem only_may {r : Reg} {c e : Entity} (h : r.only c e = some true) :
    ∃ n, At r e n ∧ (∃ v, r.Visits n v ∧ r.owner v = some c) ∧ ∀ v d, r.Visits n v → r.owner v = some d → d = c := by
  unfold Reg.only at h
  cases hs : r.start e with
  | none => rw [hs] at h; simp at h
  | some s =>
    rw [hs] at h
    simp only [Option.map_some, Option.some.injEq, Bool.and_eq_true, decide_eq_true_eq, Bool.not_eq_true',
      decide_eq_false_iff_not] at h
    refine ⟨s, start_at hs, h.1, ?_⟩
    intro v d hv hd
    by_contra hne
    exact h.2 ⟨v, d, hv, hd, hne⟩

theorem keep_may {r : Reg} {c e : Entity} {es : List Entity} {k : Comp} {it : ℕ × Value}
    (h : keepItem r c es k it = some true) (he : es[it.1]? = some e) : May r c e k := by
  unfold keepItem at h
  rw [he] at h
  simp only [Option.bind_some] at h
  split at h
  · simp at h
  · unfold May
    split at h
    · next hk =>
      rw [if_pos hk]
      simpa using h
    · next hk =>
      rw [if_neg hk]
      exact only_may h

theorem transform_kept {r : Reg} {c : Entity} {m : EMap} {es : List Entity} {k : Comp} (its : List (ℕ × Value))
    (l : List (ℕ × Value)) (h : transformItems r c m es k its = some l) :
    ∀ it ∈ l, ∃ v, keepItem r c es k (it.1, v) = some true := by
  induction its using transformItems.induct generalizing l with
  | case1 =>
    rw [transformItems] at h
    simp only [Option.some.injEq] at h
    subst h
    simp
  | case2 it its ih1 ih2 =>
    rw [transformItems] at h
    cases hk : keepItem r c es k it with
    | none => rw [hk] at h; simp at h
    | some b =>
      rw [hk] at h
      simp only [Option.bind_some] at h
      cases b with
      | true =>
        simp only [if_true, Option.map_eq_some_iff] at h
        obtain ⟨l', hl, rfl⟩ := h
        intro x hx
        rcases List.mem_cons.1 hx with rfl | hx
        · exact ⟨it.2, hk⟩
        · exact ih1 _ hl x hx
      | false =>
        simp only [Bool.false_eq_true, if_false] at h
        exact ih2 _ h

/-- Every element of the pool may be changed by the client. -/
def PoolOk (P : Entity → Comp → Prop) (es : List Entity) (p : Pool) : Prop :=
  p.comp.empty = false → ∀ it ∈ p.items, ∀ e, es[it.1]? = some e → P e p.comp

theorem transformPools_ok {r : Reg} {c : Entity} {m : EMap} {es : List Entity} (ps : List Pool) :
    ∀ qs, transformPools r c m es ps = some qs → ∀ q ∈ qs, PoolOk (May r c) es q := by
  induction ps with
  | nil =>
    intro qs h
    simp only [transformPools, Option.some.injEq] at h
    subst h
    simp
  | cons p ps ih =>
    intro qs h
    simp only [transformPools, Option.bind_eq_some_iff, Option.map_eq_some_iff] at h
    obtain ⟨q, hq, ps', hps, rfl⟩ := h
    intro x hx
    rcases List.mem_cons.1 hx with rfl | hx
    · intro he it hit e hes
      split at hq
      · next hpe =>
        simp only [Option.some.injEq] at hq
        subst hq
        rw [hpe] at he
        simp at he
      · simp only [Option.map_eq_some_iff] at hq
        obtain ⟨l, hl, rfl⟩ := hq
        obtain ⟨v, hv⟩ := transform_kept _ _ hl it hit
        exact keep_may hv hes
    · exact ih _ hps x hx

theorem set_comp (r : Reg) (e : Entity) (k : Comp) (v : Value) (e' : Entity) (k' : Comp) (h : ¬(e' = e ∧ k' = k)) :
    (r.set e k v).comp e' k' = r.comp e' k' := by
  simp only [Reg.set]
  rw [if_neg h]

/-- What a step which only assigns components may change. -/
structure Writes (r r' : Reg) (P : Entity → Comp → Prop) : Prop where
  valid : r'.valid = r.valid
  next : r'.next = r.next
  comp : ∀ e k, r'.comp e k ≠ r.comp e k → P e k

theorem Writes.refl (r : Reg) (P) : Writes r r P := ⟨rfl, rfl, fun _ _ h => absurd rfl h⟩

theorem Writes.trans {r r' r'' : Reg} {P} (h : Writes r r' P) (h' : Writes r' r'' P) : Writes r r'' P := by
  refine ⟨h'.valid.trans h.valid, h'.next.trans h.next, ?_⟩
  intro e k hne
  by_cases hk : r'.comp e k = r.comp e k
  · rw [← hk] at hne
    exact h'.comp e k hne
  · exact h.comp e k hk

theorem Writes.mono {r r' : Reg} {P Q : Entity → Comp → Prop} (h : Writes r r' P) (hpq : ∀ e k, P e k → Q e k) :
    Writes r r' Q := ⟨h.valid, h.next, fun e k hne => hpq e k (h.comp e k hne)⟩

theorem writes_set (r : Reg) (e : Entity) (k : Comp) (v : Value) (P) (h : P e k) : Writes r (r.set e k v) P := by
  refine ⟨rfl, rfl, ?_⟩
  intro e' k' hne
  by_cases hk : e' = e ∧ k' = k
  · rw [hk.1, hk.2]
    exact h
  · exact absurd (set_comp r e k v e' k' hk) hne

theorem mergeItems_writes (es : List Entity) (its : List (ℕ × Value)) : ∀ r r', mergeItems env es its r = some r' →
    Writes r r' fun e k => k = .history ∧ ∃ it ∈ its, es[it.1]? = some e := by
  induction its with
  | nil =>
    intro r r' h
    simp only [mergeItems, Option.some.injEq] at h
    subst h
    exact .refl _ _
  | cons it its ih =>
    intro r r' h
    simp only [mergeItems, Option.bind_eq_some_iff] at h
    obtain ⟨e, he, h⟩ := h
    have up : ∀ e k, (k = Comp.history ∧ ∃ it ∈ its, es[it.1]? = some e) →
        k = Comp.history ∧ ∃ x ∈ it :: its, es[x.1]? = some e := by
      rintro e k ⟨hk, x, hx, hxe⟩
      exact ⟨hk, x, List.mem_cons_of_mem _ hx, hxe⟩
    split at h
    · exact (ih _ _ h).mono up
    · simp only [Option.bind_eq_some_iff] at h
      obtain ⟨cur, _, h⟩ := h
      exact (writes_set r e .history _ _ ⟨rfl, it, List.mem_cons_self, he⟩).trans ((ih _ _ h).mono up)

theorem swapLast_mem {α : Type} (t : List α) : ∀ x ∈ swapLast t, x ∈ t := by
  intro x hx
  unfold swapLast at hx
  rcases t.eq_nil_or_concat with rfl | ⟨L, b, rfl⟩
  · simp at hx
  · simp at hx ⊢
    tauto

theorem mergeHistory_spec {s : Snap} {r : Reg} {P : Entity → Comp → Prop} {q : Reg × Snap}
    (h : mergeHistory env s r = some q) (hp : ∀ p ∈ s.pools, PoolOk P s.entities p) :
    Writes r q.1 P ∧ q.2.entities = s.entities ∧ ∀ p ∈ q.2.pools, PoolOk P s.entities p := by
  unfold mergeHistory at h
  split at h
  · simp only [Option.some.injEq] at h
    subst h
    exact ⟨.refl _ _, rfl, hp⟩
  · next i hi =>
    simp only [Option.map_eq_some_iff, Option.bind_eq_some_iff] at h
    obtain ⟨r', ⟨p, hpi, hm⟩, rfl⟩ := h
    have hmem : p ∈ s.pools := List.mem_of_getElem? hpi
    have hk : p.comp = .history := by
      obtain ⟨hl, hb, -⟩ := List.findIdx?_eq_some_iff_getElem.1 hi
      rw [List.getElem?_eq_getElem hl] at hpi
      simp only [Option.some.injEq] at hpi
      rw [hpi] at hb
      simpa using hb
    refine ⟨(mergeItems_writes _ _ _ _ hm).mono ?_, rfl, ?_⟩
    · rintro e k ⟨rfl, it, hit, he⟩
      have := hp p hmem (by rw [hk]; rfl) it hit e he
      rwa [hk] at this
    · intro x hx
      simp only [List.mem_append] at hx
      rcases hx with hx | hx
      · exact hp x (List.mem_of_mem_take hx)
      · exact hp x (List.mem_of_mem_drop (swapLast_mem _ _ hx))

theorem replaceItems_writes (es : List Entity) (k : Comp) (its : List (ℕ × Value)) : ∀ r r',
    replaceItems es k its r = some r' → Writes r r' fun e k' => k' = k ∧ ∃ it ∈ its, es[it.1]? = some e := by
  induction its with
  | nil =>
    intro r r' h
    simp only [replaceItems, Option.some.injEq] at h
    subst h
    exact .refl _ _
  | cons it its ih =>
    intro r r' h
    simp only [replaceItems, Option.bind_eq_some_iff] at h
    obtain ⟨e, he, h⟩ := h
    have up : ∀ e k', (k' = k ∧ ∃ it ∈ its, es[it.1]? = some e) → k' = k ∧ ∃ x ∈ it :: its, es[x.1]? = some e := by
      rintro e k' ⟨hk, x, hx, hxe⟩
      exact ⟨hk, x, List.mem_cons_of_mem _ hx, hxe⟩
    split at h
    · exact (writes_set r e k _ _ ⟨rfl, it, List.mem_cons_self, he⟩).trans ((ih _ _ h).mono up)
    · exact (ih _ _ h).mono up

theorem replacePools_writes {P : Entity → Comp → Prop} (es : List Entity) (ps : List Pool) : ∀ r r',
    replacePools es ps r = some r' → (∀ p ∈ ps, PoolOk P es p) → Writes r r' P := by
  induction ps with
  | nil =>
    intro r r' h _
    simp only [replacePools, Option.some.injEq] at h
    subst h
    exact .refl _ _
  | cons p ps ih =>
    intro r r' h hp
    simp only [replacePools, Option.bind_eq_some_iff] at h
    obtain ⟨r1, h1, h2⟩ := h
    refine Writes.trans ?_ (ih _ _ h2 fun x hx => hp x (List.mem_cons_of_mem _ hx))
    split at h1
    · simp only [Option.some.injEq] at h1
      subst h1
      exact .refl _ _
    · next he =>
      refine (replaceItems_writes _ _ _ _ _ h1).mono ?_
      rintro e k ⟨rfl, it, hit, hes⟩
      exact hp p List.mem_cons_self (by simpa using he) it hit e hes

theorem receiveSnapshot_spec {c : Entity} {s : Snap} {t : ℚ} {r : Reg} {cl : Client} {x : Reg × Client}
    (h : receiveSnapshot env c s t r cl = some x) :
    Writes r x.1 (May r c) ∧ x.2.emap = cl.emap ∧
      ∀ q ∈ x.2.queue, q ∈ cl.queue ∨ ∃ sn, q.packet = .snapshot sn ∧ ∀ p ∈ sn.pools, PoolOk (May r c) sn.entities p := by
  unfold receiveSnapshot at h
  split at h
  · simp only [Option.some.injEq] at h
    subst h
    exact ⟨.refl _ _, rfl, fun q hq => Or.inl hq⟩
  · next es hes =>
    simp only [Option.bind_eq_some_iff, Option.map_eq_some_iff] at h
    obtain ⟨ps, hps, q, hq, hx⟩ := h
    have hm := mergeHistory_spec (P := May r c) hq (transformPools_ok _ _ hps)
    split at hx
    · subst hx
      exact ⟨hm.1, rfl, fun q hq => Or.inl hq⟩
    · subst hx
      refine ⟨hm.1, rfl, ?_⟩
      intro y hy
      simp only [insertPacket, List.mem_append, List.mem_cons] at hy
      rcases hy with hy | rfl | hy
      · exact Or.inl ((List.takeWhile_prefix _).subset hy)
      · refine Or.inr ⟨q.2, rfl, ?_⟩
        rw [hm.2.1]
        exact hm.2.2
      · exact Or.inl ((List.dropWhile_suffix _).subset hy)

/-! ## Destruction -/

theorem destroy_owner {r : Reg} {e b c : Entity} (h : (r.destroy e).owner b = some c) : r.owner b = some c := by
  classical
  unfold Reg.owner Reg.destroy at h
  simp only at h
  split at h
  · simp at h
  · exact h

theorem destroy_may {r : Reg} {e c e' : Entity} (h : MayDestroy (r.destroy e) c e') : MayDestroy r c e' := by
  rcases h with h | ⟨b, hb, x, y, hxy, h⟩
  · exact Or.inl (destroy_owner h)
  · exact Or.inr ⟨b, destroy_owner hb, x, y, List.mem_of_mem_filter hxy, h⟩

theorem processDestroy_spec {c : Entity} (xs : List Entity) : ∀ r cl x, processDestroy c xs r cl = some x →
    x.1.next = r.next ∧ x.2.queue = cl.queue ∧ ∀ e, (x.1.valid e = r.valid e ∧ ∀ k, x.1.comp e k = r.comp e k) ∨
      (x.1.valid e = false ∧ MayDestroy r c e) := by
  classical
  induction xs with
  | nil =>
    intro r cl x h
    simp only [processDestroy, Option.some.injEq] at h
    subst h
    exact ⟨rfl, rfl, fun e => Or.inl ⟨rfl, fun _ => rfl⟩⟩
  | cons y ys ih =>
    intro r cl x h
    simp only [processDestroy] at h
    split at h
    · exact ih _ _ _ h
    · next e he =>
      split at h
      · next hv =>
        simp only [Bool.and_eq_true, beq_iff_eq] at hv
        simp only [Option.bind_eq_some_iff] at h
        obtain ⟨m, hm, h⟩ := h
        split at h
        · obtain ⟨hn, hq, hx⟩ := ih _ _ _ h
          refine ⟨hn, hq, ?_⟩
          intro e'
          have key : (¬r.gone e e' ∧ (r.destroy e).valid e' = r.valid e' ∧ ∀ k, (r.destroy e).comp e' k = r.comp e' k) ∨
              (MayDestroy r c e' ∧ (r.destroy e).valid e' = false) := by
            by_cases hg : r.gone e e'
            · refine Or.inr ⟨?_, by simp [Reg.destroy, hg]⟩
              rcases hg with rfl | ⟨a, b, hab, hg⟩
              · exact Or.inl hv.2
              · exact Or.inr ⟨e, hv.2, a, b, hab, hg⟩
            · exact Or.inl ⟨hg, by simp [Reg.destroy, hg], by simp [Reg.destroy, hg]⟩
          rcases hx e' with ⟨h1, h2⟩ | ⟨h1, h2⟩
          · rcases key with ⟨-, k1, k2⟩ | ⟨k1, k2⟩
            · exact Or.inl ⟨h1.trans k1, fun k => (h2 k).trans (k2 k)⟩
            · exact Or.inr ⟨h1.trans k2, k1⟩
          · exact Or.inr ⟨h1, destroy_may h2⟩
        · simp at h
      · exact ih _ _ _ h

/-! ## Creation -/

/-- What creation may change of the entities there are: those the client has named. -/
structure Creates (r r' : Reg) (N : ℕ) (P : Entity → Prop) : Prop where
  valid : ∀ e, e < N → r'.valid e = r.valid e
  comp : ∀ e, e < N → ¬P e → ∀ k, r'.comp e k = r.comp e k
  next : r.next ≤ r'.next
  fresh : (∀ e, r.valid e = true → e < r.next) → ∀ e, r'.valid e = true → e < r'.next

theorem Creates.refl (r : Reg) (N P) : Creates r r N P :=
  ⟨fun _ _ => rfl, fun _ _ _ _ => rfl, le_refl _, fun h => h⟩

theorem Creates.trans {r r' r'' : Reg} {N P} (h : Creates r r' N P) (h' : Creates r' r'' N P) : Creates r r'' N P :=
  ⟨fun e he => (h'.valid e he).trans (h.valid e he), fun e he hp k => (h'.comp e he hp k).trans (h.comp e he hp k),
    h.next.trans h'.next, fun hf => h'.fresh (h.fresh hf)⟩

theorem creates_set (r : Reg) (e : Entity) (k : Comp) (v : Value) {N : ℕ} {P : Entity → Prop} (h : P e ∨ N ≤ e) :
    Creates r (r.set e k v) N P := by
  refine ⟨fun _ _ => rfl, ?_, le_refl _, fun h => h⟩
  intro e' he hp k'
  refine set_comp _ _ _ _ _ _ ?_
  rintro ⟨rfl, rfl⟩
  rcases h with h | h
  · exact hp h
  · omega

theorem insert_at {m m' : EMap} {x e : Entity} (h : insert m x e = some m') (y : Entity) :
    at? m' y = if y = x then some e else at? m y := by
  unfold EntityMap.insert at h
  split at h
  · simp at h
  · split at h
    · simp at h
    · simp only [Option.some.injEq] at h
      subst h
      simp only [at?, AMap.get?_set]

theorem erase_at {m m' : EMap} {x : Entity} (h : erase m x = some m') {y e : Entity} (hy : at? m' y = some e) :
    at? m y = some e := by
  unfold erase at h
  split at h
  · simp at h
  · simp only [Option.some.injEq] at h
    subst h
    simp only [at?, AMap.get?_erase] at hy ⊢
    split at hy
    · simp at hy
    · exact hy

theorem createLoop_spec {c : Entity} (N : ℕ) (P : Entity → Prop) (xs : List Entity) : ∀ r cl x,
    createLoop c xs r cl = some x → N ≤ r.next →
    Creates r x.1 N P ∧ x.2.queue = cl.queue ∧ (∀ y e, at? x.2.emap y = some e → at? cl.emap y = some e ∨ N ≤ e) := by
  induction xs with
  | nil =>
    intro r cl x h _
    simp only [createLoop, Option.some.injEq] at h
    subst h
    exact ⟨.refl _ _ _, rfl, fun y e h => Or.inl h⟩
  | cons z zs ih =>
    intro r cl x h hN
    simp only [createLoop] at h
    split at h
    · exact ih _ _ _ h hN
    · simp only [Option.bind_eq_some_iff] at h
      obtain ⟨m, hm, h⟩ := h
      obtain ⟨h1, h2, h3⟩ := ih _ _ _ h (by simp only [Reg.set]; omega)
      refine ⟨Creates.trans ?_ h1, h2, ?_⟩
      · refine ⟨?_, ?_, by simp [Reg.set], ?_⟩
        · intro e he
          simp only [Reg.set]
          rw [if_neg (by rintro rfl; exact absurd hN (Nat.not_le.2 he))]
        · intro e he _ k
          simp only [Reg.set]
          rw [if_neg (by rintro ⟨rfl, -⟩; exact absurd hN (Nat.not_le.2 he))]
        · intro hf e he
          simp only [Reg.set] at he ⊢
          split at he
          · next h => subst h; exact Nat.lt_succ_self _
          · exact Nat.lt_succ_of_lt (hf e he)
      · intro y e hy
        rcases h3 y e hy with k | k
        · simp only at k
          rw [insert_at hm] at k
          split at k
          · simp only [Option.some.injEq] at k
            subst k
            exact Or.inr hN
          · exact Or.inl k
        · exact Or.inr k

theorem importItem_spec {N : ℕ} {P : Entity → Prop} {es : List Entity} {k : Comp} {it : ℕ × Value} {s x : Reg × EMap}
    (h : importItem es k it s = some x) (hP : ∀ y ∈ es, ∀ e, at? s.2 y = some e → P e ∨ N ≤ e) :
    Creates s.1 x.1 N P ∧ ∀ y e, at? x.2 y = some e → at? s.2 y = some e := by
  simp only [importItem, Option.bind_eq_some_iff] at h
  obtain ⟨y, hy, h⟩ := h
  have hmem := List.mem_of_getElem? hy
  split at h
  · simp only [Option.some.injEq] at h
    subst h
    exact ⟨.refl _ _ _, fun _ _ h => h⟩
  · next e he =>
    split at h
    · simp only [Option.map_eq_some_iff] at h
      obtain ⟨m, hm, rfl⟩ := h
      exact ⟨.refl _ _ _, fun _ _ h => erase_at hm h⟩
    · split at h
      · simp only [Option.some.injEq] at h
        subst h
        split
        · exact ⟨.refl _ _ _, fun _ _ h => h⟩
        · exact ⟨creates_set _ _ _ _ (hP y hmem e he), fun _ _ h => h⟩
      · simp only [Option.some.injEq] at h
        subst h
        exact ⟨creates_set _ _ _ _ (hP y hmem e he), fun _ _ h => h⟩

theorem importItems_spec {N : ℕ} {P : Entity → Prop} {es : List Entity} {k : Comp} (its : List (ℕ × Value)) :
    ∀ s x : Reg × EMap, importItems es k its s = some x → (∀ y ∈ es, ∀ e, at? s.2 y = some e → P e ∨ N ≤ e) →
    Creates s.1 x.1 N P ∧ ∀ y e, at? x.2 y = some e → at? s.2 y = some e := by
  induction its with
  | nil =>
    intro s x h _
    simp only [importItems, Option.some.injEq] at h
    subst h
    exact ⟨.refl _ _ _, fun _ _ h => h⟩
  | cons it its ih =>
    intro s x h hP
    simp only [importItems, Option.bind_eq_some_iff] at h
    obtain ⟨s', h1, h2⟩ := h
    obtain ⟨a1, a2⟩ := importItem_spec h1 hP
    obtain ⟨b1, b2⟩ := ih _ _ h2 fun y hy e he => hP y hy e (a2 y e he)
    exact ⟨a1.trans b1, fun y e he => a2 y e (b2 y e he)⟩

theorem importPools_spec {N : ℕ} {P : Entity → Prop} {es : List Entity} (ps : List Pool) :
    ∀ s x : Reg × EMap, importPools es ps s = some x → (∀ y ∈ es, ∀ e, at? s.2 y = some e → P e ∨ N ≤ e) →
    Creates s.1 x.1 N P ∧ ∀ y e, at? x.2 y = some e → at? s.2 y = some e := by
  induction ps with
  | nil =>
    intro s x h _
    simp only [importPools, Option.some.injEq] at h
    subst h
    exact ⟨.refl _ _ _, fun _ _ h => h⟩
  | cons p ps ih =>
    intro s x h hP
    simp only [importPools, Option.bind_eq_some_iff] at h
    obtain ⟨s', h1, h2⟩ := h
    obtain ⟨a1, a2⟩ := importItems_spec _ _ _ h1 hP
    obtain ⟨b1, b2⟩ := ih _ _ h2 fun y hy e he => hP y hy e (a2 y e he)
    exact ⟨a1.trans b1, fun y e he => a2 y e (b2 y e he)⟩

theorem derive_spec {N : ℕ} {P : Entity → Prop} {r r' : Reg} {e : Entity} {b d : Comp} (h : derive r e b d = some r')
    (he : P e ∨ N ≤ e) : Creates r r' N P := by
  unfold derive at h
  split at h
  · split at h
    · simp at h
    · simp only [Option.some.injEq] at h
      subst h
      exact creates_set _ _ _ _ he
  · simp only [Option.some.injEq] at h
    subst h
    exact .refl _ _ _

theorem finishEntity_spec {N : ℕ} {P : Entity → Prop} {r r' : Reg} {e : Entity} (h : finishEntity r e = some r')
    (he : P e ∨ N ≤ e) : Creates r r' N P := by
  unfold finishEntity at h
  split at h
  · simp at h
  · split at h
    · simp at h
    · simp only [Option.bind_eq_some_iff] at h
      obtain ⟨r1, h1, r2, h2, r3, h3, h⟩ := h
      refine (derive_spec h1 he).trans ((derive_spec h2 he).trans ((derive_spec h3 he).trans ?_))
      have k : Creates r3 (if (r3.comp e (.tag 3)).isSome then r3 else r3.set e (.tag 3) ⟨0, []⟩) N P := by
        split
        · exact .refl _ _ _
        · exact creates_set _ _ _ _ he
      refine k.trans ?_
      generalize (if (r3.comp e (.tag 3)).isSome then r3 else r3.set e (.tag 3) ⟨0, []⟩) = r4 at h ⊢
      split at h
      · injection h with h
        subst h
        exact ⟨fun _ _ => rfl, fun _ _ _ _ => rfl, le_refl _, fun h => h⟩
      · injection h with h
        subst h
        exact .refl _ _ _

theorem edgeEntity_spec {N : ℕ} {P : Entity → Prop} {r r' : Reg} {e : Entity} (h : edgeEntity r e = some r') :
    Creates r r' N P := by
  unfold edgeEntity at h
  split at h
  · simp only [Option.some.injEq] at h
    subst h
    exact .refl _ _ _
  · split at h
    · simp only [Option.some.injEq] at h
      subst h
      exact .refl _ _ _
    · simp only [Option.bind_eq_some_iff] at h
      obtain ⟨a, _, b, _, h⟩ := h
      split at h
      · simp only [Option.some.injEq] at h
        subst h
        exact ⟨fun _ _ => rfl, fun _ _ _ _ => rfl, le_refl _, fun h => h⟩
      · simp at h

theorem forEach_spec {N : ℕ} {P : Entity → Prop} {m : EMap} {f : Reg → Entity → Option Reg}
    (hf : ∀ r r' e, f r e = some r' → P e ∨ N ≤ e → Creates r r' N P) (xs : List Entity) : ∀ r r',
    forEach m f xs r = some r' → (∀ y ∈ xs, ∀ e, at? m y = some e → P e ∨ N ≤ e) → Creates r r' N P := by
  induction xs with
  | nil =>
    intro r r' h _
    simp only [forEach, Option.some.injEq] at h
    subst h
    exact .refl _ _ _
  | cons x xs ih =>
    intro r r' h hP
    simp only [forEach, Option.bind_eq_some_iff] at h
    obtain ⟨e, he, r1, h1, h2⟩ := h
    exact (hf _ _ _ h1 (hP x List.mem_cons_self e he)).trans (ih _ _ h2 fun y hy => hP y (List.mem_cons_of_mem _ hy))

theorem processCreate_spec {c : Entity} {p : Snap} {r : Reg} {cl : Client} {x : Reg × Client}
    (h : processCreate c p r cl = some x) :
    Creates r x.1 r.next (fun e => ∃ y ∈ p.entities, at? cl.emap y = some e) ∧ x.2.queue = cl.queue := by
  simp only [processCreate, Option.bind_eq_some_iff, Option.map_eq_some_iff] at h
  obtain ⟨s, h1, i, h2, r1, h3, r2, h4, rfl⟩ := h
  obtain ⟨a1, a2, a3⟩ := createLoop_spec r.next (fun e => ∃ y ∈ p.entities, at? cl.emap y = some e) _ _ _ _ h1 (le_refl _)
  have hP : ∀ y ∈ p.entities, ∀ e, at? s.2.emap y = some e →
      (∃ y ∈ p.entities, at? cl.emap y = some e) ∨ r.next ≤ e := by
    intro y hy e he
    rcases a3 y e he with k | k
    · exact Or.inl ⟨y, hy, k⟩
    · exact Or.inr k
  obtain ⟨b1, b2⟩ := importPools_spec _ _ _ h2 hP
  have hP' : ∀ y ∈ p.entities, ∀ e, at? i.2 y = some e →
      (∃ y ∈ p.entities, at? cl.emap y = some e) ∨ r.next ≤ e := fun y hy e he => hP y hy e (b2 y e he)
  have c1 := forEach_spec (fun r r' e => finishEntity_spec) _ _ _ h3 hP'
  have d1 := forEach_spec (fun r r' e h _ => edgeEntity_spec h) _ _ _ h4 hP'
  exact ⟨a1.trans (b1.trans (c1.trans d1)), a2⟩

/-! ## The server -/

theorem Writes.fresh {r r' : Reg} {P} (h : Writes r r' P) (hf : Fresh r) : Fresh r' := by
  intro e he
  rw [h.valid] at he
  rw [h.next]
  exact hf e he

/-- Everything in the queues was permitted at some time. -/
def Queued (past : List Reg) (s : State) : Prop :=
  ∀ c cl, s.clients c = some cl → ∀ q ∈ cl.queue, ∀ sn, q.packet = .snapshot sn →
    ∀ p ∈ sn.pools, PoolOk (fun e k => ∃ ρ ∈ past, May ρ c e k) sn.entities p

theorem PoolOk.mono {P Q : Entity → Comp → Prop} {es : List Entity} {p : Pool} (h : PoolOk P es p)
    (hpq : ∀ e k, P e k → Q e k) : PoolOk Q es p := fun he it hit e hes => hpq _ _ (h he it hit e hes)

/-- What the packet which is processed may change. -/
theorem processPacket_spec {past : List Reg} {c : Entity} {p : Packet} {r : Reg} {cl : Client} {x : Reg × Client}
    (hf : Fresh r) (hq : ∀ sn, p = .snapshot sn → ∀ q ∈ sn.pools, PoolOk (fun e k => ∃ ρ ∈ past, May ρ c e k) sn.entities q)
    (h : processPacket c p r cl = some x) :
    Fresh x.1 ∧ x.2.queue = cl.queue ∧ ∀ e, r.valid e = true →
      (x.1.valid e = false → MayDestroy r c e) ∧
      (x.1.valid e = true → ∀ k, x.1.comp e k ≠ r.comp e k → (∃ ρ ∈ past, May ρ c e k) ∨
        ∃ q, p = .create q ∧ ∃ y ∈ q.entities, at? cl.emap y = some e) := by
  cases p with
  | snapshot sn =>
    simp only [processPacket, Option.map_eq_some_iff] at h
    obtain ⟨r', h, rfl⟩ := h
    have hw := replacePools_writes _ _ _ _ h (hq sn rfl)
    refine ⟨hw.fresh hf, rfl, ?_⟩
    intro e he
    refine ⟨?_, fun _ k hne => Or.inl (hw.comp e k hne)⟩
    intro hx
    simp only at hx
    rw [hw.valid, he] at hx
    simp at hx
  | create q =>
    obtain ⟨hc, hqu⟩ := processCreate_spec (by exact h : processCreate c q r cl = some x)
    refine ⟨hc.fresh hf, hqu, ?_⟩
    intro e he
    have hlt := hf e he
    refine ⟨?_, ?_⟩
    · intro hx
      rw [hc.valid e hlt, he] at hx
      simp at hx
    · intro _ k hne
      right
      refine ⟨q, rfl, ?_⟩
      by_contra hno
      exact hne (hc.comp e hlt hno k)
  | destroy es =>
    obtain ⟨hn, hqu, hd⟩ := processDestroy_spec _ _ _ _ (by exact h : processDestroy c es r cl = some x)
    refine ⟨?_, hqu, ?_⟩
    · intro e he
      rcases hd e with ⟨h1, -⟩ | ⟨h1, -⟩
      · rw [h1] at he
        rw [hn]
        exact hf e he
      · rw [h1] at he
        simp at he
    · intro e he
      rcases hd e with ⟨h1, h2⟩ | ⟨h1, h2⟩
      · refine ⟨?_, fun _ k hne => absurd (h2 k) hne⟩
        intro hx
        rw [h1, he] at hx
        simp at hx
      · refine ⟨fun _ => h2, ?_⟩
        intro hx
        rw [h1] at hx
        simp at hx
  | updateMap ps =>
    simp only [processPacket, Option.map_eq_some_iff] at h
    obtain ⟨m, _, rfl⟩ := h
    refine ⟨hf, rfl, fun e he => ⟨?_, fun _ k hne => absurd rfl hne⟩⟩
    intro hx
    simp only at hx
    rw [he] at hx
    simp at hx
  | other =>
    simp only [processPacket, Option.some.injEq] at h
    subst h
    refine ⟨hf, rfl, fun e he => ⟨?_, fun _ k hne => absurd rfl hne⟩⟩
    intro hx
    simp only at hx
    rw [he] at hx
    simp at hx

theorem queued_put {past : List Reg} {s : State} {c : Entity} {x : Reg × Client} (hq : Queued past s)
    (h : ∀ q ∈ x.2.queue, ∀ sn, q.packet = .snapshot sn →
      ∀ p ∈ sn.pools, PoolOk (fun e k => ∃ ρ ∈ past, May ρ c e k) sn.entities p) :
    Queued (x.1 :: past) (s.put c x) := by
  intro c' cl hc q hqm sn hsn p hp
  simp only [State.put] at hc
  have up : PoolOk (fun e k => ∃ ρ ∈ past, May ρ c' e k) sn.entities p := by
    split at hc
    · next he =>
      simp only [Option.some.injEq] at hc
      subst hc he
      exact h q hqm sn hsn p hp
    · exact hq c' cl hc q hqm sn hsn p hp
  refine up.mono ?_
  rintro e k ⟨ρ, hρ, hm⟩
  exact ⟨ρ, List.mem_cons_of_mem _ hρ, hm⟩

/-- The invariant, and what one step of a client changes. -/
theorem step_spec {past : List Reg} {s s' : State} {op : Op} (hok : op.Ok) (h : step env s op = some s')
    (hf : Fresh s.reg) (hq : Queued past s) (hp : s.reg ∈ past) :
    Fresh s'.reg ∧ Queued (s'.reg :: past) s' ∧ ∀ c, op.By c → ∀ e, s.reg.valid e = true →
      (s'.reg.valid e = false → MayDestroy s.reg c e) ∧
      (s'.reg.valid e = true → ∀ k, s'.reg.comp e k ≠ s.reg.comp e k → (∃ ρ ∈ past, May ρ c e k) ∨
        ∃ cl q qs, s.clients c = some cl ∧ cl.queue = q :: qs ∧ ∃ sn, q.packet = .create sn ∧
          ∃ y ∈ sn.entities, at? cl.emap y = some e) := by
  cases op with
  | join c =>
    simp only [step, Option.some.injEq] at h
    subst h
    refine ⟨hf, queued_put hq ?_, fun c h => h.elim⟩
    intro q hqm
    simp at hqm
  | world r =>
    simp only [step, Option.some.injEq] at h
    subst h
    refine ⟨hok, ?_, fun c h => h.elim⟩
    intro c cl hc q hqm sn hsn p hpp
    refine (hq c cl hc q hqm sn hsn p hpp).mono ?_
    rintro e k ⟨ρ, hρ, hm⟩
    exact ⟨ρ, List.mem_cons_of_mem _ hρ, hm⟩
  | receive c p t =>
    simp only [step, Option.bind_eq_some_iff, Option.map_eq_some_iff] at h
    obtain ⟨cl, hcl, x, hx, rfl⟩ := h
    have plain : ∀ x : Reg × Client, x.1 = s.reg → (∀ q ∈ x.2.queue, q ∈ cl.queue ∨ ∀ sn, q.packet ≠ .snapshot sn) →
        Fresh (s.put c x).reg ∧ Queued ((s.put c x).reg :: past) (s.put c x) ∧ ∀ c', (Op.receive c p t).By c' →
          ∀ e, s.reg.valid e = true → ((s.put c x).reg.valid e = false → MayDestroy s.reg c' e) ∧
          ((s.put c x).reg.valid e = true → ∀ k, (s.put c x).reg.comp e k ≠ s.reg.comp e k →
            (∃ ρ ∈ past, May ρ c' e k) ∨ ∃ cl q qs, s.clients c' = some cl ∧ cl.queue = q :: qs ∧
              ∃ sn, q.packet = .create sn ∧ ∃ y ∈ sn.entities, at? cl.emap y = some e) := by
      intro x hx hqx
      refine ⟨by simpa only [State.put, hx] using hf, queued_put hq ?_, ?_⟩
      · intro q hqm sn hsn p' hp'
        rcases hqx q hqm with k | k
        · exact hq c cl hcl q k sn hsn p' hp'
        · exact absurd hsn (k sn)
      · intro c' _ e he
        simp only [State.put, hx]
        exact ⟨fun k => by rw [he] at k; simp at k, fun _ k hne => absurd rfl hne⟩
    have ins : ∀ p : Packet, (∀ sn, p ≠ .snapshot sn) → ∀ q ∈ insertPacket cl.queue t p,
        q ∈ cl.queue ∨ ∀ sn, q.packet ≠ .snapshot sn := by
      intro p hp' q hqm
      simp only [insertPacket, List.mem_append, List.mem_cons] at hqm
      rcases hqm with k | rfl | k
      · exact Or.inl ((List.takeWhile_prefix _).subset k)
      · exact Or.inr hp'
      · exact Or.inl ((List.dropWhile_suffix _).subset k)
    cases p with
    | snapshot sn =>
      obtain ⟨hw, he, hqx⟩ := receiveSnapshot_spec (by exact hx)
      refine ⟨hw.fresh hf, queued_put hq ?_, ?_⟩
      · intro q hqm sn' hsn p' hp'
        rcases hqx q hqm with k | ⟨sn2, k1, k2⟩
        · exact hq c cl hcl q k sn' hsn p' hp'
        · rw [k1] at hsn
          simp only [Packet.snapshot.injEq] at hsn
          subst hsn
          exact (k2 p' hp').mono fun e k h => ⟨s.reg, hp, h⟩
      · intro c' hc e he
        simp only [Op.By] at hc
        subst hc
        refine ⟨?_, fun _ k hne => Or.inl ⟨s.reg, hp, hw.comp e k hne⟩⟩
        intro hv
        simp only [State.put] at hv
        rw [hw.valid, he] at hv
        simp at hv
    | other =>
      simp only [processPacket, Option.some.injEq] at hx
      subst hx
      exact plain _ rfl fun q hq => Or.inl hq
    | create sn =>
      simp only [Option.some.injEq] at hx
      subst hx
      exact plain _ rfl (ins _ (by simp))
    | destroy es =>
      simp only [Option.some.injEq] at hx
      subst hx
      exact plain _ rfl (ins _ (by simp))
    | updateMap ps =>
      simp only [Option.some.injEq] at hx
      subst hx
      exact plain _ rfl (ins _ (by simp))
  | process c limit =>
    simp only [step, Option.bind_eq_some_iff] at h
    obtain ⟨cl, hcl, h⟩ := h
    have stay : s = s' → Fresh s'.reg ∧ Queued (s'.reg :: past) s' ∧ ∀ c', (Op.process c limit).By c' →
        ∀ e, s.reg.valid e = true → (s'.reg.valid e = false → MayDestroy s.reg c' e) ∧
          (s'.reg.valid e = true → ∀ k, s'.reg.comp e k ≠ s.reg.comp e k → (∃ ρ ∈ past, May ρ c' e k) ∨
            ∃ cl q qs, s.clients c' = some cl ∧ cl.queue = q :: qs ∧
              ∃ sn, q.packet = .create sn ∧ ∃ y ∈ sn.entities, at? cl.emap y = some e) := by
      rintro rfl
      refine ⟨hf, ?_, ?_⟩
      · intro c cl hc q hqm sn hsn p hpp
        refine (hq c cl hc q hqm sn hsn p hpp).mono ?_
        rintro e k ⟨ρ, hρ, hm⟩
        exact ⟨ρ, List.mem_cons_of_mem _ hρ, hm⟩
      · intro c' _ e he
        exact ⟨fun k => by rw [he] at k; simp at k, fun _ k hne => absurd rfl hne⟩
    split at h
    · simp only [Option.some.injEq] at h
      exact stay h
    · next q qs hqs =>
      split at h
      · simp only [Option.some.injEq] at h
        exact stay h
      · simp only [Option.map_eq_some_iff] at h
        obtain ⟨x, hx, rfl⟩ := h
        have hqq : ∀ sn, q.packet = .snapshot sn → ∀ p ∈ sn.pools,
            PoolOk (fun e k => ∃ ρ ∈ past, May ρ c e k) sn.entities p := by
          intro sn hsn
          exact hq c cl hcl q (by rw [hqs]; exact List.mem_cons_self) sn hsn
        obtain ⟨k1, k2, k3⟩ := processPacket_spec hf hqq hx
        refine ⟨k1, queued_put hq ?_, ?_⟩
        · intro q' hq' sn hsn
          rw [k2] at hq'
          exact hq c cl hcl q' (by rw [hqs]; exact List.mem_cons_of_mem _ hq') sn hsn
        · intro c' hc e he
          simp only [Op.By] at hc
          subst hc
          obtain ⟨a1, a2⟩ := k3 e he
          refine ⟨a1, ?_⟩
          intro hv k hne
          rcases a2 hv k hne with b | ⟨sn, hsn, b⟩
          · exact Or.inl b
          · exact Or.inr ⟨cl, q, qs, hcl, hqs, sn, hsn, b⟩

theorem runs_inv {past : List Reg} {s : State} (h : Runs env past s) : Fresh s.reg ∧ Queued past s ∧ s.reg ∈ past := by
  induction h with
  | init r hf => exact ⟨hf, by intro c cl hc; simp at hc, List.mem_cons_self⟩
  | step hr hok hs ih =>
    obtain ⟨h1, h2, -⟩ := step_spec hok hs ih.1 ih.2.1 ih.2.2
    exact ⟨h1, h2, List.mem_cons_self⟩

/-- **C79**, in part: whatever packets clients send, in any order, what a client's packet changes of the entities there
are, it was permitted to change when the packet arrived or at some time before, and what it destroys it is permitted to
destroy; the only exception are packets which create entities and name an entity which the client knows already. -/
theorem server_authority_partial {past : List Reg} {s s' : State} {op : Op} {c : Entity} (hr : Runs env past s)
    (hok : op.Ok) (hby : op.By c) (h : step env s op = some s') (e : Entity) (he : s.reg.valid e = true) :
    (s'.reg.valid e = false → MayDestroy s.reg c e) ∧
    (s'.reg.valid e = true → ∀ k, s'.reg.comp e k ≠ s.reg.comp e k → (∃ ρ ∈ past, May ρ c e k) ∨
      ∃ cl q qs, s.clients c = some cl ∧ cl.queue = q :: qs ∧ ∃ sn, q.packet = .create sn ∧
        ∃ y ∈ sn.entities, at? cl.emap y = some e) := by
  obtain ⟨h1, h2, h3⟩ := runs_inv hr
  exact (step_spec hok h h1 h2 h3).2.2 c hby e he

/-- **C79**, in full: what a packet of a client changes, the client is permitted to change at that time. -/
def AuthorityFull : Prop :=
  ∀ (env : Env) (past : List Reg) (s s' : State) (op : Op) (c : Entity), Runs env past s → op.Ok → op.By c →
    step env s op = some s' → ∀ e, s.reg.valid e = true →
      (s'.reg.valid e = false → MayDestroy s.reg c e) ∧
      (s'.reg.valid e = true → ∀ k, s'.reg.comp e k ≠ s.reg.comp e k → May s.reg c e k)

/-! ### Snapshots and names -/

theorem replaceItems_isSome {es : List Entity} {k : Comp} (its : List (ℕ × Value)) : ∀ r r', replaceItems es k its r = some r' →
    ∀ e k', (r'.comp e k').isSome = (r.comp e k').isSome := by
  induction its with
  | nil =>
    intro r r' h e k'
    simp only [replaceItems, Option.some.injEq] at h
    rw [h]
  | cons it its ih =>
    intro r r' h e k'
    simp only [replaceItems, Option.bind_eq_some_iff] at h
    obtain ⟨e1, _, h⟩ := h
    split at h
    · next hc =>
      rw [ih _ _ h]
      simp only [Bool.and_eq_true] at hc
      simp only [Reg.set]
      split
      · next h' => rw [h'.1, h'.2, hc.2]; rfl
      · rfl
    · exact ih _ _ h e k'

/-- A snapshot replaces components but adds and removes none. -/
theorem snapshot_adds_nothing {c : Entity} {sn : Snap} {r : Reg} {cl : Client} {x : Reg × Client}
    (h : processPacket c (.snapshot sn) r cl = some x) (e : Entity) (k : Comp) :
    (x.1.comp e k).isSome = (r.comp e k).isSome := by
  simp only [processPacket, Option.map_eq_some_iff] at h
  obtain ⟨r', h, rfl⟩ := h
  have : ∀ (ps : List Pool) r r', replacePools sn.entities ps r = some r' →
      (r'.comp e k).isSome = (r.comp e k).isSome := by
    intro ps
    induction ps with
    | nil =>
      intro r r' h
      simp only [replacePools, Option.some.injEq] at h
      rw [h]
    | cons p ps ih =>
      intro r r' h
      simp only [replacePools, Option.bind_eq_some_iff] at h
      obtain ⟨r1, h1, h2⟩ := h
      rw [ih _ _ h2]
      split at h1
      · simp only [Option.some.injEq] at h1
        rw [h1]
      · exact replaceItems_isSome _ _ _ h1 e k
  exact this _ _ _ h

theorem createLoop_names {c : Entity} (xs : List Entity) : ∀ r cl x, createLoop c xs r cl = some x →
    (∀ e, r.valid e = true → x.1.valid e = true) ∧
    ∀ y e, at? x.2.emap y = some e → at? cl.emap y = some e ∨ x.1.valid e = true := by
  induction xs with
  | nil =>
    intro r cl x h
    simp only [createLoop, Option.some.injEq] at h
    subst h
    exact ⟨fun _ h => h, fun y e h => Or.inl h⟩
  | cons z zs ih =>
    intro r cl x h
    simp only [createLoop] at h
    split at h
    · exact ih _ _ _ h
    · simp only [Option.bind_eq_some_iff] at h
      obtain ⟨m, hm, h⟩ := h
      obtain ⟨h1, h2⟩ := ih _ _ _ h
      refine ⟨fun e he => h1 e (by simp only [Reg.set]; split <;> simp [he]), ?_⟩
      intro y e hy
      rcases h2 y e hy with k | k
      · simp only at k
        rw [insert_at hm] at k
        split at k
        · simp only [Option.some.injEq] at k
          subst k
          exact Or.inr (h1 _ (by simp [Reg.set]))
        · exact Or.inl k
      · exact Or.inr k

theorem processDestroy_names {c : Entity} (xs : List Entity) : ∀ r cl x, processDestroy c xs r cl = some x →
    ∀ y e, at? x.2.emap y = some e → at? cl.emap y = some e := by
  induction xs with
  | nil =>
    intro r cl x h
    simp only [processDestroy, Option.some.injEq] at h
    subst h
    exact fun _ _ h => h
  | cons z zs ih =>
    intro r cl x h y e hy
    simp only [processDestroy] at h
    split at h
    · exact ih _ _ _ h y e hy
    · split at h
      · simp only [Option.bind_eq_some_iff] at h
        obtain ⟨m, hm, h⟩ := h
        split at h
        · exact erase_at hm (ih _ _ _ h y e hy)
        · simp at h
      · exact ih _ _ _ h y e hy

theorem processMap_names {r : Reg} (ps : List (Entity × Entity)) : ∀ m m', processMap r ps m = some m' →
    ∀ y e, at? m' y = some e → at? m y = some e ∨ r.valid e = true := by
  induction ps with
  | nil =>
    intro m m' h y e hy
    simp only [processMap, Option.some.injEq] at h
    subst h
    exact Or.inl hy
  | cons p ps ih =>
    intro m m' h y e hy
    simp only [processMap] at h
    split at h
    · next hv =>
      simp only [Option.bind_eq_some_iff] at h
      obtain ⟨m1, h1, h⟩ := h
      rcases ih _ _ h y e hy with k | k
      · rw [insert_at h1] at k
        split at k
        · simp only [Option.some.injEq] at k
          subst k
          exact Or.inr hv
        · exact Or.inl k
      · exact Or.inr k
    · exact ih _ _ h y e hy

theorem forEach_valid {m : EMap} {f : Reg → Entity → Option Reg}
    (hf : ∀ r r' e, f r e = some r' → r'.valid = r.valid) (xs : List Entity) : ∀ r r',
    forEach m f xs r = some r' → r'.valid = r.valid := by
  induction xs with
  | nil =>
    intro r r' h
    simp only [forEach, Option.some.injEq] at h
    rw [h]
  | cons x xs ih =>
    intro r r' h
    simp only [forEach, Option.bind_eq_some_iff] at h
    obtain ⟨e, _, r1, h1, h2⟩ := h
    rw [ih _ _ h2, hf _ _ _ h1]

theorem importItem_valid {es : List Entity} {k : Comp} {it : ℕ × Value} {s x : Reg × EMap}
    (h : importItem es k it s = some x) : x.1.valid = s.1.valid := by
  simp only [importItem, Option.bind_eq_some_iff] at h
  obtain ⟨y, _, h⟩ := h
  split at h
  · simp only [Option.some.injEq] at h
    rw [h]
  · split at h
    · simp only [Option.map_eq_some_iff] at h
      obtain ⟨m, _, rfl⟩ := h
      rfl
    · split at h
      · simp only [Option.some.injEq] at h
        subst h
        split <;> rfl
      · simp only [Option.some.injEq] at h
        subst h
        rfl

theorem importPools_valid {es : List Entity} (ps : List Pool) :
    ∀ s x : Reg × EMap, importPools es ps s = some x → x.1.valid = s.1.valid := by
  have hi : ∀ (k : Comp) (its : List (ℕ × Value)) (s x : Reg × EMap), importItems es k its s = some x →
      x.1.valid = s.1.valid := by
    intro k its
    induction its with
    | nil =>
      intro s x h
      simp only [importItems, Option.some.injEq] at h
      rw [h]
    | cons it its ih =>
      intro s x h
      simp only [importItems, Option.bind_eq_some_iff] at h
      obtain ⟨s', h1, h2⟩ := h
      rw [ih _ _ h2, importItem_valid h1]
  induction ps with
  | nil =>
    intro s x h
    simp only [importPools, Option.some.injEq] at h
    rw [h]
  | cons p ps ih =>
    intro s x h
    simp only [importPools, Option.bind_eq_some_iff] at h
    obtain ⟨s', h1, h2⟩ := h
    rw [ih _ _ h2, hi _ _ _ _ h1]

theorem finishEntity_valid {r r' : Reg} {e : Entity} (h : finishEntity r e = some r') : r'.valid = r.valid := by
  have hd : ∀ {r r' : Reg} {b d : Comp}, derive r e b d = some r' → r'.valid = r.valid := by
    intro r r' b d h
    unfold derive at h
    split at h
    · split at h
      · simp at h
      · simp only [Option.some.injEq] at h
        subst h
        rfl
    · simp only [Option.some.injEq] at h
      rw [h]
  unfold finishEntity at h
  split at h
  · simp at h
  · split at h
    · simp at h
    · simp only [Option.bind_eq_some_iff] at h
      obtain ⟨r1, h1, r2, h2, r3, h3, h⟩ := h
      rw [← hd h1, ← hd h2, ← hd h3]
      have k : (if (r3.comp e (.tag 3)).isSome then r3 else r3.set e (.tag 3) ⟨0, []⟩).valid = r3.valid := by
        split <;> rfl
      rw [← k]
      generalize (if (r3.comp e (.tag 3)).isSome then r3 else r3.set e (.tag 3) ⟨0, []⟩) = r4 at h ⊢
      split at h <;> (injection h with h; subst h; rfl)

theorem edgeEntity_valid {r r' : Reg} {e : Entity} (h : edgeEntity r e = some r') : r'.valid = r.valid := by
  unfold edgeEntity at h
  split at h
  · simp only [Option.some.injEq] at h
    rw [h]
  · split at h
    · simp only [Option.some.injEq] at h
      rw [h]
    · simp only [Option.bind_eq_some_iff] at h
      obtain ⟨a, _, b, _, h⟩ := h
      split at h
      · simp only [Option.some.injEq] at h
        subst h
        rfl
      · simp at h

/-- Every name a client has given stands for an entity which exists or has existed: a client cannot name entities which
are created later. -/
theorem names_known {past : List Reg} {s : State} (hr : Runs env past s) : ∀ {c : Entity} {cl : Client},
    s.clients c = some cl → ∀ {x e : Entity}, at? cl.emap x = some e → ∃ ρ ∈ past, ρ.valid e = true := by
  induction hr with
  | init r _ =>
    intro c cl hc
    simp at hc
  | @step past s op s' hr hok hs ih =>
    have hin := (runs_inv hr).2.2
    have up : ∀ {e : Entity}, (∃ ρ ∈ past, ρ.valid e = true) → ∃ ρ ∈ s'.reg :: past, ρ.valid e = true := by
      rintro e ⟨ρ, h, hv⟩
      exact ⟨ρ, List.mem_cons_of_mem _ h, hv⟩
    have put : ∀ {c : Entity} {x : Reg × Client}, s' = s.put c x →
        (∀ y e, at? x.2.emap y = some e → (∃ ρ ∈ past, ρ.valid e = true) ∨ x.1.valid e = true) →
        ∀ {c' : Entity} {cl : Client}, s'.clients c' = some cl → ∀ {y e : Entity}, at? cl.emap y = some e →
          ∃ ρ ∈ s'.reg :: past, ρ.valid e = true := by
      intro c x hs' h c' cl hc y e hy
      subst hs'
      simp only [State.put] at hc
      split at hc
      · simp only [Option.some.injEq] at hc
        subst hc
        rcases h y e hy with k | k
        · exact up k
        · exact ⟨_, List.mem_cons_self, k⟩
      · exact up (ih hc hy)
    cases op with
    | join c =>
      simp only [step, Option.some.injEq] at hs
      intro c' cl' hc' y' e' hy'
      refine put hs.symm ?_ hc' hy'
      intro y e hy
      simp [at?, EntityMap.init] at hy
    | world r =>
      simp only [step, Option.some.injEq] at hs
      subst hs
      intro c cl hc x e hx
      exact up (ih hc hx)
    | receive c p t =>
      simp only [step, Option.bind_eq_some_iff, Option.map_eq_some_iff] at hs
      obtain ⟨cl, hcl, x, hx, hs⟩ := hs
      have he : x.2.emap = cl.emap := by
        cases p with
        | snapshot sn => exact (receiveSnapshot_spec (by exact hx)).2.1
        | other =>
          simp only [processPacket, Option.some.injEq] at hx
          rw [← hx]
        | create sn => simp only [Option.some.injEq] at hx; rw [← hx]
        | destroy es => simp only [Option.some.injEq] at hx; rw [← hx]
        | updateMap ps => simp only [Option.some.injEq] at hx; rw [← hx]
      intro c' cl' hc' y' e' hy'
      refine put hs.symm ?_ hc' hy'
      intro y e hy
      rw [he] at hy
      exact Or.inl (ih hcl hy)
    | process c limit =>
      simp only [step, Option.bind_eq_some_iff] at hs
      obtain ⟨cl, hcl, h⟩ := hs
      split at h
      · simp only [Option.some.injEq] at h
        subst h
        intro c' cl' hc x e hx
        exact up (ih hc hx)
      · next q qs hqs =>
        split at h
        · simp only [Option.some.injEq] at h
          subst h
          intro c' cl' hc x e hx
          exact up (ih hc hx)
        · simp only [Option.map_eq_some_iff] at h
          obtain ⟨x, hx, h⟩ := h
          intro c' cl' hc' y' e' hy'
          refine put h.symm ?_ hc' hy'
          intro y e hy
          generalize hp : q.packet = p at hx
          cases p with
          | snapshot sn =>
            simp only [processPacket, Option.map_eq_some_iff] at hx
            obtain ⟨r', _, rfl⟩ := hx
            exact Or.inl (ih hcl hy)
          | create sn =>
            simp only [processPacket, processCreate, Option.bind_eq_some_iff, Option.map_eq_some_iff] at hx
            obtain ⟨s1, h1, i, h2, r1, h3, r2, h4, rfl⟩ := hx
            have h5 := (importPools_spec (N := 0) (P := fun _ => True) _ _ _ h2 (fun _ _ _ _ => Or.inl trivial)).2 y e hy
            rcases (createLoop_names _ _ _ _ h1).2 y e h5 with k | k
            · exact Or.inl (ih hcl k)
            · right
              simp only
              rw [forEach_valid (fun _ _ _ => edgeEntity_valid) _ _ _ h4, forEach_valid (fun _ _ _ => finishEntity_valid) _ _ _ h3,
                importPools_valid _ _ _ h2]
              exact k
          | destroy es =>
            have hx' : processDestroy c es s.reg { cl with queue := qs } = some x := hx
            exact Or.inl (ih hcl (processDestroy_names _ _ _ _ hx' y e hy))
          | updateMap ps =>
            simp only [processPacket, Option.map_eq_some_iff] at hx
            obtain ⟨m, hm, rfl⟩ := hx
            rcases processMap_names _ _ _ hm y e hy with k | k
            · exact Or.inl (ih hcl k)
            · exact Or.inr k
          | other =>
            simp only [processPacket, Option.some.injEq] at hx
            subst hx
            exact Or.inl (ih hcl hy)

/-! ### A packet which creates entities changes any entity -/

/-- Entities 1 and 2 are clients; entity 5 is a body of client 2. -/
def worldOfTwo : Reg where
  valid e := e == 1 || e == 2 || e == 5
  comp e k := if e = 5 ∧ k = .owner then some ⟨0, [some 2]⟩ else none
  node e := if e = 5 then some false else none
  edges := []
  next := 6

theorem worldOfTwo_fresh : Fresh worldOfTwo := by
  intro e he
  simp only [worldOfTwo, Bool.or_eq_true, beq_iff_eq] at he ⊢
  rcases he with (rfl | rfl) | rfl <;> decide

/-- Client 1 tells the server names for itself and for entity 5. -/
def namesPacket : Packet := .updateMap [(1, 101), (5, 105)]

/-- Client 1 creates an entity with the name of entity 5, owned by itself. -/
def takePacket : Packet := .create ⟨[105], [⟨.owner, [(0, ⟨0, [some 101]⟩)]⟩]⟩

/-- The map of client 1. -/
def namesMap : EMap := ⟨⟨[(105, 5), (101, 1)]⟩, ⟨[(5, 105), (1, 101)]⟩⟩

/-- The client after its names have been taken over and the other packet has arrived. -/
def takeState : State :=
  ⟨worldOfTwo, fun c => if c = 1 then some ⟨namesMap, [], [⟨0, takePacket⟩]⟩ else none⟩

theorem take_runs (env : Env) : ∃ past, Runs env past takeState ∧ ∀ ρ ∈ past, ρ = worldOfTwo := by
  have h0 := Runs.init (env := env) worldOfTwo worldOfTwo_fresh
  have h1 := h0.step (op := .join 1) trivial rfl
  have h2 := h1.step (op := .receive 1 namesPacket 0) trivial rfl
  have h3 := h2.step (op := .process 1 0) (s' := ⟨worldOfTwo, fun c => if c = 1 then some ⟨namesMap, [], []⟩ else none⟩)
    trivial (by
      simp only [step, State.put, if_pos, Option.bind_some]
      simp [insertPacket, namesPacket, processPacket, processMap, worldOfTwo, EntityMap.insert, EntityMap.init, AMap.empty,
        AMap.contains, AMap.get?, AMap.set, AMap.erase, AMap.lookupList, namesMap, State.put]
      funext c
      split <;> simp [*])
  have h4 := h3.step (op := .receive 1 takePacket 0) (s' := takeState) trivial (by
      simp only [step, if_pos, Option.bind_some, takePacket]
      simp [insertPacket, takeState, State.put, takePacket]
      funext c
      split <;> simp [*])
  exact ⟨_, h4, by simp [State.put, takeState]⟩

/-- **The server lets a client take over any entity**: client 1 owns nothing and is connected to nothing, and after its
packet entity 5, which belongs to client 2, belongs to it. -/
theorem create_takes_over (env : Env) : ∃ past s s', Runs env past s ∧ step env s (.process 1 0) = some s' ∧
    (∀ ρ ∈ past, ρ.owner 5 = some 2 ∧ ∀ e, ρ.owner e ≠ some 1) ∧ s.reg.valid 5 = true ∧ s'.reg.owner 5 = some 1 := by
  obtain ⟨past, h, hp⟩ := take_runs env
  refine ⟨past, takeState, ⟨{ (worldOfTwo.set 5 .owner ⟨0, [some 1]⟩).set 5 (.tag 3) ⟨0, []⟩ with },
    fun c => if c = 1 then some ⟨namesMap, [], []⟩ else none⟩, h, ?_, ?_, rfl, ?_⟩
  · simp only [step, takeState, if_pos, Option.bind_some]
    simp [takePacket, processPacket, processCreate, createLoop, contains, namesMap, AMap.contains, AMap.get?,
      AMap.lookupList, importPools, importItems, importItem, at?, worldOfTwo, Comp.empty, mapRefs, forEach, finishEntity,
      derive, Reg.set, edgeEntity, State.put]
    funext c
    split <;> simp [*]
  · intro ρ hρ
    rw [hp ρ hρ]
    refine ⟨rfl, ?_⟩
    intro e
    unfold Reg.owner worldOfTwo
    by_cases he : e = 5 <;> simp [he]
  · simp [Reg.owner, Reg.set]

/-- **C79** in full does not hold. -/
theorem authority_refuted : ¬AuthorityFull := by
  intro h
  obtain ⟨past, s, s', hr, hs, hp, hv, ho⟩ := create_takes_over ⟨fun _ => false, fun a _ => a⟩
  obtain ⟨-, -, hin⟩ := runs_inv hr
  obtain ⟨ho2, hno⟩ := hp _ hin
  have hd := h _ past s s' (.process 1 0) 1 hr trivial rfl hs 5 hv
  cases hv' : s'.reg.valid 5 with
  | false =>
    rcases hd.1 hv' with k | ⟨b, k, -⟩
    · exact hno _ k
    · exact hno _ k
  | true =>
    have := hd.2 hv' .owner (by
      intro he
      unfold Reg.owner at ho ho2
      rw [he, ho2] at ho
      simp at ho)
    simp only [May, Comp.isInput, Bool.false_eq_true, if_false] at this
    obtain ⟨n, -, ⟨v, -, k⟩, -⟩ := this
    exact hno v k

/-! ### Permission is checked when the packet arrives -/

/-- Entity 5 belongs to client 1 and has an input. -/
def worldOfOne : Reg where
  valid e := e == 1 || e == 2 || e == 5
  comp e k := if e = 5 then (if k = .owner then some ⟨0, [some 1]⟩ else if k = .input 0 then some ⟨0, []⟩ else none) else none
  node e := if e = 5 then some false else none
  edges := []
  next := 6

/-- Client 1 sets the input. -/
def inputPacket : Packet := .snapshot ⟨[105], [⟨.input 0, [(0, ⟨7, []⟩)]⟩]⟩

/-- **A packet is applied although its client does not own the entity any more**, if it did when the packet arrived: the
exception `∃ ρ ∈ past` of `server_authority_partial` occurs. -/
theorem late_packet_applied (env : Env) : ∃ past s s', Runs env past s ∧ step env s (.process 1 1) = some s' ∧
    s.reg.owner 5 = some 2 ∧ s.reg.comp 5 (.input 0) = some ⟨0, []⟩ ∧ s'.reg.comp 5 (.input 0) = some ⟨7, []⟩ := by
  have hf : Fresh worldOfOne := worldOfTwo_fresh
  have hf' : Fresh (worldOfOne.set 5 .owner ⟨0, [some 2]⟩) := worldOfTwo_fresh
  have h0 := Runs.init (env := env) worldOfOne hf
  have h1 := h0.step (op := .join 1) trivial rfl
  have h2 := h1.step (op := .receive 1 namesPacket 0) trivial rfl
  have h3 := h2.step (op := .process 1 0) (s' := ⟨worldOfOne, fun c => if c = 1 then some ⟨namesMap, [], []⟩ else none⟩)
    trivial (by
      simp only [step, State.put, if_pos, Option.bind_some]
      simp [insertPacket, namesPacket, processPacket, processMap, worldOfOne, EntityMap.insert, EntityMap.init, AMap.empty,
        AMap.contains, AMap.get?, AMap.set, AMap.erase, AMap.lookupList, namesMap, State.put]
      funext c
      split <;> simp [*])
  have h4 := h3.step (op := .receive 1 inputPacket 1) (s' := ⟨worldOfOne,
      fun c => if c = 1 then some ⟨namesMap, [], [⟨1, .snapshot ⟨[5], [⟨.input 0, [(0, ⟨7, []⟩)]⟩]⟩⟩]⟩ else none⟩) trivial (by
      simp only [step, if_pos, Option.bind_some, inputPacket]
      simp [receiveSnapshot, toLocal, at?, namesMap, AMap.get?, AMap.lookupList, transformPools, transformItems, keepItem,
        Comp.empty, Comp.isInput, worldOfOne, Reg.owner, mapRefs, mergeHistory, insertPacket, State.put]
      funext c
      split <;> simp [*])
  have h5 := h4.step (op := .world (worldOfOne.set 5 .owner ⟨0, [some 2]⟩)) hf' rfl
  refine ⟨_, _, _, h5, (by simp only [step, if_pos, Option.bind_some]; simp [processPacket, replacePools, Comp.empty, replaceItems, worldOfOne, Reg.set]; rfl), ?_, ?_, ?_⟩
  · simp [Reg.owner, Reg.set]
  · simp [Reg.set, worldOfOne]
  · simp [Reg.set, State.put]

/-! ### What is let through -/

/-- An update of an entity which is a body, owned by the client and connected to no other client, is applied. -/
theorem own_update_applied {s : State} {c e x : Entity} {cl : Client} {k : Comp} {v old : Value} {t limit : ℚ}
    (hc : s.clients c = some cl) (hq : cl.queue = []) (hx : at? cl.emap x = some e) (hv : s.reg.valid e = true)
    (hk : k.empty = false) (hh : k ≠ .history) (hold : s.reg.comp e k = some old) (hn : s.reg.node e ≠ none)
    (he : ∀ a b, (e, a, b) ∉ s.reg.edges) (ho : s.reg.owner e = some c)
    (hal : ∀ w d, s.reg.Visits e w → s.reg.owner w = some d → d = c) (ht : t ≤ limit) :
    ∃ s1 s2, step env s (.receive c (.snapshot ⟨[x], [⟨k, [(0, v)]⟩]⟩) t) = some s1 ∧
      step env s1 (.process c limit) = some s2 ∧ s2.reg.comp e k = some (mapRefs cl.emap v) ∧
      ∀ e' k', (e', k') ≠ (e, k) → s2.reg.comp e' k' = s.reg.comp e' k' := by
  classical
  have hkeep : keepItem s.reg c [e] k (0, v) = some true := by
    have hst : s.reg.start e = some e := by
      unfold Reg.start
      have : s.reg.edges.find? (fun y => decide (y.1 = e)) = none := by
        rw [List.find?_eq_none]
        rintro ⟨w, a, b⟩ hw hwe
        simp only [decide_eq_true_eq] at hwe
        subst hwe
        exact he a b hw
      rw [this]
      have : (s.reg.node e).isSome = true := Option.isSome_iff_ne_none.2 hn
      rw [if_pos this]
    have hon : s.reg.only c e = some true := by
      unfold Reg.only
      rw [hst]
      simp only [Option.map_some, Option.some.injEq, Bool.and_eq_true, decide_eq_true_eq, Bool.not_eq_true',
        decide_eq_false_iff_not]
      refine ⟨⟨e, .start, ho⟩, ?_⟩
      rintro ⟨w, d, hw, hd, hne⟩
      exact hne (hal w d hw hd)
    simp only [keepItem, List.getElem?_cons_zero, Option.bind_some, hv, Bool.not_true, Bool.false_eq_true, if_false]
    split
    · rw [ho]
      simp
    · exact hon
  have hmh : mergeHistory env ⟨[e], [⟨k, [(0, mapRefs cl.emap v)]⟩]⟩ s.reg =
      some (s.reg, ⟨[e], [⟨k, [(0, mapRefs cl.emap v)]⟩]⟩) := by
    simp [mergeHistory, hh]
  let cl1 : Client := { cl with queue := [⟨t, .snapshot ⟨[e], [⟨k, [(0, mapRefs cl.emap v)]⟩]⟩⟩] }
  refine ⟨s.put c (s.reg, cl1), (s.put c (s.reg, cl1)).put c (s.reg.set e k (mapRefs cl.emap v), { cl1 with queue := [] }),
    ?_, ?_, ?_, ?_⟩
  · simp only [step, hc, Option.bind_some, receiveSnapshot, toLocal, hx, Option.map_some, transformPools, hk,
      Bool.false_eq_true, if_false, transformItems, hkeep, if_true, hmh, hq]
    rfl
  · have hcl : (s.put c (s.reg, cl1)).clients c = some cl1 := by simp [State.put]
    simp only [step, hcl, Option.bind_some, cl1]
    rw [if_neg (by simpa using ht)]
    simp [processPacket, replacePools, hk, replaceItems, hv, hold, State.put]
  · simp [State.put, Reg.set]
  · intro e' k' hne
    simp only [State.put]
    exact set_comp _ _ _ _ _ _ (by simpa using hne)

/-- The hypotheses of `own_update_applied` are met by client 1 and its body 5. -/
example : ∃ s1 s2, step env ⟨worldOfOne, fun c => if c = 1 then some ⟨namesMap, [], []⟩ else none⟩
      (.receive 1 (.snapshot ⟨[105], [⟨.input 0, [(0, ⟨7, [some 101]⟩)]⟩]⟩) 0) = some s1 ∧
      step env s1 (.process 1 0) = some s2 ∧ s2.reg.comp 5 (.input 0) = some ⟨7, [some 1]⟩ := by
  have hvis : ∀ w, worldOfOne.Visits 5 w → w = 5 := by
    intro w hw
    induction hw with
    | start => rfl
    | along _ _ he => simp [worldOfOne] at he
    | against _ _ he => simp [worldOfOne] at he
  obtain ⟨s1, s2, h1, h2, h3, -⟩ := own_update_applied (env := env)
    (s := ⟨worldOfOne, fun c => if c = 1 then some ⟨namesMap, [], []⟩ else none⟩) (c := 1) (e := 5) (x := 105)
    (cl := ⟨namesMap, [], []⟩) (k := .input 0) (v := ⟨7, [some 101]⟩) (old := ⟨0, []⟩) (t := 0) (limit := 0) rfl rfl rfl rfl
    rfl (by decide) rfl (by decide) (by simp [worldOfOne]) rfl
    (by
      intro w d hw hd
      rw [hvis w hw] at hd
      simpa [worldOfOne, Reg.owner] using hd.symm) (le_refl _)
  exact ⟨s1, s2, h1, h2, h3⟩

/-- **A client cannot update a constraint of its own whose first body is static**: the walk through the graph begins at
the first body and does not leave it, so that the owner of the second body is not found. -/
theorem constraint_at_static_rejected {r : Reg} {c e a b : Entity} {k : Comp} {v : Value} (hv : r.valid e = true)
    (he : r.edges = [(e, a, b)]) (hab : a ≠ b) (ha : r.node a = some true) (hao : r.owner a = none)
    (hbo : r.owner b = some c) (hk : k.isInput = false) : May r c e k ∧ keepItem r c [e] k (0, v) = some false := by
  classical
  have hfrom : ∀ w, r.Visits a w → w = a := by
    intro w hw
    induction hw with
    | start => rfl
    | along _ hn _ ih => subst ih; rw [ha] at hn; simp at hn
    | against _ hn _ ih => subst ih; rw [ha] at hn; simp at hn
  have hfrom' : ∀ w, r.Visits b w → w = a ∨ w = b := by
    intro w hw
    induction hw with
    | start => exact Or.inr rfl
    | along _ _ h => rw [he] at h; simp at h; tauto
    | against _ _ h => rw [he] at h; simp at h; tauto
  constructor
  · simp only [May, hk, Bool.false_eq_true, if_false]
    refine ⟨b, Or.inr (Or.inl ⟨a, b, by simp [he], Or.inr rfl⟩), ⟨b, .start, hbo⟩, ?_⟩
    intro w d hw hd
    rcases hfrom' w hw with rfl | rfl
    · rw [hao] at hd
      simp at hd
    · rw [hbo] at hd
      simpa using hd.symm
  · simp only [keepItem, List.getElem?_cons_zero, Option.bind_some, hv, Bool.not_true, Bool.false_eq_true, if_false, hk]
    have hst : r.start e = some a := by simp [Reg.start, he]
    unfold Reg.only
    rw [hst]
    simp only [Option.map_some, Option.some.injEq, Bool.and_eq_false_iff, decide_eq_false_iff_not]
    left
    rintro ⟨w, hw, ho⟩
    rw [hfrom w hw, hao] at ho
    simp at ho

/-! ### Packets which the server does not survive -/

/-- An update of any entity which is in the graph neither as a body nor as a constraint and is no part of a body reads a
component which does not exist. -/
theorem snapshot_of_plain_entity_crashes {s : State} {c e x : Entity} {cl : Client} {k : Comp} {v : Value} {t : ℚ}
    (hc : s.clients c = some cl) (hx : at? cl.emap x = some e) (hv : s.reg.valid e = true)
    (hk : k.empty = false) (hi : k.isInput = false) (hn : s.reg.node e = none)
    (he : ∀ a b, (e, a, b) ∉ s.reg.edges) (hch : s.reg.comp e .child = none) :
    step env s (.receive c (.snapshot ⟨[x], [⟨k, [(0, v)]⟩]⟩) t) = none := by
  have hst : s.reg.start e = none := by
    unfold Reg.start
    have : s.reg.edges.find? (fun y => decide (y.1 = e)) = none := by
      rw [List.find?_eq_none]
      rintro ⟨w, a, b⟩ hw hwe
      simp only [decide_eq_true_eq] at hwe
      subst hwe
      exact he a b hw
    rw [this]
    simp [hn, hch]
  have hkeep : keepItem s.reg c [e] k (0, v) = none := by
    simp [keepItem, hv, hi, Reg.only, hst]
  simp [step, hc, receiveSnapshot, toLocal, hx, transformPools, hk, transformItems, hkeep]

/-- For instance the client's own entity. -/
example : step env ⟨worldOfOne, fun c => if c = 1 then some ⟨namesMap, [], []⟩ else none⟩
    (.receive 1 (.snapshot ⟨[101], [⟨.plain 0, [(0, ⟨7, []⟩)]⟩]⟩) 0) = none :=
  snapshot_of_plain_entity_crashes (cl := ⟨namesMap, [], []⟩) (e := 1) rfl rfl rfl rfl rfl rfl (by simp [worldOfOne]) rfl

/-- The same pair twice in a packet: an assertion of the entity map fails. -/
theorem name_twice_crashes {s : State} {c e x : Entity} {cl : Client} {qs : List (Timed ℚ Packet)} {t limit : ℚ}
    (hc : s.clients c = some cl) (hq : cl.queue = ⟨t, .updateMap [(e, x), (e, x)]⟩ :: qs) (hv : s.reg.valid e = true)
    (ht : t ≤ limit) : step env s (.process c limit) = none := by
  simp only [step, hc, Option.bind_some, hq]
  rw [if_neg (by simpa using ht)]
  simp only [processPacket, processMap, hv, if_true, Option.map_eq_none_iff]
  rcases h : EntityMap.insert cl.emap x e with _ | m
  · rfl
  · have : m.map.contains x = true := by
      have := insert_at h x
      simp only [at?, if_true] at this
      simp [AMap.contains, this]
    simp [EntityMap.insert, this]

/-- Creation of an entity which has been created and has been destroyed by the server since: `entity_map.at` throws. -/
theorem create_again_crashes {s : State} {c e x : Entity} {cl : Client} {k : Comp} {v : Value}
    {qs : List (Timed ℚ Packet)} {t limit : ℚ} (hc : s.clients c = some cl)
    (hq : cl.queue = ⟨t, .create ⟨[x], [⟨k, [(0, v)]⟩]⟩⟩ :: qs) (hx : at? cl.emap x = some e)
    (hv : s.reg.valid e = false) (ht : t ≤ limit) : step env s (.process c limit) = none := by
  simp only [step, hc, Option.bind_some, hq]
  rw [if_neg (by simpa using ht)]
  have hcon : contains cl.emap x = true := by
    simp only [at?] at hx
    simp [contains, AMap.contains, hx]
  simp only [processPacket, processCreate, createLoop, hcon, if_true, Option.bind_some, importPools, importItems, importItem,
    List.getElem?_cons_zero, hx, hv, Bool.not_false, Option.map_eq_none_iff]
  simp only [at?] at hx
  simp only [erase, hx, Option.map_some, Option.bind_some, forEach, at?, AMap.get?_erase, if_true, Option.bind_none]

/-- Both happen: client 1 has named entity 5 and entity 5 is destroyed. -/
example : step env ⟨{ worldOfOne with valid := fun e => e == 1 }, fun c => if c = 1 then
      some ⟨namesMap, [], [⟨0, .create ⟨[105], [⟨.plain 0, [(0, ⟨7, []⟩)]⟩]⟩⟩]⟩ else none⟩ (.process 1 0) = none :=
  create_again_crashes (e := 5) (t := 0) rfl rfl rfl rfl (le_refl _)

end Edyn.Net.Auth
