import Verif.DynTree.Query

/-!
# Properties C01, C02, C03: the broadphase tree

`Reach P s L` says that a program using the tree through `create`, `move`, `destroy` and `clear` can
be in the state `s`, where `L` is the bookkeeping of that program: `L id = some (entity, aabb)` when
the proxy `id` exists, was created for `entity`, and `aabb` is the last box given to `create` or
`move` for it.  `move` and `destroy` are called on existing proxies only (the API's precondition).
-/

namespace Edyn.DynTree

variable {S : Type} [LinearOrder S]

/-- The user's bookkeeping. An entity is `none` for `entt::null`. -/
abbrev Live (S : Type) := Nat → Option (Option Nat × Box S)

/-- The histories of calls. -/
inductive Reach (P : Params S) : State S → Live S → Prop where
  | init (b : Box S) : Reach P (init b) (fun _ => none)
  | create {s s' L id} (b : Box S) (e : Option Nat) : Reach P s L →
      create P s b e = some (id, s') → Reach P s' (upd L id (some (e, b)))
  | move {s s' L id e b0 moved} (b : Box S) : Reach P s L → L id = some (e, b0) →
      move P s id b = some (moved, s') → Reach P s' (upd L id (some (e, b)))
  | destroy {s s' L id e b0} : Reach P s L → L id = some (e, b0) →
      destroy s id = some s' → Reach P s' (upd L id none)
  | clear {s L} : Reach P s L → Reach P (clear s) (fun _ => none)

/-- What is maintained: the array represents some tree whose leaves are the live proxies. -/
def Good (s : State S) (L : Live S) : Prop :=
  ∃ ot fl, Inv s ot fl [] ∧ (∀ id, id ∈ leavesO ot ↔ L id ≠ none) ∧
    ∀ id e b, L id = some (e, b) → s.c2 id = e ∧ (s.box id).Encloses b

theorem Margin.inflate_encloses (m : Margin S) (b : Box S) : (m.inflate b).Encloses b := by
  simp [Margin.inflate, Box.Encloses, m.lower_le, m.le_upper]

theorem good_init (b : Box S) : Good (init b) (fun _ => none) := by
  refine ⟨none, [], ⟨rfl, by simp [idsO], by simp [init, idsO], rfl, by simp⟩, ?_, by simp⟩
  simp [leavesO]

theorem good_clear (s : State S) : Good (clear s) (fun _ => none) :=
  ⟨none, _, clear_spec s, by simp [leavesO], by simp⟩

theorem Inv.leaf {s : State S} {t : T} {fl ex : List Nat} (h : Inv s (some t) fl ex) {id : Nat}
    (hid : id ∈ t.leaves) : id < s.size ∧ s.c1 id = none := by
  obtain ⟨c, hc⟩ := exists_ctx_leaf hid
  obtain ⟨h1, h2⟩ := h.rep t rfl
  have hr : s.root = some t.id := h.root
  rw [hc] at h1 h2 hr
  have := (Rep.split h2 hr h1).1
  exact ⟨this.1, this.2.1⟩

theorem create_good (P : Params S) {s : State S} {L : Live S} (h : Good s L) (b : Box S)
    (e : Option Nat) :
    ∃ id s', create P s b e = some (id, s') ∧ L id = none ∧ Good s' (upd L id (some (e, b))) ∧
      (s'.box id) = P.margin.inflate b ∧ ∀ j, L j ≠ none → s'.box j = s.box j := by
  obtain ⟨ot, fl, hI, hL, hB⟩ := h
  obtain ⟨id, s1, fl1, ha, hI1, hn1, _, hu, hc1, hc2, hh, hr1, hb1, hsame, hsz⟩ := allocate_spec hI
  have hLid : L id = none := by
    by_contra hne
    exact hn1 (leavesO_sub ((hL id).2 hne))
  have hI2 : Inv { s1 with c2 := upd s1.c2 id e, box := upd s1.box id (P.margin.inflate b) }
      ot fl1 (id :: []) := by
    refine Inv.write hI1 ?_ rfl rfl rfl
    intro j hj
    simp [Same, upd_apply, hj]
  obtain ⟨s', t', fl', hi, hI', hp, hf⟩ := insert_spec P.choice hI2 (by exact hc1) (by exact hh)
  have hmem : ∀ j, j ∈ t'.leaves ↔ j = id ∨ L j ≠ none := by
    intro j
    rw [hp.mem_iff, List.mem_cons, hL]
  have hbox : s'.box id = P.margin.inflate b := by
    rw [(hf id ((hmem id).2 (Or.inl rfl))).1]; simp
  have hoth : ∀ j, L j ≠ none → s'.box j = s.box j ∧ s'.c2 j = s.c2 j := by
    intro j hj
    have hne : j ≠ id := by rintro rfl; exact hj hLid
    have := hf j ((hmem j).2 (Or.inr hj))
    simpa [upd_apply, hne, hb1, (hsame j hne).2.2.1] using this
  refine ⟨id, s', by simp [create, ha, hi], hLid, ⟨some t', fl', hI', ?_, ?_⟩, hbox,
    fun j hj => (hoth j hj).1⟩
  · intro j
    rw [show leavesO (some t') = t'.leaves from rfl, hmem j, upd_apply]
    split
    · simp_all
    · simp_all
  · intro j e' b' hj
    rw [upd_apply] at hj
    split at hj
    · rename_i hje
      subst hje
      simp only [Option.some.injEq, Prod.mk.injEq] at hj
      obtain ⟨rfl, rfl⟩ := hj
      refine ⟨?_, by rw [hbox]; exact P.margin.inflate_encloses _⟩
      rw [(hf j ((hmem j).2 (Or.inl rfl))).2]; simp
    · have := hoth j (by rw [hj]; simp)
      rw [this.1, this.2]
      exact hB j e' b' hj

theorem destroy_good {s : State S} {L : Live S} (h : Good s L) {id : Nat} (hid : L id ≠ none) :
    ∃ s', destroy s id = some s' ∧ Good s' (upd L id none) ∧
      ∀ j, L j ≠ none → j ≠ id → s'.box j = s.box j := by
  obtain ⟨ot, fl, hI, hL, hB⟩ := h
  have hm := (hL id).2 hid
  cases ot with
  | none => simp [leavesO] at hm
  | some t =>
    have hm : id ∈ t.leaves := hm
    obtain ⟨hlt, hc1⟩ := hI.leaf hm
    obtain ⟨s1, ot1, fl1, hr, hI1, hp, _, _, _, hf⟩ := remove_spec hI hm
    have hnd : (id :: leavesO ot1).Nodup := by
      rw [hp.nodup_iff]
      have := (List.nodup_append.1 hI.nodup).1
      have := (T.ids_perm t).nodup_iff.1 this
      exact (List.nodup_append.1 this).1
    have hmem : ∀ j, j ∈ leavesO ot1 ↔ j ≠ id ∧ L j ≠ none := by
      intro j
      have h1 := hp.mem_iff (a := j)
      have h2 := hL j
      simp only [leavesO, List.mem_cons] at h1 h2
      rw [List.nodup_cons] at hnd
      constructor
      · intro hj
        exact ⟨fun e => hnd.1 (e ▸ hj), h2.1 (h1.1 (Or.inr hj))⟩
      · rintro ⟨h3, h4⟩
        rcases h1.2 (h2.2 h4) with h | h
        · exact absurd h h3
        · exact h
    refine ⟨free s1 id, ?_, ⟨ot1, id :: fl1, free_spec hI1, ?_, ?_⟩, ?_⟩
    · simp [destroy, chk_some hlt, isLeaf, hc1, hr]
    · intro j
      rw [hmem j, upd_apply]
      split <;> simp_all
    · intro j e b hj
      rw [upd_apply] at hj
      split at hj
      · simp at hj
      · rename_i hne
        have hjt : j ∈ t.leaves := (hL j).2 (by rw [hj]; simp)
        have := hf j hjt
        simp only [free, upd_apply, if_neg hne, this]
        exact hB j e b hj
    · intro j hj _
      exact (hf j ((hL j).2 hj)).1

theorem move_good (P : Params S) {s : State S} {L : Live S} (h : Good s L) {id : Nat}
    {e : Option Nat} {b0 : Box S} (hid : L id = some (e, b0)) (b : Box S) :
    ∃ moved s', move P s id b = some (moved, s') ∧ Good s' (upd L id (some (e, b))) ∧
      (moved = !(s.box id).contains b) ∧
      s'.box id = (if moved then P.margin.inflate b else s.box id) ∧
      ∀ j, L j ≠ none → j ≠ id → s'.box j = s.box j := by
  obtain ⟨ot, fl, hI, hL, hB⟩ := h
  have hm := (hL id).2 (by rw [hid]; simp)
  cases ot with
  | none => simp [leavesO] at hm
  | some t =>
    have hm : id ∈ t.leaves := hm
    obtain ⟨hlt, hc1⟩ := hI.leaf hm
    by_cases hcon : (s.box id).contains b = true
    · refine ⟨false, s, by simp [move, chk_some hlt, isLeaf, hc1, hcon], ⟨some t, fl, hI, ?_, ?_⟩,
        by simp [hcon], by simp, by simp⟩
      · intro j
        rw [hL j, upd_apply]
        split <;> simp_all
      · intro j e' b' hj
        rw [upd_apply] at hj
        split at hj
        · rename_i hje
          subst hje
          simp only [Option.some.injEq, Prod.mk.injEq] at hj
          obtain ⟨rfl, rfl⟩ := hj
          exact ⟨(hB j _ _ hid).1, Box.contains_encloses hcon⟩
        · exact hB j e' b' hj
    · obtain ⟨s1, ot1, fl1, hr, hI1, hp, hl1, hl2, _, hf⟩ := remove_spec hI hm
      have hI2 : Inv { s1 with box := upd s1.box id (P.margin.inflate b) } ot1 fl1 (id :: []) := by
        refine Inv.write hI1 ?_ rfl rfl rfl
        intro j hj
        simp [Same, upd_apply, hj]
      obtain ⟨s', t', fl', hi, hI', hp', hf'⟩ := insert_spec P.choice hI2 (by exact hl1) (by exact hl2)
      have hpt : t'.leaves.Perm t.leaves := hp'.trans hp
      have hbox : s'.box id = P.margin.inflate b := by
        rw [(hf' id (hpt.mem_iff.2 hm)).1]; simp
      have hoth : ∀ j, L j ≠ none → j ≠ id → s'.box j = s.box j := by
        intro j hj hne
        have hjt : j ∈ t.leaves := (hL j).2 hj
        rw [(hf' j (hpt.mem_iff.2 hjt)).1]
        simp [upd_apply, hne, (hf j hjt).1]
      have hc2 : ∀ j, L j ≠ none → s'.c2 j = s.c2 j := by
        intro j hj
        have hjt : j ∈ t.leaves := (hL j).2 hj
        rw [(hf' j (hpt.mem_iff.2 hjt)).2]
        simp [(hf j hjt).2]
      refine ⟨true, s', by simp [move, chk_some hlt, isLeaf, hc1, hcon, hr, hi],
        ⟨some t', fl', hI', ?_, ?_⟩, by simp [hcon], by simp [hbox], hoth⟩
      · intro j
        rw [show leavesO (some t') = t'.leaves from rfl, hpt.mem_iff]
        have := hL j
        simp only [leavesO] at this
        rw [this, upd_apply]
        split <;> simp_all
      · intro j e' b' hj
        rw [upd_apply] at hj
        split at hj
        · rename_i hje
          subst hje
          simp only [Option.some.injEq, Prod.mk.injEq] at hj
          obtain ⟨rfl, rfl⟩ := hj
          refine ⟨?_, by rw [hbox]; exact P.margin.inflate_encloses _⟩
          rw [hc2 j (by rw [hid]; simp)]
          exact (hB j _ _ hid).1
        · rename_i hne
          have hLj : L j ≠ none := by rw [hj]; simp
          rw [hoth j hLj hne, hc2 j hLj]
          exact hB j e' b' hj

theorem reach_good {P : Params S} {s : State S} {L : Live S} (h : Reach P s L) : Good s L := by
  induction h with
  | init b => exact good_init b
  | create b e _ hc ih =>
    obtain ⟨id, s', h1, _, h3, _⟩ := create_good P ih b e
    rw [hc] at h1
    simp only [Option.some.injEq, Prod.mk.injEq] at h1
    obtain ⟨rfl, rfl⟩ := h1
    exact h3
  | move b _ hL hm ih =>
    obtain ⟨moved, s', h1, h3, _⟩ := move_good P ih hL b
    rw [hm] at h1
    simp only [Option.some.injEq, Prod.mk.injEq] at h1
    obtain ⟨rfl, rfl⟩ := h1
    exact h3
  | destroy _ hL hd ih =>
    obtain ⟨s', h1, h3, _⟩ := destroy_good ih (by rw [hL]; simp)
    rw [hd] at h1
    simp only [Option.some.injEq] at h1
    exact h1 ▸ h3
  | clear _ _ => exact good_clear _

/-! ## C01 -/

/-- C01. In every reachable state, for every query box, `query` terminates without touching an
invalid node and reports exactly the live proxies whose stored box overlaps the query box, each
once. -/
theorem query_exact {P : Params S} {s : State S} {L : Live S} (h : Reach P s L) (q : Box S) :
    ∃ ids, query s q = some ids ∧ ids.Nodup ∧
      ∀ id, id ∈ ids ↔ L id ≠ none ∧ (s.box id).Overlaps q := by
  obtain ⟨ot, fl, hI, hL, _⟩ := reach_good h
  have hm : Monotone (fun b : Box S => b.intersect q) := fun a b hab hb => hab.intersect hb
  refine ⟨_, traverse_spec hI, ?_, ?_⟩
  · cases ot with
    | none => simp
    | some t =>
      apply visit_nodup
      have := (List.nodup_append.1 hI.nodup).1
      have := (T.ids_perm t).nodup_iff.1 this
      exact (List.nodup_append.1 this).1
  · intro id
    cases ot with
    | none =>
      have := hL id
      simp only [leavesO, List.not_mem_nil, false_iff] at this ⊢
      exact fun hh => this hh.1
    | some t =>
      rw [mem_visit hm (hI.rep t rfl).2, ← Box.intersect_iff]
      have := hL id
      simp only [leavesO] at this
      rw [this]

/-- C01, consequence: no body whose last reported box overlaps the query is missed. -/
theorem query_misses_nothing {P : Params S} {s : State S} {L : Live S} (h : Reach P s L) (q : Box S)
    {ids : List Nat} (hq : query s q = some ids) {id : Nat} {e : Option Nat} {b : Box S}
    (hL : L id = some (e, b)) (hov : b.Overlaps q) : id ∈ ids := by
  obtain ⟨ids', h1, _, h3⟩ := query_exact h q
  rw [hq] at h1
  simp only [Option.some.injEq] at h1
  subst h1
  obtain ⟨_, _, _, _, hB⟩ := reach_good h
  refine (h3 id).2 ⟨by rw [hL]; simp, ?_⟩
  rw [← Box.intersect_iff] at hov ⊢
  exact (hB id e b hL).2.intersect hov

/-- C01 for ray casts: the same holds for any test that does not fail on a box enclosing one on
which it succeeds (the segment-box test is such a test in exact arithmetic). -/
theorem traverse_exact {P : Params S} {s : State S} {L : Live S} (h : Reach P s L)
    (test : Box S → Bool) (hm : Monotone test) :
    ∃ ids, traverse s test = some ids ∧ ids.Nodup ∧
      ∀ id, id ∈ ids ↔ L id ≠ none ∧ test (s.box id) = true := by
  obtain ⟨ot, fl, hI, hL, _⟩ := reach_good h
  refine ⟨_, traverse_spec hI, ?_, ?_⟩
  · cases ot with
    | none => simp
    | some t =>
      apply visit_nodup
      have := (List.nodup_append.1 hI.nodup).1
      have := (T.ids_perm t).nodup_iff.1 this
      exact (List.nodup_append.1 this).1
  · intro id
    cases ot with
    | none =>
      have := hL id
      simp only [leavesO, List.not_mem_nil, false_iff] at this ⊢
      exact fun hh => this hh.1
    | some t =>
      rw [mem_visit hm (hI.rep t rfl).2]
      have := hL id
      simp only [leavesO] at this
      rw [this]

/-! ## C02 -/

/-- C02. In every reachable state each call with its precondition succeeds (no assertion fails, no
invalid node is touched, every loop ends); `create` returns an id that is not live; `move` reports
`false` exactly when the stored box already contained the new one; the stored box becomes the
inflated new box or stays; and nobody else's stored box changes. -/
theorem calls_defined {P : Params S} {s : State S} {L : Live S} (h : Reach P s L) :
    (∀ b e, ∃ id s', create P s b e = some (id, s') ∧ L id = none ∧
      s'.box id = P.margin.inflate b ∧ ∀ j, L j ≠ none → s'.box j = s.box j) ∧
    (∀ id b, L id ≠ none → ∃ moved s', move P s id b = some (moved, s') ∧
      (moved = false ↔ (s.box id).contains b = true) ∧
      s'.box id = (if moved then P.margin.inflate b else s.box id) ∧
      ∀ j, L j ≠ none → j ≠ id → s'.box j = s.box j) ∧
    (∀ id, L id ≠ none → ∃ s', destroy s id = some s' ∧
      ∀ j, L j ≠ none → j ≠ id → s'.box j = s.box j) := by
  have hG := reach_good h
  refine ⟨?_, ?_, ?_⟩
  · intro b e
    obtain ⟨id, s', h1, h2, _, h4, h5⟩ := create_good P hG b e
    exact ⟨id, s', h1, h2, h4, h5⟩
  · intro id b hid
    obtain ⟨⟨e, b0⟩, hL⟩ := Option.ne_none_iff_exists'.1 hid
    obtain ⟨moved, s', h1, _, h3, h4, h5⟩ := move_good P hG hL b
    refine ⟨moved, s', h1, ?_, h4, h5⟩
    rw [h3]; simp
  · intro id hid
    obtain ⟨s', h1, _, h3⟩ := destroy_good hG hid
    exact ⟨s', h1, h3⟩

/-- C02. A live proxy is a leaf carrying the entity it was created for, and its stored box encloses
the last box given for it, whatever was done to other proxies in between. -/
theorem proxy_stable {P : Params S} {s : State S} {L : Live S} (h : Reach P s L) {id : Nat}
    {e : Option Nat} {b : Box S} (hL : L id = some (e, b)) :
    id < s.size ∧ isLeaf s id = true ∧ s.c2 id = e ∧ (s.box id).Encloses b := by
  obtain ⟨ot, fl, hI, hLv, hB⟩ := reach_good h
  have hm := (hLv id).2 (by rw [hL]; simp)
  cases ot with
  | none => simp [leavesO] at hm
  | some t =>
    obtain ⟨h1, h2⟩ := hI.leaf hm
    exact ⟨h1, by simp [isLeaf, h2], hB id e b hL⟩

/-! ## C03 -/

/-- Specification of a well-formed node array: the reachable nodes are those of the tree `t`. -/
structure WellFormed (s : State S) (t : T) : Prop where
  root : s.root = some t.id
  rootUp : s.up t.id = none
  distinct : t.ids.Nodup
  /-- at every internal position the links, the box and the height are right -/
  internal : ∀ (c : Ctx) (i : Nat) (l r : T), t = c.plug (.node i l r) →
    s.c1 i = some l.id ∧ s.c2 i = some r.id ∧ s.up l.id = some i ∧ s.up r.id = some i ∧
    (s.box i).Encloses (s.box l.id) ∧ (s.box i).Encloses (s.box r.id) ∧
    s.box i = Box.enclosing (s.box l.id) (s.box r.id) ∧
    s.height i = (T.node i l r).height
  /-- at every leaf position the node is marked as a leaf -/
  leaf : ∀ (c : Ctx) (i : Nat), t = c.plug (.leaf i) → s.c1 i = none ∧ s.height i = 0

/-- C03. In every reachable state: if nothing is live the root is null; otherwise the array holds a
full binary tree whose leaves are exactly the live proxies, with one internal node less than leaves;
and each slot of the array is either in that tree or on the free list, on the list only once. -/
theorem tree_wellformed {P : Params S} {s : State S} {L : Live S} (h : Reach P s L) :
    ∃ (live inner fl : List Nat),
      live.Nodup ∧ (∀ id, id ∈ live ↔ L id ≠ none) ∧
      (live ++ (inner ++ fl)).Nodup ∧ (∀ i, i < s.size ↔ i ∈ live ∨ i ∈ inner ∨ i ∈ fl) ∧
      FreeChain s s.freeList fl ∧
      inner.length = live.length - 1 ∧
      ((live = [] ∧ s.root = none) ∨
        ∃ t, WellFormed s t ∧ t.leaves = live ∧ t.internals = inner) := by
  obtain ⟨ot, fl, hI, hL, _⟩ := reach_good h
  cases ot with
  | none =>
    refine ⟨[], [], fl, by simp, hL, ?_, ?_, hI.chain, by simp, Or.inl ⟨rfl, hI.root⟩⟩
    · simpa [idsO] using hI.nodup
    · intro i; rw [hI.cover i]; simp [idsO]
  | some t =>
    obtain ⟨hup, hrep⟩ := hI.rep t rfl
    have hnd := hI.nodup
    simp only [List.append_nil, idsO] at hnd
    have hp := T.ids_perm t
    have hndt := (List.nodup_append.1 hnd).1
    refine ⟨t.leaves, t.internals, fl, ?_, hL, ?_, ?_, hI.chain, ?_, Or.inr ⟨t, ?_, rfl, rfl⟩⟩
    · exact (List.nodup_append.1 (hp.nodup_iff.1 hndt)).1
    · rw [← List.append_assoc]
      exact ((hp.append_right fl).nodup_iff).1 hnd
    · intro i
      rw [hI.cover i]
      simp only [idsO, List.append_nil, List.mem_append, hp.mem_iff, or_assoc]
    · have := t.leaves_length; omega
    · refine ⟨hI.root, hup, hndt, ?_, ?_⟩
      · rintro c i l r rfl
        have hr := (Rep.split hrep hI.root hup).1
        have hh := hr.height
        obtain ⟨k1, k2, k3, k4, k5, k6, k7, k8, k9⟩ := hr
        refine ⟨k2, k3, k4, k5, ?_, ?_, k6, hh⟩
        · rw [k6]; exact Box.enclosing_left _ _
        · rw [k6]; exact Box.enclosing_right _ _
      · rintro c i rfl
        have hr := (Rep.split hrep hI.root hup).1
        exact hr.2

/-! ## Non-vacuity: a concrete history -/

section Example

/-- Integer coordinates, margin one. -/
def exParams : Params Int :=
  ⟨⟨fun x => x - 1, fun x => x + 1, fun x => by omega, fun x => by omega⟩,
   fun _ _ _ _ _ _ => .right⟩

def exBox (a : Int) : Box Int := ⟨⟨a, a, a⟩, ⟨a + 1, a + 1, a + 1⟩⟩

/-- Five creations, a move far away and a destruction: rotations and free-list reuse happen. -/
def exRun : Option (State Int × List Nat) :=
  (create exParams (init (exBox 0)) (exBox 0) (some 10)).bind fun (a, s) =>
  (create exParams s (exBox 10) (some 11)).bind fun (b, s) =>
  (create exParams s (exBox 20) (some 12)).bind fun (c, s) =>
  (create exParams s (exBox 30) (some 13)).bind fun (d, s) =>
  (create exParams s (exBox 40) none).bind fun (e, s) =>
  (move exParams s b (exBox 41)).bind fun (_, s) =>
  (destroy s c).map fun s => (s, [a, b, c, d, e])

example : exRun.map (fun p => p.2) = some [0, 1, 3, 5, 7] := by decide +kernel
example : (exRun.bind fun p => query p.1 (exBox 40)) = some [1, 7] := by decide +kernel
example : (exRun.map fun p => (p.1.size, p.1.freeList)) = some (9, some 3) := by decide +kernel

/-- The state of the concrete history is reachable and four proxies are live. -/
example : ∃ s L, Reach exParams s L ∧ L 0 ≠ none ∧ L 1 ≠ none ∧ L 3 = none ∧ L 5 ≠ none ∧
    L 7 ≠ none := by
  obtain ⟨a, s1, h1, -⟩ := (calls_defined (Reach.init (P := exParams) (exBox 0))).1 (exBox 0) (some 10)
  have r1 := Reach.create (exBox 0) (some 10) (Reach.init (P := exParams) (exBox 0)) h1
  have ha : a = 0 := by
    have : (create exParams (init (exBox 0)) (exBox 0) (some 10)).map (·.1) = some 0 := by decide +kernel
    rw [h1] at this; simpa using this
  subst ha
  obtain ⟨b, s2, h2, hb, -⟩ := (calls_defined r1).1 (exBox 10) (some 11)
  have r2 := Reach.create (exBox 10) (some 11) r1 h2
  have e1 : (create exParams (init (exBox 0)) (exBox 0) (some 10)).bind
      (fun p => (create exParams p.2 (exBox 10) (some 11)).map (·.1)) = some 1 := by decide +kernel
  rw [h1] at e1
  simp only [Option.bind_some, h2, Option.map_some, Option.some.injEq] at e1
  subst e1
  obtain ⟨c, s3, h3, -⟩ := (calls_defined r2).1 (exBox 20) (some 12)
  have r3 := Reach.create (exBox 20) (some 12) r2 h3
  have e2 : (create exParams (init (exBox 0)) (exBox 0) (some 10)).bind
      (fun p => (create exParams p.2 (exBox 10) (some 11)).bind
        (fun p => (create exParams p.2 (exBox 20) (some 12)).map (·.1))) = some 3 := by decide +kernel
  rw [h1] at e2
  simp only [Option.bind_some, h2, h3, Option.map_some, Option.some.injEq] at e2
  subst e2
  obtain ⟨d, s4, h4, -⟩ := (calls_defined r3).1 (exBox 30) (some 13)
  have r4 := Reach.create (exBox 30) (some 13) r3 h4
  have e3 : (create exParams (init (exBox 0)) (exBox 0) (some 10)).bind
      (fun p => (create exParams p.2 (exBox 10) (some 11)).bind
        (fun p => (create exParams p.2 (exBox 20) (some 12)).bind
        (fun p => (create exParams p.2 (exBox 30) (some 13)).map (·.1)))) = some 5 := by decide +kernel
  rw [h1] at e3
  simp only [Option.bind_some, h2, h3, h4, Option.map_some, Option.some.injEq] at e3
  subst e3
  obtain ⟨e, s5, h5, -⟩ := (calls_defined r4).1 (exBox 40) none
  have r5 := Reach.create (exBox 40) none r4 h5
  have e4 : (create exParams (init (exBox 0)) (exBox 0) (some 10)).bind
      (fun p => (create exParams p.2 (exBox 10) (some 11)).bind
        (fun p => (create exParams p.2 (exBox 20) (some 12)).bind
        (fun p => (create exParams p.2 (exBox 30) (some 13)).bind
        (fun p => (create exParams p.2 (exBox 40) none).map (·.1))))) = some 7 := by decide +kernel
  rw [h1] at e4
  simp only [Option.bind_some, h2, h3, h4, h5, Option.map_some, Option.some.injEq] at e4
  subst e4
  obtain ⟨s6, h6, -⟩ := (calls_defined r5).2.2 3 (by simp [upd])
  have r6 := Reach.destroy (id := 3) (e := some 12) (b0 := exBox 20) r5 (by simp [upd]) h6
  exact ⟨s6, _, r6, by simp [upd], by simp [upd], by simp [upd], by simp [upd], by simp [upd]⟩

end Example

end Edyn.DynTree
