import Verif.Repl.ReplayAny

/-!
# C18: theorems
-/

namespace Edyn.Repl.RegOps

open Edyn.EntityMap (Entity EMap)

/-- C18. If recorded components refer only to entities watched by then, and no entity is observed a
second time, then replaying what the observer recorded into an empty registry succeeds and yields
a mirror image of the source: exactly the watched entities have counterparts, there are no other
entities, and every counterpart carries exactly the shared components of its original, with every
reference replaced by the counterpart. This holds for any number of operations in any order, and
for both behaviours of the container iterators. -/
theorem replay_partial (c : Cfg) (types : List Nat) (n k : Nat) (evs : List Ev) (s : Src)
    (ops : List Op) (hmerge : ∀ ty ∈ types, ∀ a b, c.merge ty a b = b)
    (hr : recordAll types ⟨emptyReg n, []⟩ evs = some (s, ops))
    (ht : Tidy types ⟨emptyReg n, []⟩ [] evs) :
    ∃ g m f, execAll c (emptyReg k) EntityMap.init ops = some (g, m) ∧ Mirrors types s g m f := by
  have h0 : Sim types ⟨emptyReg n, []⟩ [] (emptyReg k) EntityMap.init (fun _ => none) := by
    refine ⟨Mapping.good_init, ?_, ?_, ?_, ?_, ?_, ?_, ?_, ?_, ?_⟩ <;>
      simp [emptyReg, EntityMap.init]
  obtain ⟨g, m, f, _, h1, h2⟩ := sim_all c types hmerge evs h0 ht hr
  exact ⟨g, m, f, h1, h2.mirrors⟩

/-- C18, for every legal history: whatever components refer to, and however often entities are
observed and unobserved, replaying succeeds; exactly the watched entities have a counterpart, one
each; the counterparts are exactly the entities of the destination; and each carries exactly the
shared component types of its original, with the same plain data. -/
theorem replay_shape (c : Cfg) (types : List Nat) (n k : Nat) (evs : List Ev) (s : Src)
    (ops : List Op) (hmerge : ∀ ty ∈ types, ∀ a b, (c.merge ty a b).data = b.data)
    (hr : recordAll types ⟨emptyReg n, []⟩ evs = some (s, ops)) :
    ∃ g m, execAll c (emptyReg k) EntityMap.init ops = some (g, m) ∧
      (∀ e, e ∈ s.watched ↔ ∃ l, EntityMap.at? m e = some l) ∧
      (∀ e e' l, EntityMap.at? m e = some l → EntityMap.at? m e' = some l → e = e') ∧
      (∀ l, l ∈ g.live ↔ ∃ e, EntityMap.at? m e = some l) ∧
      ∀ e l ty, EntityMap.at? m e = some l → (g.comps.get? (l, ty)).map Val.data =
        if ty ∈ types then (s.reg.comps.get? (e, ty)).map Val.data else none := by
  have h0 : Shape types ⟨emptyReg n, []⟩ (emptyReg k) EntityMap.init := by
    refine ⟨Mapping.good_init, ?_, ?_, ?_, ?_, ?_⟩ <;> simp [emptyReg, EntityMap.init]
  obtain ⟨g, m, h1, h2⟩ := shape_all c types hmerge evs h0 hr
  exact ⟨g, m, h1, h2.dom, fun e e' l a b => h2.inj a b, h2.live, h2.comps⟩

/-- C18: an operation never stores a reference to an entity which is not valid in the destination
(entries of maps aside), whatever it carries and whatever the state. -/
theorem stored_refs_valid (c : Cfg) (hmerge : ∀ ty a b, c.merge ty a b = b) (g g' : Reg)
    (m m' : EMap) (o : Op) (h : exec c g m o = some (g', m')) (key : Entity × Nat) (w : Val)
    (hnew : g'.comps.get? key = some w) (hold : g.comps.get? key ≠ some w) (e : Entity)
    (he : some e ∈ w.refs ∨ (∃ a ∈ w.arrays, some e ∈ a) ∨ ∃ a ∈ w.seqs, some e ∈ a) :
    e ∈ g'.live := by
  cases o with
  | create x =>
    simp only [exec] at h
    split at h
    · cases h; exact absurd hnew hold
    · simp only [Option.map_eq_some_iff] at h
      obtain ⟨_, _, h⟩ := h
      cases h; exact absurd hnew hold
  | destroy x =>
    simp only [exec] at h
    cases hx : m.map.get? x with
    | none => rw [hx] at h; cases h; exact absurd hnew hold
    | some l =>
      rw [hx] at h
      simp only [Option.map_eq_some_iff] at h
      obtain ⟨_, _, h⟩ := h
      split at h
      · cases h
        obtain ⟨a, t⟩ := key
        rw [drop_get?] at hnew
        split at hnew
        · cases hnew
        · exact absurd hnew hold
      · cases h; exact absurd hnew hold
  | mapEnt x loc =>
    simp only [exec] at h
    split at h
    · cases hx : m.map.get? x with
      | none =>
        rw [hx] at h
        simp only [Option.map_eq_some_iff] at h
        obtain ⟨_, _, h⟩ := h
        cases h; exact absurd hnew hold
      | some l =>
        rw [hx] at h
        simp only at h
        split at h
        · cases h; exact absurd hnew hold
        · cases h
    · cases h; exact absurd hnew hold
  | emplace x ty v =>
    simp only [exec] at h
    cases hx : m.map.get? x with
    | none => rw [hx] at h; cases h; exact absurd hnew hold
    | some l =>
      rw [hx] at h
      simp only at h
      split at h
      · cases h
        simp only [AMap.get?_set] at hnew
        split at hnew
        · cases hnew; exact mapChild_valid _ _ _ _ _ he
        · exact absurd hnew hold
      · cases h; exact absurd hnew hold
  | replace x ty v =>
    simp only [exec] at h
    cases hx : m.map.get? x with
    | none => rw [hx] at h; cases h; exact absurd hnew hold
    | some l =>
      rw [hx] at h
      simp only at h
      cases hc : g.comps.get? (l, ty) with
      | none => rw [hc] at h; cases h; exact absurd hnew hold
      | some old =>
        rw [hc] at h
        simp only [hmerge] at h
        split at h
        · cases h
          simp only [AMap.get?_set] at hnew
          split at hnew
          · cases hnew; exact mapChild_valid _ _ _ _ _ he
          · exact absurd hnew hold
        · cases h; exact absurd hnew hold
  | remove x ty =>
    simp only [exec] at h
    cases hx : m.map.get? x with
    | none => rw [hx] at h; cases h; exact absurd hnew hold
    | some l =>
      rw [hx] at h
      simp only at h
      split at h
      · cases h
        simp only [AMap.get?_erase] at hnew
        split at hnew
        · cases hnew
        · exact absurd hnew hold
      · cases h; exact absurd hnew hold

/-! ## Findings -/

/-- Plain assignment. -/
def plain (through : Bool) : Cfg := ⟨through, fun _ _ b => b⟩

/-- Two bodies, the first of which names the second: `1` is observed only after the component of
`0` was recorded. -/
def forwardRef : List Ev :=
  [.spawn, .spawn, .emplace 0 0 { data := 7, refs := [some 1] }, .observe 0, .observe 1]

/-- Finding: a component which refers to an entity observed later arrives with a null reference,
and nothing repairs it when the entity arrives. -/
theorem forward_reference_lost :
    (recordAll [0] ⟨emptyReg 0, []⟩ forwardRef).bind (fun p =>
      (execAll (plain true) (emptyReg 0) EntityMap.init p.2).map fun q =>
        (p.1.reg.comps.get? (0, 0), EntityMap.at? q.2 0, EntityMap.at? q.2 1,
          q.1.comps.get? (0, 0))) =
    some (some { data := 7, refs := [some 1] }, some 0, some 1,
      some { data := 7, refs := [none] }) := by decide +kernel

/-- Hence the full claim fails. -/
theorem replay_refuted : ¬ ReplayFull := by
  intro h
  obtain ⟨s, ops, hr⟩ : ∃ s ops, recordAll [0] ⟨emptyReg 0, []⟩ forwardRef = some (s, ops) :=
    ⟨_, _, rfl⟩
  obtain ⟨g, m, f, hx, hm⟩ := h (plain true) [0] 0 0 forwardRef s ops (fun _ _ _ _ => rfl) hr
  have hw := forward_reference_lost
  rw [hr, Option.bind_some] at hw
  simp only [hx, Option.map_some, Option.some.injEq, Prod.mk.injEq] at hw
  obtain ⟨w1, w2, w3, w4⟩ := hw
  have a := (hm.1 0 0).1 w2
  have b := (hm.1 1 1).1 w3
  have := hm.2.2.1 0 0 0 a.1 a.2
  rw [w1, w4] at this
  simp [Val.rename, b.2] at this

/-- A constraint between `0` and `1`, replicated when only `1` is known. -/
def halfKnown : List Ev :=
  [.spawn, .spawn, .spawn, .observe 1,
   .emplace 2 0 { data := 7, arrays := [[some 0, some 1]] }, .observe 2]

/-- Finding: if assigning through the container iterators reaches the elements, a pair of bodies of
which only the second is known becomes a pair of that body with itself. -/
theorem pair_with_itself :
    ((recordAll [0] ⟨emptyReg 0, []⟩ halfKnown).bind fun p =>
      (execAll (plain true) (emptyReg 0) EntityMap.init p.2).bind fun q =>
        (EntityMap.at? q.2 2).bind fun l => q.1.comps.get? (l, 0)) =
    some { data := 7, arrays := [[some 0, some 0]] } := by decide +kernel

/-- Finding: if it does not, a growing container loses the known element as well as the unknown
one. -/
theorem wrong_element_dropped :
    ((recordAll [0] ⟨emptyReg 0, []⟩
        [.spawn, .spawn, .spawn, .observe 1,
         .emplace 2 0 { data := 7, seqs := [[some 0, some 1]] }, .observe 2]).bind fun p =>
      (execAll (plain false) (emptyReg 0) EntityMap.init p.2).bind fun q =>
        (EntityMap.at? q.2 2).bind fun l => q.1.comps.get? (l, 0)) =
    some { data := 7, seqs := [[]] } := by decide +kernel

/-- Finding: an entity observed again gets a new counterpart, and references to the old one which
were replicated before are not repaired. -/
theorem second_observation_breaks_references :
    ((recordAll [0] ⟨emptyReg 0, []⟩
        [.spawn, .spawn, .observe 1, .emplace 0 0 { data := 7, refs := [some 1] }, .observe 0,
         .unobserve 1, .observe 1]).bind fun p =>
      (execAll (plain true) (emptyReg 0) EntityMap.init p.2).bind fun q =>
        (EntityMap.at? q.2 0).bind fun l => (q.1.comps.get? (l, 0)).map fun v =>
          (v.refs, EntityMap.at? q.2 1, decide (0 ∈ q.1.live))) =
    some ([some 0], some 2, false) := by decide +kernel

/-! ## Non-vacuity -/

/-- Two bodies and a constraint between them; one component changes, one is removed, a body which
nothing refers to any longer goes away. -/
def ordinary : List Ev :=
  [.spawn, .spawn, .spawn, .emplace 0 1 { data := 5 }, .observe 0, .observe 1,
   .emplace 2 0 { data := 7, arrays := [[some 0, some 1]] }, .observe 2, .again 2 0,
   .patch 0 1 { data := 6, refs := [some 2] }, .emplace 1 9 { data := 1 },
   .emplace 1 1 { data := 8 }, .erase 1 1, .spawn, .observe 3, .unobserve 3, .kill 3]

instance (v : Val) (W : List Entity) : Decidable (∀ e, v.names e → e ∈ W) := by
  refine decidable_of_iff ((∀ r ∈ v.refs, ∀ e ∈ r, e ∈ W) ∧
    (∀ a ∈ v.arrays, ∀ r ∈ a, ∀ e ∈ r, e ∈ W) ∧ (∀ a ∈ v.seqs, ∀ r ∈ a, ∀ e ∈ r, e ∈ W) ∧
    ∀ a ∈ v.assoc, ∀ r ∈ a, ∀ e ∈ r.2, e ∈ W) ⟨?_, ?_⟩
  · rintro ⟨h1, h2, h3, h4⟩ e (h | ⟨a, ha, h⟩ | ⟨a, ha, h⟩ | ⟨a, ha, k, h⟩)
    · exact h1 _ h e rfl
    · exact h2 a ha _ h e rfl
    · exact h3 a ha _ h e rfl
    · exact h4 a ha _ h e rfl
  · intro h
    refine ⟨?_, ?_, ?_, ?_⟩
    · intro r hr e he; cases he; exact h e (Or.inl hr)
    · intro a ha r hr e he; cases he; exact h e (Or.inr (Or.inl ⟨a, ha, hr⟩))
    · intro a ha r hr e he; cases he; exact h e (Or.inr (Or.inr (Or.inl ⟨a, ha, hr⟩)))
    · rintro a ha ⟨k, r⟩ hr e he; cases he; exact h e (Or.inr (Or.inr (Or.inr ⟨a, ha, k, hr⟩)))

theorem tight_flat (d : Nat) (refs : List (Option Entity)) : Val.Tight { data := d, refs := refs } :=
  ⟨by simp, by simp, by simp⟩

theorem tight_pair (d : Nat) (a b : Entity) :
    Val.Tight { data := d, arrays := [[some a, some b]] } := by
  refine ⟨?_, by simp, by simp⟩
  simp only [List.mem_singleton, forall_eq]
  exact ⟨[a, b], 0, rfl⟩

theorem ordinary_tidy : Tidy [0, 1] ⟨emptyReg 0, []⟩ [] ordinary := by
  have key : ∀ (ops : List Op) (W : List Entity),
      (∀ v ∈ ops.filterMap Op.value, v.Tight ∧ ∀ e, v.names e → e ∈ W) →
      ∀ o ∈ ops, ∀ val, o.value = some val → val.Tight ∧ ∀ e, val.names e → e ∈ W :=
    fun ops W h o ho val hval => h val (List.mem_filterMap.2 ⟨o, ho, hval⟩)
  unfold ordinary
  repeat' (first
    | exact trivial
    | refine ⟨key _ _ ?_, by decide +kernel, ?_⟩
    | (intro v hv
       replace hv : v ∈ ([] : List Val) := hv
       exact absurd hv (by simp))
    | (intro v hv
       replace hv : v ∈ [({ data := 5 } : Val)] := hv
       rw [List.mem_singleton.1 hv]
       exact ⟨tight_flat _ _, by decide +kernel⟩)
    | (intro v hv
       replace hv : v ∈ [({ data := 8 } : Val)] := hv
       rw [List.mem_singleton.1 hv]
       exact ⟨tight_flat _ _, by decide +kernel⟩)
    | (intro v hv
       replace hv : v ∈ [({ data := 6, refs := [some 2] } : Val)] := hv
       rw [List.mem_singleton.1 hv]
       exact ⟨tight_flat _ _, by decide +kernel⟩)
    | (intro v hv
       replace hv : v ∈ [({ data := 7, arrays := [[some 0, some 1]] } : Val)] := hv
       rw [List.mem_singleton.1 hv]
       exact ⟨tight_pair _ _ _, by decide +kernel⟩))

example : ∃ s ops, recordAll [0, 1] ⟨emptyReg 0, []⟩ ordinary = some (s, ops) ∧
    Tidy [0, 1] ⟨emptyReg 0, []⟩ [] ordinary ∧ s.watched = [2, 1, 0] ∧ ops.length = 11 :=
  ⟨_, _, rfl, ordinary_tidy, by decide +kernel, by decide +kernel⟩

/-- What arrives. -/
example : ((recordAll [0, 1] ⟨emptyReg 0, []⟩ ordinary).bind fun p =>
    (execAll (plain true) (emptyReg 40) EntityMap.init p.2).map fun q =>
      (q.1.live, q.1.comps.get? (42, 0), q.1.comps.get? (40, 1), q.1.comps.get? (41, 1))) =
    some ([40, 41, 42], some { data := 7, arrays := [[some 40, some 41]] },
      some { data := 6, refs := [some 42] }, none) := by decide +kernel

end Edyn.Repl.RegOps
