import Verif.Broad.Props

/-!
# C89: theorems
-/

namespace Edyn.Broad

open Edyn.DynTree (upd upd_same upd_apply)

variable {S : Type} [LinearOrder S] [AddCommGroup S]

/-- What the registry itself demands of a caller. -/
def Allowed (w : World S) : Op S → Prop
  | .addAabb e _ => w.aabb e = none
  | .removeAabb e => w.aabb e ≠ none
  | .setAabb e _ => w.aabb e ≠ none
  | .dropManifold i => w.map.manifolds.get? i ≠ none
  | .swapManifold i => w.map.manifolds.get? i ≠ none
  | _ => True

/-- C89, full statement: for every history in which the registry's own preconditions hold, an update
is defined, and afterwards every pair of bodies that meets has a manifold. -/
def BroadFull (C : Config S) : Prop :=
  ∀ (ops : List (Op S)) (b : Box S) (w : World S) (mt : Bool) (o1 o2 o3 : List Nat),
    run C (init b) ops = some w → Complete w o1 o2 o3 →
    ∃ w', update C mt o1 o2 o3 w = some w' ∧ ∀ A B, Meets C w A B → Paired w' A B

/-- C89. No operation runs into a failing assertion, an invalid tree node or a missing component. -/
theorem operations_defined_partial {C : Config S} {w : World S} {seen : Nat → Option (Box S)}
    (h : Reach C w seen) (o : Op S) (hp : Proper w o) (ha : Allowed w o) :
    ∃ w', step C w o = some w' := by
  obtain ⟨L, h1, h2⟩ := reach_inv h
  cases o with
  | addAabb e b =>
    have ha : w.aabb e = none := ha
    simp [step, addAabb, ha]
  | removeAabb e =>
    obtain ⟨b, hb⟩ := Option.ne_none_iff_exists'.1 (show w.aabb e ≠ none from ha)
    cases hr : w.resident e with
    | none => simp [step, removeAabb, hb, hr]
    | some x =>
      obtain ⟨t, -, h3, -⟩ := destroy_inv h1.good h1.res h1.live (p := x.2) (id := x.1) hr
      simp [step, removeAabb, hb, hr, h3, Option.map_some]
  | setAabb e b =>
    obtain ⟨c, hc⟩ := Option.ne_none_iff_exists'.1 (show w.aabb e ≠ none from ha)
    simp [step, setAabb, hc]
  | setKind e k =>
    obtain ⟨t, r, L', h3, -⟩ := setProcedural_inv C.tree h1 e k
    simp only [step, setKind, h3, Option.bind_some]
    split
    · exact ⟨_, rfl⟩
    · obtain ⟨m, h4, -⟩ := dropInert_spec
        { w with kind := upd w.kind e k, tree := t, resident := r } e h2
      exact ⟨_, h4⟩
  | setAsleep e v => exact ⟨_, rfl⟩
  | setOff e v => exact ⟨_, rfl⟩
  | setIdle e v => exact ⟨_, rfl⟩
  | dropManifold i =>
    obtain ⟨c, hc⟩ := Option.ne_none_iff_exists'.1 (show w.map.manifolds.get? i ≠ none from ha)
    simp [step, ManifoldMap.destroy, hc, Option.map_some]
  | swapManifold i =>
    obtain ⟨c, hc⟩ := Option.ne_none_iff_exists'.1 (show w.map.manifolds.get? i ≠ none from ha)
    simp [step, ManifoldMap.swap, hc, Option.map_some]
  | enrollNew =>
    obtain ⟨t, r, L', h3, -⟩ := enrollNew_inv C.tree h1
    exact ⟨_, h3⟩
  | update mt o1 o2 o3 =>
    obtain ⟨w', -, h3, -⟩ := update_spec C h1 h2 (o1 := o1) (o2 := o2) (o3 := o3) hp
    exact ⟨w', h3 mt⟩

/-- C89. Searching in parallel gives the state that searching sequentially gives. -/
theorem parallel_same {C : Config S} {w : World S} {seen : Nat → Option (Box S)}
    (h : Reach C w seen) {o1 o2 o3 : List Nat} (ho : Complete w o1 o2 o3) :
    update C true o1 o2 o3 w = update C false o1 o2 o3 w := by
  obtain ⟨L, h1, h2⟩ := reach_inv h
  obtain ⟨w', -, h3, -⟩ := update_spec C h1 h2 ho
  rw [h3, h3]

/-- C89. An update touches no AABB, kind or tag. -/
theorem update_frame {C : Config S} {w w' : World S} {seen : Nat → Option (Box S)}
    (h : Reach C w seen) {mt : Bool} {o1 o2 o3 : List Nat} (ho : Complete w o1 o2 o3)
    (hu : update C mt o1 o2 o3 w = some w') :
    w'.aabb = w.aabb ∧ w'.kind = w.kind ∧ w'.asleep = w.asleep ∧ w'.off = w.off ∧
      w'.idle = w.idle := by
  obtain ⟨L, h1, h2⟩ := reach_inv h
  obtain ⟨w1, -, h3, -, -, h4, -⟩ := update_spec C h1 h2 ho
  rw [h3 mt] at hu
  cases hu
  exact ⟨h4.1, h4.2.1, h4.2.2.1, h4.2.2.2.1, h4.2.2.2.2.1⟩

/-- C89. A manifold survives an update exactly when it is asleep or disabled or its bodies are
within the separation threshold. -/
theorem manifold_survives_iff {C : Config S} {w w' : World S} {seen : Nat → Option (Box S)}
    (h : Reach C w seen) {mt : Bool} {o1 o2 o3 : List Nat} (ho : Complete w o1 o2 o3)
    (hu : update C mt o1 o2 o3 w = some w') {i x y : Nat}
    (hi : w.map.manifolds.get? i = some (x, y)) :
    (w'.map.manifolds.get? i = some (x, y) ↔ Stays C w i x y) ∧
      (¬Stays C w i x y → w'.map.manifolds.get? i = none) := by
  obtain ⟨L, h1, h2⟩ := reach_inv h
  obtain ⟨w1, -, h3, -, -, -, h4, h5, -⟩ := update_spec C h1 h2 ho
  rw [h3 mt] at hu
  cases hu
  have hlt := h2.lt i _ hi
  have key : ∀ p, w'.map.manifolds.get? i = some p → p = (x, y) ∧ Stays C w i x y := by
    intro p hp
    rcases h5 i p.1 p.2 hp with h6 | h6
    · have h7 : some p = some (x, y) := h6.1.symm.trans hi
      cases h7
      exact ⟨rfl, h6.2⟩
    · exact absurd h6.2 (Nat.not_le.2 hlt)
  refine ⟨⟨fun hh => (key _ hh).2, h4 i x y hi⟩, ?_⟩
  intro hns
  cases hg : w'.map.manifolds.get? i with
  | none => rfl
  | some p => exact absurd (key p hg).2 hns

/-- C89. A manifold appears in an update only between two bodies that meet. -/
theorem new_manifold_meets {C : Config S} {w w' : World S} {seen : Nat → Option (Box S)}
    (h : Reach C w seen) {mt : Bool} {o1 o2 o3 : List Nat} (ho : Complete w o1 o2 o3)
    (hu : update C mt o1 o2 o3 w = some w') {i x y : Nat}
    (hi : w'.map.manifolds.get? i = some (x, y)) (hn : w.map.manifolds.get? i = none) :
    Meets C w x y := by
  obtain ⟨L, h1, h2⟩ := reach_inv h
  obtain ⟨w1, -, h3, -, -, -, h4, h5, -⟩ := update_spec C h1 h2 ho
  rw [h3 mt] at hu
  cases hu
  rcases h5 i x y hi with h6 | h6
  · rw [hn] at h6; cases h6.1
  · exact h6.1

/-- C89. Two bodies share at most one manifold. -/
theorem one_manifold_per_pair {C : Config S} {w : World S} {seen : Nat → Option (Box S)}
    (h : Reach C w seen) {i j x y : Nat}
    (hi : w.map.manifolds.get? i = some (x, y) ∨ w.map.manifolds.get? i = some (y, x))
    (hj : w.map.manifolds.get? j = some (x, y) ∨ w.map.manifolds.get? j = some (y, x)) : i = j := by
  obtain ⟨L, h1, h2⟩ := reach_inv h
  have h3 := (h2.map x y i).2 hi
  have h4 := (h2.map x y j).2 hj
  rw [h3] at h4
  cases h4
  rfl

/-- C89. Every pair of bodies that meets has a manifold after an update, provided that the tree
knows the current AABB of the second one: it is awake and not static, or its AABB is the one the
broadphase last saw. Missing: bodies that are static, asleep or disabled and whose AABB was changed
(`moved_static_missed`). -/
theorem pairs_found_partial {C : Config S} {w w' : World S} {seen : Nat → Option (Box S)}
    (h : Reach C w seen) {mt : Bool} {o1 o2 o3 : List Nat} (ho : Complete w o1 o2 o3)
    (hu : update C mt o1 o2 o3 w = some w') {A B : Nat} (hm : Meets C w A B)
    (hs : (w.kind B ≠ .static ∧ w.asleep B = false) ∨ seen B = w.aabb B ∨ seen B = none) :
    Paired w' A B := by
  obtain ⟨L, h1, h2⟩ := reach_inv h
  obtain ⟨w1, -, h3, -, -, -, -, -, h4⟩ := update_spec C h1 h2 ho
  rw [h3 mt] at hu
  cases hu
  refine h4 A B hm ?_
  have hoff : w.off B = false := hm.2.2.2.1
  simp only [note]
  split_ifs with h5 h6
  · rfl
  · rfl
  · rcases hs with h7 | h7 | h7
    · exact absurd ⟨h7.1, h7.2, hoff⟩ h5
    · exact h7
    · exact absurd h7 h6

/-- C89. The box the broadphase saw stays the current one through every operation that does not
assign the AABB of the body. -/
theorem seen_kept {C : Config S} {w w' : World S} {seen : Nat → Option (Box S)} {e : Nat}
    (hs : seen e = w.aabb e ∨ seen e = none) (o : Op S) (hstep : step C w o = some w')
    (hinv : Reach C w seen) (hp : Proper w o) (hne : ∀ b, o ≠ .setAabb e b) :
    note w seen o e = w'.aabb e ∨ note w seen o e = none := by
  cases o with
  | addAabb f b =>
    simp only [step, addAabb] at hstep
    cases ha : w.aabb f with
    | some c => simp [ha] at hstep
    | none =>
      simp only [ha, Option.some.injEq] at hstep
      subst hstep
      simp only [note, upd_apply]
      split
      · rename_i hf
        subst hf
        rcases hs with h1 | h1
        · right; rw [h1, ha]
        · exact Or.inr h1
      · exact hs
  | removeAabb f =>
    have hw : w'.aabb = upd w.aabb f none := by
      simp only [step, removeAabb] at hstep
      cases ha : w.aabb f with
      | none => simp [ha] at hstep
      | some c =>
        cases hr : w.resident f with
        | none =>
          simp only [ha, hr, Option.some.injEq] at hstep
          subst hstep; rfl
        | some x =>
          cases hd : DynTree.destroy (w.tree x.2) x.1 with
          | none => simp [ha, hr, hd] at hstep
          | some t =>
            simp only [ha, hr, hd, Option.map_some, Option.some.injEq] at hstep
            subst hstep; rfl
    rw [hw]
    simp only [note, upd_apply]
    split
    · exact Or.inr rfl
    · exact hs
  | setAabb f b =>
    simp only [step, setAabb] at hstep
    cases ha : w.aabb f with
    | none => simp [ha] at hstep
    | some c =>
      simp only [ha, Option.some.injEq] at hstep
      subst hstep
      have : e ≠ f := by rintro rfl; exact hne b rfl
      simpa [note, upd_apply, this] using hs
  | setKind f k =>
    obtain ⟨L, h1, h2⟩ := reach_inv hinv
    obtain ⟨t, r, L', h3, -⟩ := setProcedural_inv C.tree h1 f k
    have hw : w'.aabb = w.aabb := by
      simp only [step, setKind, h3, Option.bind_some] at hstep
      split at hstep
      · cases hstep; rfl
      · obtain ⟨m, h4, -⟩ := dropInert_spec
          { w with kind := upd w.kind f k, tree := t, resident := r } f h2
        rw [h4] at hstep
        cases hstep; rfl
    rw [hw]
    simp only [note]
    split
    · simp only [upd_apply]
      split
      · rename_i hf; rw [hf]; exact Or.inl rfl
      · exact hs
    · exact hs
  | setAsleep f v => simp only [step, Option.some.injEq] at hstep; subst hstep; exact hs
  | setOff f v => simp only [step, Option.some.injEq] at hstep; subst hstep; exact hs
  | setIdle f v => simp only [step, Option.some.injEq] at hstep; subst hstep; exact hs
  | dropManifold i =>
    simp only [step] at hstep
    cases hd : ManifoldMap.destroy w.map i with
    | none => simp [hd] at hstep
    | some m => simp only [hd, Option.map_some, Option.some.injEq] at hstep; subst hstep; exact hs
  | swapManifold i =>
    simp only [step] at hstep
    cases hd : ManifoldMap.swap w.map i with
    | none => simp [hd] at hstep
    | some m => simp only [hd, Option.map_some, Option.some.injEq] at hstep; subst hstep; exact hs
  | enrollNew =>
    obtain ⟨L, h1, -⟩ := reach_inv hinv
    obtain ⟨t, r, L', h3, -⟩ := enrollNew_inv C.tree h1
    simp only [step, h3, Option.some.injEq] at hstep
    subst hstep
    simp only [note]
    split
    · exact Or.inl rfl
    · exact hs
  | update mt o1 o2 o3 =>
    obtain ⟨h4, -⟩ := update_frame hinv hp hstep
    rw [h4]
    simp only [note]
    split_ifs
    · exact Or.inl rfl
    · exact Or.inl rfl
    · exact hs

/-- C89. Histories in which the AABB of the body `e` is never assigned: it is the one it was added
with. -/
inductive ReachStill (C : Config S) (e : Nat) : World S → (Nat → Option (Box S)) → Prop where
  | init (b : Box S) : ReachStill C e (init b) (fun _ => none)
  | step {w w' seen} (o : Op S) : ReachStill C e w seen → Proper w o →
      (∀ b, o ≠ .setAabb e b) → step C w o = some w' → ReachStill C e w' (note w seen o)

theorem ReachStill.reach {C : Config S} {e : Nat} {w : World S} {seen : Nat → Option (Box S)}
    (h : ReachStill C e w seen) : Reach C w seen := by
  induction h with
  | init b => exact .init b
  | step o _ hp _ hs ih => exact .step o ih hp hs

/-- C89. A body that never moved is found whatever its kind and whether it sleeps or not, in every
history. -/
theorem still_found_partial {C : Config S} {w w' : World S} {seen : Nat → Option (Box S)}
    {A B : Nat} (h : ReachStill C B w seen) {mt : Bool} {o1 o2 o3 : List Nat}
    (ho : Complete w o1 o2 o3) (hu : update C mt o1 o2 o3 w = some w') (hm : Meets C w A B) :
    Paired w' A B := by
  refine pairs_found_partial h.reach ho hu hm (Or.inr ?_)
  clear hm hu ho
  induction h with
  | init b => exact Or.inr rfl
  | step o h1 hp hne hs ih => exact seen_kept ih o hs h1.reach hp hne

/-- C89. The queries report bodies that have an AABB and are of the right kind, and of these every
one whose AABB meets the box, once the new ones were taken in and unless its AABB was changed behind
the back of the broadphase. -/
theorem bodies_queried_partial {C : Config S} {w : World S} {seen : Nat → Option (Box S)}
    (h : Reach C w seen) (p : Bool) (q : Box S) :
    ∃ l, queryBodies w p q = some l ∧
      (∀ x ∈ l, ∃ e b, x = some e ∧ w.aabb e = some b ∧ ((w.kind e = .dynamic) ↔ p = true)) ∧
      ∀ e b, w.aabb e = some b → (w.kind e = .dynamic ↔ p = true) → b.Overlaps q →
        e ∉ w.fresh → seen e = w.aabb e → some e ∈ l := by
  obtain ⟨L, h1, -⟩ := reach_inv h
  have hpk : ∀ e, p = (w.kind e).procedural ↔ (w.kind e = .dynamic ↔ p = true) := by
    intro e
    cases w.kind e <;> cases p <;> simp [Kind.procedural]
  obtain ⟨ids, h2, -, h3, h4⟩ := query_bodies h1 p q
  refine ⟨ids.map (w.tree p).c2, by simp [queryBodies, h2], ?_, ?_⟩
  · intro x hx
    obtain ⟨id, hid, rfl⟩ := List.mem_map.1 hx
    obtain ⟨o, b, h5, h6, h7⟩ := h3 id hid
    exact ⟨o, b, h5, h6, (hpk o).1 (h1.has o id p h7).2⟩
  · intro e b hb hk ho hf hs
    have hr : w.resident e ≠ none := (h1.enrolled e (by simp [hb])).resolve_right hf
    obtain ⟨⟨id, p'⟩, hr⟩ := Option.ne_none_iff_exists'.1 hr
    have hp' : p' = p := ((h1.has e id p' hr).2).trans ((hpk e).2 hk).symm
    subst hp'
    obtain ⟨h5, h6⟩ := h4 e id b hr (hs.trans hb) ho
    exact List.mem_map.2 ⟨id, h5, h6⟩

section Ordered
variable [IsOrderedAddMonoid S]

theorem Within.symm {k : S} {a b : Box S} (h : Within k a b) : Within k b a := by
  obtain ⟨⟨h1, h2⟩, ⟨h3, h4⟩, h5, h6⟩ := h
  refine ⟨⟨?_, ?_⟩, ⟨?_, ?_⟩, ?_, ?_⟩
  · exact sub_le_iff_le_add.2 h2
  · exact sub_le_iff_le_add.1 h1
  · exact sub_le_iff_le_add.2 h4
  · exact sub_le_iff_le_add.1 h3
  · exact sub_le_iff_le_add.2 h6
  · exact sub_le_iff_le_add.1 h5

theorem Within.mono {k l : S} {a b : Box S} (hkl : k ≤ l) (h : Within k a b) : Within l a b := by
  obtain ⟨⟨h1, h2⟩, ⟨h3, h4⟩, h5, h6⟩ := h
  exact ⟨⟨(sub_le_sub_left hkl _).trans h1, h2.trans (add_le_add_right hkl _)⟩,
    ⟨(sub_le_sub_left hkl _).trans h3, h4.trans (add_le_add_right hkl _)⟩,
    (sub_le_sub_left hkl _).trans h5, h6.trans (add_le_add_right hkl _)⟩

theorem Stays.symm {C : Config S} {w : World S} {i x y : Nat} (h : Stays C w i x y) :
    Stays C w i y x := by
  rcases h with h | ⟨a, b, h1, h2, h3⟩
  · exact Or.inl h
  · exact Or.inr ⟨b, a, h2, h1, h3.symm⟩

/-- C89. When the trees know every AABB, the pairs with a manifold after an update are exactly those
that meet, and those that had a manifold and are asleep or still within the separation threshold. -/
theorem pairs_exact_partial {C : Config S} {w w' : World S} {seen : Nat → Option (Box S)}
    (h : Reach C w seen) {mt : Bool} {o1 o2 o3 : List Nat} (ho : Complete w o1 o2 o3)
    (hu : update C mt o1 o2 o3 w = some w')
    (hs : ∀ e, (w.kind e ≠ .static ∧ w.asleep e = false) ∨ seen e = w.aabb e ∨ seen e = none)
    (x y : Nat) :
    Paired w' x y ↔ Meets C w x y ∨ Meets C w y x ∨
      ∃ i, (w.map.manifolds.get? i = some (x, y) ∨ w.map.manifolds.get? i = some (y, x)) ∧
        Stays C w i x y := by
  constructor
  · rintro ⟨i, hi⟩
    cases hg : w.map.manifolds.get? i with
    | none =>
      rcases hi with hi | hi
      · exact Or.inl (new_manifold_meets h ho hu hi hg)
      · exact Or.inr (Or.inl (new_manifold_meets h ho hu hi hg))
    | some p =>
      obtain ⟨h1, h2⟩ := manifold_survives_iff h ho hu (x := p.1) (y := p.2) hg
      have hst : Stays C w i p.1 p.2 := by
        by_contra hns
        rw [h2 hns] at hi
        simp at hi
      have hp := h1.2 hst
      rcases hi with hi | hi
      · rw [hi] at hp
        cases hp
        exact Or.inr (Or.inr ⟨i, Or.inl hg, hst⟩)
      · rw [hi] at hp
        cases hp
        exact Or.inr (Or.inr ⟨i, Or.inr hg, hst.symm⟩)
  · rintro (hm | hm | ⟨i, hi | hi, hst⟩)
    · exact pairs_found_partial h ho hu hm (hs y)
    · obtain ⟨i, hi⟩ := pairs_found_partial h ho hu hm (hs x)
      exact ⟨i, hi.symm⟩
    · exact ⟨i, Or.inl ((manifold_survives_iff h ho hu hi).1.2 hst)⟩
    · exact ⟨i, Or.inr ((manifold_survives_iff h ho hu hi).1.2 hst.symm)⟩

/-- C89. No flicker: the separation threshold is not smaller than the breaking threshold, so when
nothing changes a second update leaves the pairs as they are. -/
theorem update_steady {C : Config S} (hC : C.near ≤ C.apart) {w w' w'' : World S}
    {seen : Nat → Option (Box S)} (h : Reach C w seen) {mt mt' : Bool}
    {o1 o2 o3 p1 p2 p3 : List Nat} (ho : Complete w o1 o2 o3) (ho' : Complete w p1 p2 p3)
    (hu : update C mt o1 o2 o3 w = some w') (hu' : update C mt' p1 p2 p3 w' = some w'') (x y : Nat)
    (hp : Paired w' x y) : Paired w'' x y := by
  have hr : Reach C w' (note w seen (.update mt o1 o2 o3)) :=
    .step (.update mt o1 o2 o3) h ho hu
  obtain ⟨f1, f2, f3, f4, f5⟩ := update_frame h ho hu
  have ho2 : Complete w' p1 p2 p3 := by
    intro e he
    rw [f1] at he
    exact ho' e he
  have key : ∀ i a b, w'.map.manifolds.get? i = some (a, b) →
      w''.map.manifolds.get? i = some (a, b) := by
    intro i a b hi
    refine (manifold_survives_iff hr ho2 hu' hi).1.2 ?_
    cases hg : w.map.manifolds.get? i with
    | none =>
      obtain ⟨-, -, -, -, -, u, v, h1, h2, h3⟩ := new_manifold_meets h ho hu hi hg
      exact Or.inr ⟨u, v, by rw [f1, h1], by rw [f1, h2], h3.mono hC⟩
    | some p =>
      obtain ⟨h1, h2⟩ := manifold_survives_iff h ho hu (x := p.1) (y := p.2) hg
      have hst : Stays C w i p.1 p.2 := by
        by_contra hns
        rw [h2 hns] at hi
        cases hi
      have hpp := h1.2 hst
      rw [hi] at hpp
      cases hpp
      unfold Stays at hst ⊢
      rw [f1, f5]
      exact hst
  obtain ⟨i, hi⟩ := hp
  exact ⟨i, hi.imp (key i x y) (key i y x)⟩

/-- C89. Bodies whose AABBs are farther apart than the separation threshold have no manifold after
an update, unless one was put to sleep. -/
theorem apart_unpaired {C : Config S} (hC : C.near ≤ C.apart) {w w' : World S}
    {seen : Nat → Option (Box S)} (h : Reach C w seen) {mt : Bool} {o1 o2 o3 : List Nat}
    (ho : Complete w o1 o2 o3) (hu : update C mt o1 o2 o3 w = some w') {x y : Nat} {a b : Box S}
    (hx : w.aabb x = some a) (hy : w.aabb y = some b) (hab : ¬Within C.apart a b)
    (hi : ∀ i, (w.map.manifolds.get? i = some (x, y) ∨ w.map.manifolds.get? i = some (y, x)) →
      w.idle i = false) : ¬Paired w' x y := by
  have hxy : ∀ u v, Meets C w u v → (u = x ∧ v = y) ∨ (u = y ∧ v = x) → False := by
    rintro u v ⟨-, -, -, -, -, p, q, h1, h2, h3⟩ (⟨rfl, rfl⟩ | ⟨rfl, rfl⟩)
    · rw [hx] at h1; rw [hy] at h2; cases h1; cases h2
      exact hab (h3.mono hC)
    · rw [hy] at h1; rw [hx] at h2; cases h1; cases h2
      exact hab (h3.mono hC).symm
  have hstay : ∀ i u v, Stays C w i u v → (u = x ∧ v = y) ∨ (u = y ∧ v = x) →
      w.idle i = true := by
    rintro i u v (h1 | ⟨p, q, h1, h2, h3⟩) huv
    · exact h1
    · exfalso
      rcases huv with ⟨rfl, rfl⟩ | ⟨rfl, rfl⟩
      · rw [hx] at h1; rw [hy] at h2; cases h1; cases h2
        exact hab h3
      · rw [hy] at h1; rw [hx] at h2; cases h1; cases h2
        exact hab h3.symm
  have key : ∀ i u v, w'.map.manifolds.get? i = some (u, v) →
      (u = x ∧ v = y) ∨ (u = y ∧ v = x) → False := by
    intro i u v hg huv
    cases ho' : w.map.manifolds.get? i with
    | none => exact hxy u v (new_manifold_meets h ho hu hg ho') huv
    | some p =>
      obtain ⟨h1, h2⟩ := manifold_survives_iff h ho hu (x := p.1) (y := p.2) ho'
      have hst : Stays C w i p.1 p.2 := by
        by_contra hns
        rw [h2 hns] at hg
        cases hg
      have hpp := h1.2 hst
      rw [hg] at hpp
      cases hpp
      have h3 := hstay i _ _ hst huv
      have h4 : w.idle i = false := by
        rcases huv with ⟨rfl, rfl⟩ | ⟨rfl, rfl⟩
        · exact hi i (Or.inl ho')
        · exact hi i (Or.inr ho')
      rw [h3] at h4
      cases h4
  rintro ⟨i, hg | hg⟩
  · exact key i x y hg (Or.inl ⟨rfl, rfl⟩)
  · exact key i y x hg (Or.inr ⟨rfl, rfl⟩)

end Ordered

end Edyn.Broad
