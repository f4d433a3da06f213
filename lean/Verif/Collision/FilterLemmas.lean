import Verif.Collision.FilterModel
import Verif.Common.ListLemmas

namespace Edyn.Collision

open Edyn.ListLemmas

/-- The array holds the entities `xs` followed by nulls. -/
structure Rep (a : ExclArray) (xs : List Entity) : Prop where
  eq : a = xs.map some ++ List.replicate (maxExclusions - xs.length) none
  le : xs.length ≤ maxExclusions
  nodup : xs.Nodup

theorem rep_init : Rep ExclArray.init [] := ⟨by simp [ExclArray.init], by simp, by simp⟩

theorem Rep.num {a xs} (h : Rep a xs) : numEntities a = xs.length := by
  rw [numEntities, h.eq]
  have h1 : ∀ (ys : List Entity) (n : Nat),
      ((ys.map some ++ List.replicate n none).takeWhile Option.isSome) = ys.map some := by
    intro ys n
    induction ys with
    | nil => cases n <;> simp [List.replicate]
    | cons y ys ih => simp [ih]
  rw [h1]; simp

theorem Rep.take {a xs} (h : Rep a xs) : a.take (numEntities a) = xs.map some := by
  rw [h.num, h.eq, List.take_left' (by simp)]

theorem Rep.any {a xs} (h : Rep a xs) (b : Entity) :
    (a.take (numEntities a)).any (· == some b) = true ↔ b ∈ xs := by
  rw [h.take]; simp

theorem rep_push {a xs} (h : Rep a xs) (b : Entity) (hb : b ∉ xs) (hl : xs.length < maxExclusions) :
    Rep (a.set xs.length (some b)) (xs ++ [b]) := by
  refine ⟨?_, by simp only [List.length_append, List.length_singleton]; omega, ?_⟩
  · rw [h.eq, List.set_append_right _ _ (by simp)]
    obtain ⟨k, hk⟩ : ∃ k, maxExclusions - xs.length = k + 1 := ⟨maxExclusions - xs.length - 1, by omega⟩
    rw [hk]
    simp only [List.length_map, Nat.sub_self, List.replicate_succ, List.set_cons_zero, List.map_append,
      List.map_cons, List.map_nil, List.append_assoc, List.cons_append, List.nil_append,
      List.length_append, List.length_singleton]
    rw [show maxExclusions - (xs.length + 1) = k by omega]
  · rw [List.nodup_append]
    refine ⟨h.nodup, by simp, ?_⟩
    intro x hx y hy
    simp only [List.mem_singleton] at hy
    subst hy
    exact fun e => hb (e ▸ hx)

theorem Rep.get {a xs} (h : Rep a xs) {i : Nat} (hi : i < xs.length) : a[i]? = some (some xs[i]) := by
  rw [h.eq, List.getElem?_append_left (by simpa using hi)]
  simp [hi]

theorem rep_removeAt {a xs} (h : Rep a xs) {k : Nat} (hk : k < xs.length) :
    Rep ((a.set k ((a[xs.length - 1]?).getD none)).set (xs.length - 1) none) (swapRemove xs k) := by
  have hlast : a[xs.length - 1]? = some (some (xs[xs.length - 1])) := h.get (by omega)
  have hne : xs ≠ [] := by intro e; simp [e] at hk
  refine ⟨?_, ?_, ?_⟩
  · rw [hlast, h.eq]
    simp only [Option.getD_some]
    have hgl : xs.getLast? = some (xs[xs.length - 1]) := by
      rw [List.getLast?_eq_getElem?, List.getElem?_eq_getElem (by omega)]
    have hlen := swapRemove_length xs k hk
    rw [hlen]
    simp only [swapRemove, hgl]
    rw [List.set_append_left _ _ (by simpa using hk),
      List.set_append_left _ _ (by rw [List.length_set, List.length_map]; omega)]
    have hrep : maxExclusions - (xs.length - 1) = (maxExclusions - xs.length) + 1 := by
      have := h.le; omega
    rw [hrep, List.replicate_succ]
    rw [← List.map_set]
    generalize hys : xs.set k xs[xs.length - 1] = ys
    have hyl : ys.length = xs.length := by rw [← hys]; simp
    rw [← hyl]
    have hyne : ys ≠ [] := by intro e; simp [e] at hyl; omega
    obtain ⟨init, l, rfl⟩ : ∃ init l, ys = init ++ [l] := ⟨ys.dropLast, ys.getLast hyne, (List.dropLast_concat_getLast hyne).symm⟩
    simp only [List.map_append, List.map_cons, List.map_nil, List.length_append,
      List.length_singleton, Nat.add_sub_cancel, List.dropLast_concat]
    rw [List.set_append_right _ _ (by simp)]
    simp
  · have := swapRemove_length xs k hk
    have := h.le
    omega
  · exact (swapRemove_perm xs k hk).nodup_iff.2 (h.nodup.sublist (List.eraseIdx_sublist ..))

theorem rep_removeLoop {a xs} (h : Rep a xs) (b : Entity) : ∀ i, i ≤ xs.length →
    (∀ j, i ≤ j → xs[j]? ≠ some b) →
    ∃ ys, Rep (removeLoop a xs.length b i) ys ∧ ∀ c, c ∈ ys ↔ c ∈ xs ∧ c ≠ b := by
  intro i
  induction i with
  | zero =>
    intro _ hno
    refine ⟨xs, h, ?_⟩
    intro c
    constructor
    · intro hc
      refine ⟨hc, ?_⟩
      rintro rfl
      obtain ⟨j, hj⟩ := List.mem_iff_getElem?.1 hc
      exact hno j (Nat.zero_le _) hj
    · exact fun hc => hc.1
  | succ i ih =>
    intro hi hno
    simp only [removeLoop]
    have hg := h.get (show i < xs.length by omega)
    split
    · rename_i hb
      rw [hg] at hb
      have hb' : xs[i] = b := by simpa using hb
      refine ⟨_, rep_removeAt h (by omega), ?_⟩
      intro c
      rw [(swapRemove_perm xs i (by omega)).mem_iff]
      exact mem_eraseIdx_nodup xs h.nodup i b (by rw [List.getElem?_eq_getElem (by omega), hb']) c
    · rename_i hb
      refine ih (by omega) ?_
      intro j hj
      by_cases e : j = i
      · subst e
        intro hx
        apply hb
        rw [hg]
        rw [List.getElem?_eq_getElem (by omega)] at hx
        simpa using hx
      · exact hno j (by omega)

theorem rep_remove {a xs} (h : Rep a xs) (b : Entity) :
    ∃ ys, Rep (removeLoop a (numEntities a) b (numEntities a)) ys ∧ ∀ c, c ∈ ys ↔ c ∈ xs ∧ c ≠ b := by
  rw [h.num]
  refine rep_removeLoop h b xs.length (Nat.le_refl _) ?_
  intro j hj
  rw [List.getElem?_eq_none hj]
  simp

/-- Specification relation: which pairs are excluded. -/
abbrev Excl := Entity → Entity → Prop

/-- Every stored array represents the row of the relation; entities without component exclude
nothing. -/
structure Rel (r : Reg) (s : Excl) : Prop where
  some : ∀ e a, r.excl.get? e = .some a → ∃ xs, Rep a xs ∧ ∀ c, c ∈ xs ↔ s e c
  none : ∀ e, r.excl.get? e = .none → ∀ c, ¬ s e c

theorem Rel.shouldExclude {r s} (h : Rel r s) (a b : Entity) :
    shouldExclude r a b = true ↔ s a b := by
  unfold Collision.shouldExclude
  cases hg : r.excl.get? a with
  | none => simp [h.none a hg]
  | some arr =>
    obtain ⟨xs, hr, hm⟩ := h.some a arr hg
    simp only [hr.any, hm]

theorem rel_oneWay {r r' s} (h : Rel r s) (a b : Entity) (hr : excludeOneWay r a b = some r') :
    Rel r' (fun x y => s x y ∨ (x = a ∧ y = b)) ∧ r'.isBody = r.isBody ∧ r'.filter = r.filter := by
  unfold excludeOneWay at hr
  split at hr
  · cases hr
  · have hex : ∃ xs, Rep ((r.excl.get? a).getD ExclArray.init) xs ∧ ∀ c, c ∈ xs ↔ s a c := by
      cases hg : r.excl.get? a with
      | none => exact ⟨[], rep_init, fun c => by simpa using h.none a hg c⟩
      | some arr => exact h.some a arr hg
    obtain ⟨xs, hrep, hm⟩ := hex
    generalize (r.excl.get? a).getD ExclArray.init = arr at *
    simp only at hr
    split at hr
    · rename_i hany
      have hb : b ∈ xs := (hrep.any b).1 hany
      cases hr
      refine ⟨⟨?_, ?_⟩, rfl, rfl⟩
      · intro e arr' he
        simp only [AMap.get?_set] at he
        split at he
        · rename_i hea
          subst hea
          cases he
          refine ⟨xs, hrep, fun c => ?_⟩
          rw [hm]
          constructor
          · exact Or.inl
          · rintro (h1 | ⟨_, rfl⟩)
            · exact h1
            · exact (hm _).1 hb
        · rename_i hea
          obtain ⟨ys, h1, h2⟩ := h.some e arr' he
          exact ⟨ys, h1, fun c => by simp [h2, hea]⟩
      · intro e he c
        simp only [AMap.get?_set] at he
        split at he
        · cases he
        · rename_i hea
          simpa [hea] using h.none e he c
    · rename_i hany
      split at hr
      · rename_i hlt
        cases hr
        have hb : b ∉ xs := fun hb => hany ((hrep.any b).2 hb)
        rw [hrep.num] at hlt
        refine ⟨⟨?_, ?_⟩, rfl, rfl⟩
        · intro e arr' he
          simp only [AMap.get?_set] at he
          split at he
          · rename_i hea
            subst hea
            cases he
            rw [hrep.num]
            refine ⟨_, rep_push hrep b hb hlt, fun c => ?_⟩
            simp [hm]
          · rename_i hea
            obtain ⟨ys, h1, h2⟩ := h.some e arr' he
            exact ⟨ys, h1, fun c => by simp [h2, hea]⟩
        · intro e he c
          simp only [AMap.get?_set] at he
          split at he
          · cases he
          · rename_i hea
            simpa [hea] using h.none e he c
      · cases hr

theorem rel_removeOneWay {r s} (h : Rel r s) (a b : Entity) (arr : ExclArray)
    (hg : r.excl.get? a = some arr) :
    ∃ r', removeOneWay r a b = some r' ∧ Rel r' (fun x y => s x y ∧ ¬ (x = a ∧ y = b)) ∧
      (∀ e, e ≠ a → r'.excl.get? e = r.excl.get? e) ∧ (r'.excl.get? a).isSome = true ∧
      r'.isBody = r.isBody ∧ r'.filter = r.filter := by
  obtain ⟨xs, hrep, hm⟩ := h.some a arr hg
  obtain ⟨ys, hrep', hm'⟩ := rep_remove hrep b
  refine ⟨{ r with excl := r.excl.set a (removeLoop arr (numEntities arr) b (numEntities arr)) },
    by simp only [removeOneWay, hg], ⟨?_, ?_⟩, ?_, ?_, rfl, rfl⟩
  · intro e arr' he
    simp only [AMap.get?_set] at he
    split at he
    · rename_i hea
      subst hea
      cases he
      exact ⟨ys, hrep', fun c => by simp [hm', hm]⟩
    · rename_i hea
      obtain ⟨zs, h1, h2⟩ := h.some e arr' he
      exact ⟨zs, h1, fun c => by simp [h2, hea]⟩
  · intro e he c
    simp only [AMap.get?_set] at he
    split at he
    · cases he
    · rename_i hea
      simpa [hea] using h.none e he c
  · intro e he; simp [he]
  · simp

theorem removeOneWay_some {r r' : Reg} {a b} (hr : removeOneWay r a b = some r') :
    ∃ arr, r.excl.get? a = some arr := by
  unfold removeOneWay at hr
  split at hr
  · cases hr
  · exact ⟨_, ‹_›⟩

theorem rel_congr {r s s'} (h : Rel r s) (hs : ∀ x y, s x y ↔ s' x y) : Rel r s' := by
  have : s = s' := by funext x y; exact propext (hs x y)
  rwa [← this]

/-- The clearing loop removes `entity` from the arrays of the remaining entries. -/
theorem rel_clearLoop (entity : Entity) (arr : ExclArray) (xs : List Entity) (hrep : Rep arr xs)
    (hself : entity ∉ xs) : ∀ (n i : Nat) (r : Reg) (s : Excl), Rel r s → i + n = xs.length →
    r.excl.get? entity = some arr →
    (∀ c ∈ xs.drop i, (r.excl.get? c).isSome = true) →
    ∃ r', clearLoop entity i n r = some r' ∧
      Rel r' (fun x y => s x y ∧ ¬ (x ∈ xs.drop i ∧ y = entity)) ∧
      r'.isBody = r.isBody ∧ r'.filter = r.filter := by
  intro n
  induction n with
  | zero =>
    intro i r s h hi _ _
    refine ⟨r, rfl, rel_congr h ?_, rfl, rfl⟩
    intro x y
    have : xs.drop i = [] := List.drop_eq_nil_of_le (by omega)
    simp [this]
  | succ n ih =>
    intro i r s h hi hg hcomp
    have hilt : i < xs.length := by omega
    have hdrop : xs.drop i = xs[i] :: xs.drop (i + 1) := List.drop_eq_getElem_cons hilt
    have hcs : (r.excl.get? xs[i]).isSome = true := hcomp _ (hdrop ▸ List.mem_cons_self)
    obtain ⟨arr2, harr2⟩ := Option.isSome_iff_exists.1 hcs
    obtain ⟨r1, h1, hrel1, hother, hsame, hb1, hf1⟩ := rel_removeOneWay h xs[i] entity arr2 harr2
    have hne : xs[i] ≠ entity := fun e => hself (e ▸ List.getElem_mem hilt)
    have hg1 : r1.excl.get? entity = some arr := by rw [hother entity (Ne.symm hne)]; exact hg
    obtain ⟨r2, h2, hrel2, hb2, hf2⟩ := ih (i + 1) r1 _ hrel1 (by omega) hg1 (by
      intro c hc
      by_cases hce : c = xs[i]
      · rw [hce]; exact hsame
      · rw [hother c hce]; exact hcomp c (hdrop ▸ List.mem_cons_of_mem _ hc))
    refine ⟨r2, ?_, rel_congr hrel2 ?_, hb2.trans hb1, hf2.trans hf1⟩
    · simp only [clearLoop, hg, hrep.get hilt, h1, Option.bind_some, h2]
    · intro x y
      rw [hdrop]
      simp only [List.mem_cons]
      constructor
      · rintro ⟨⟨h3, h4⟩, h5⟩
        refine ⟨h3, ?_⟩
        rintro ⟨rfl | h6, rfl⟩
        · exact h4 ⟨rfl, rfl⟩
        · exact h5 ⟨h6, rfl⟩
      · rintro ⟨h3, h4⟩
        exact ⟨⟨h3, fun h5 => h4 ⟨Or.inl h5.1, h5.2⟩⟩, fun h5 => h4 ⟨Or.inr h5.1, h5.2⟩⟩

/-- Symmetric, irreflexive relation. -/
structure SpecInv (s : Excl) : Prop where
  symm : ∀ x y, s x y → s y x
  irrefl : ∀ x, ¬ s x x

theorem rel_clear {r s} (h : Rel r s) (hs : SpecInv s) (e : Entity)
    (hg : (r.excl.get? e).isSome = true) :
    ∃ r', clear r e = some r' ∧ Rel r' (fun x y => s x y ∧ x ≠ e ∧ y ≠ e) ∧
      r'.isBody = r.isBody ∧ r'.filter = r.filter := by
  obtain ⟨arr, harr⟩ := Option.isSome_iff_exists.1 hg
  obtain ⟨xs, hrep, hm⟩ := h.some e arr harr
  have hself : e ∉ xs := fun hx => hs.irrefl e ((hm e).1 hx)
  have hcomp : ∀ c ∈ xs.drop 0, (r.excl.get? c).isSome = true := by
    intro c hc
    have hsc : s c e := hs.symm _ _ ((hm c).1 (by simpa using hc))
    cases hgc : r.excl.get? c with
    | none => exact absurd hsc (h.none c hgc e)
    | some _ => rfl
  obtain ⟨r1, h1, hrel, hb, hf⟩ := rel_clearLoop e arr xs hrep hself xs.length 0 r s h (by simp)
    harr hcomp
  refine ⟨{ r1 with excl := r1.excl.erase e }, ?_, ⟨?_, ?_⟩, hb, hf⟩
  · simp only [clear, harr, hrep.num, h1, Option.map_some]
  · intro x arr' hx
    simp only [AMap.get?_erase] at hx
    split at hx
    · cases hx
    · rename_i hxe
      obtain ⟨ys, h2, h3⟩ := hrel.some x arr' hx
      refine ⟨ys, h2, fun c => ?_⟩
      rw [h3]
      simp only [List.drop_zero, hm]
      constructor
      · rintro ⟨h4, h5⟩
        refine ⟨h4, hxe, ?_⟩
        rintro rfl
        exact h5 ⟨hs.symm _ _ h4, rfl⟩
      · rintro ⟨h4, _, h6⟩
        exact ⟨h4, fun h7 => h6 h7.2⟩
  · intro x hx c hc
    simp only [AMap.get?_erase] at hx
    split at hx
    · rename_i hxe; exact hc.2.1 hxe
    · refine hrel.none x hx c ⟨hc.1, fun h7 => hc.2.2 h7.2⟩

end Edyn.Collision
