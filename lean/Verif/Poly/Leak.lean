import Verif.Poly.Main

/-!
# Rotated meshes of polyhedra: entities of lists go with their body (C91)
-/

namespace Edyn.Poly

open Edyn.Math

variable {T : Type} [Field T] {β : Type}

/-- Every entity that holds a rotated mesh is the body that the mesh is of, or belongs to its list. -/
def Kept (w : World T β) : Prop :=
  ∀ d, (w.list d).isSome → ∃ e, w.body e = true ∧ Reach w.list e d

/-- The invariant of histories in which no body gets polyhedra a second time. -/
structure Tidy (w : World T β) : Prop where
  kept : Kept w
  bare : ∀ e, Fresh w e → w.body e = true → w.list e = none
  nodup : (w.newPoly ++ w.newComp).Nodup
  lt : ∀ e, Fresh w e → e < w.n

theorem Inited.kept {e : ℕ} {w w' : World T β} (h : Inited e w w') (hc : Core w)
    (he : w.body e = true) (hn : w.list e = none) (hk : Kept w) : Kept w' := by
  intro d hd
  rw [h.body]
  by_cases k1 : w.n ≤ d
  · exact ⟨e, he, h.own d k1 hd⟩
  · by_cases k2 : d = e
    · subst k2
      exact ⟨d, he, .refl d⟩
    · rw [h.list d (by omega) k2] at hd
      obtain ⟨x, hx, hr⟩ := hk d hd
      have k3 : x ≠ e := by
        rintro rfl
        cases hr with
        | refl => exact k2 rfl
        | head h1 _ _ => rw [hn] at h1; cases h1
      refine ⟨x, hx, hr.congr (h.list_other hc he hx k3 ?_)⟩
      cases hr with
      | refl => exact hd
      | head h1 _ _ => rw [h1]; rfl

theorem each_kept {f : World T β → ℕ → Option (World T β)}
    (hf : ∀ w e w', Core w → w.body e = true → f w e = some w' → Inited e w w') :
    ∀ (es : List ℕ) (w w' : World T β), Core w → (∀ e ∈ es, w.body e = true ∧ w.list e = none) →
      es.Nodup → Kept w → w.each f es = some w' →
      Kept w' ∧ w.n ≤ w'.n ∧ ∀ d, d < w.n → d ∉ es → w'.list d = w.list d
  | [], w, w', _, _, _, hk, h => by
    obtain rfl := Option.some.inj h
    exact ⟨hk, le_rfl, fun _ _ _ => rfl⟩
  | e :: es, w, w', hc, hb, hd, hk, h => by
    obtain ⟨he, hn⟩ := hb e (List.mem_cons_self ..)
    rw [List.nodup_cons] at hd
    cases h1 : f w e with
    | none => simp [World.each, h1] at h
    | some w1 =>
      simp only [World.each, h1, Option.bind_some] at h
      have i1 := hf w e w1 hc he h1
      obtain ⟨k1, k2, k3⟩ := each_kept hf es w1 w' i1.core (fun x hx => by
        obtain ⟨a, b⟩ := hb x (List.mem_cons_of_mem _ hx)
        refine ⟨by rw [i1.body]; exact a, ?_⟩
        rw [i1.list x (hc.blt x a) (by rintro rfl; exact hd.1 hx)]
        exact b) hd.2 (i1.kept hc he hn hk) h
      refine ⟨k1, i1.n.trans k2, fun d hlt hne => ?_⟩
      rw [k3 d (hlt.trans_le i1.n) fun k => hne (List.mem_cons_of_mem _ k)]
      exact i1.list d hlt fun k => hne (k ▸ List.mem_cons_self ..)

/-- An operation that does not give a body polyhedra in place of another shape. -/
def Op.Once : Op T → Prop
  | .setShape _ (some (.poly _ _)) => False
  | .setShape _ (some (.compound _)) => False
  | _ => True

theorem Tidy.of_same {w w' : World T β} (ht : Tidy w) (hb : w'.body = w.body) (hl : w'.list = w.list)
    (hn : w'.n = w.n) (hp : w'.newPoly = w.newPoly) (hq : w'.newComp = w.newComp) : Tidy w' := by
  have ff : ∀ e, Fresh w' e ↔ Fresh w e := fun e => by simp [Fresh, hp, hq]
  refine ⟨?_, ?_, ?_, ?_⟩
  · intro d hd
    rw [hl] at hd ⊢
    rw [hb]
    exact ht.kept d hd
  · intro e he hbe
    rw [hl]
    rw [hb] at hbe
    exact ht.bare e ((ff e).1 he) hbe
  · rw [hp, hq]; exact ht.nodup
  · intro e he
    rw [hn]
    exact ht.lt e ((ff e).1 he)

theorem apply_tidy {cfg : Cfg T β} {w w' : World T β} (hi : Inv w) (ht : Tidy w) {o : Op T}
    (ho : o.Once) (h : w.apply cfg o = some w') : Tidy w' := by
  cases o with
  | create s p q k =>
    obtain rfl := Option.some.inj h
    have hln : w.list w.n = none := by
      cases hb : w.list w.n with
      | none => rfl
      | some x => exact absurd (hi.core.lt _ x hb) (Nat.lt_irrefl _)
    have hfn : ¬ Fresh w w.n := fun k => absurd (ht.lt _ k) (Nat.lt_irrefl _)
    have base : ∀ w1 : World T β, w1.n = w.n + 1 → w1.body = put w.body w.n true → w1.list = w.list →
        (∀ x, Fresh w1 x → Fresh w x ∨ x = w.n) → (w1.newPoly ++ w1.newComp).Nodup → Tidy w1 := by
      intro w1 a1 a2 a3 a4 a5
      refine ⟨?_, ?_, a5, ?_⟩
      · intro d hd
        rw [a3] at hd ⊢
        obtain ⟨e, k1, k2⟩ := ht.kept d hd
        exact ⟨e, by rw [a2, put_ne _ _ (Nat.ne_of_lt (hi.core.blt e k1))]; exact k1, k2⟩
      · intro e he hb
        rw [a3]
        by_cases k : e = w.n
        · rw [k]; exact hln
        · rw [a2, put_ne _ _ k] at hb
          exact ht.bare e ((a4 e he).resolve_right k) hb
      · intro e he
        rw [a1]
        rcases a4 e he with k | k
        · exact (ht.lt e k).trans (Nat.lt_succ_self _)
        · omega
    have n1 : w.n ∉ w.newPoly := fun k => hfn (.inl k)
    have n2 : w.n ∉ w.newComp := fun k => hfn (.inr k)
    have nd := ht.nodup
    rw [List.nodup_append] at nd
    cases s with
    | none => exact base _ rfl rfl rfl (fun x hx => .inl hx) ht.nodup
    | some sh =>
      cases sh with
      | poly m p =>
        refine base _ rfl rfl rfl (fun x hx => ?_) ?_
        · rcases hx with hx | hx
          · rcases List.mem_append.1 hx with hx | hx
            · exact .inl (.inl hx)
            · exact .inr (by simpa using hx)
          · exact .inl (.inr hx)
        · show ((w.newPoly ++ [w.n]) ++ w.newComp).Nodup
          rw [List.nodup_append]
          refine ⟨?_, nd.2.1, ?_⟩
          · rw [List.nodup_append]
            refine ⟨nd.1, by simp, ?_⟩
            intro a ha b hb
            obtain rfl : b = w.n := by simpa using hb
            rintro rfl
            exact n1 ha
          · intro a ha b hb
            rcases List.mem_append.1 ha with ha | ha
            · exact nd.2.2 a ha b hb
            · obtain rfl : a = w.n := by simpa using ha
              rintro rfl
              exact n2 hb
      | compound ns =>
        refine base _ rfl rfl rfl (fun x hx => ?_) ?_
        · rcases hx with hx | hx
          · exact .inl (.inl hx)
          · rcases List.mem_append.1 hx with hx | hx
            · exact .inl (.inr hx)
            · exact .inr (by simpa using hx)
        · show (w.newPoly ++ (w.newComp ++ [w.n])).Nodup
          rw [List.nodup_append]
          refine ⟨nd.1, ?_, ?_⟩
          · rw [List.nodup_append]
            refine ⟨nd.2.1, by simp, ?_⟩
            intro a ha b hb
            obtain rfl : b = w.n := by simpa using hb
            rintro rfl
            exact n2 ha
          · intro a ha b hb
            rcases List.mem_append.1 hb with hb | hb
            · exact nd.2.2 a ha b hb
            · obtain rfl : b = w.n := by simpa using hb
              rintro rfl
              exact n1 ha
      | other j => exact base _ rfl rfl rfl (fun x hx => .inl hx) ht.nodup
  | setShape e s =>
    simp only [World.apply] at h
    split at h
    · obtain rfl := Option.some.inj h
      obtain ⟨a1, _, a3, _, _, _, _, _, _, a10, _, _⟩ := setShape_same cfg w e s
      cases s with
      | none => exact ht.of_same a3 a10 a1 rfl rfl
      | some sh =>
        cases sh with
        | poly m p => exact ho.elim
        | compound ns => exact ho.elim
        | other j =>
          refine ht.of_same a3 a10 a1 ?_ ?_
          · simp only [World.setShape, World.announce]; split <;> rfl
          · simp only [World.setShape, World.announce]; split <;> rfl
    · cases h
  | destroy x =>
    simp only [World.apply] at h
    split at h
    · rename_i hx
      obtain ⟨l, hp, e1, _, e3, e4, _⟩ := destroy_some hi hx
      obtain rfl := Option.some.inj (e1.symm.trans h)
      have hb : ∀ {d}, put w.body x false d = true → d ≠ x ∧ w.body d = true := by
        intro d hd
        by_cases k : d = x
        · subst k; simp at hd
        · exact ⟨k, (put_ne w.body false k).symm.trans hd⟩
      refine ⟨?_, ?_, ht.nodup, ht.lt⟩
      · intro d hd
        have hd' : (l d).isSome := hd
        have nr : ¬ Reach w.list x d := fun k => by rw [e3 d k] at hd'; cases hd'
        rw [e4 d nr] at hd'
        obtain ⟨e, k1, k2⟩ := ht.kept d hd'
        have hne : e ≠ x := by rintro rfl; exact nr k2
        refine ⟨e, (put_ne w.body false hne).trans k1, k2.congr fun y hy => e4 y fun k => ?_⟩
        exact hne (hi.core.reach_unique (hi.core.root k1) (hi.core.root hx) y hy k)
      · intro e he hbe
        obtain ⟨_, k⟩ := hb hbe
        have := ht.bare e he k
        show l e = none
        by_cases hr : Reach w.list x e
        · exact e3 e hr
        · rw [e4 e hr]; exact this
    · cases h
  | turn e q =>
    simp only [World.apply] at h
    split at h
    · rename_i he
      obtain ⟨hp, bx, rfl, _⟩ := turn_some hi he h
      exact ht.of_same rfl rfl rfl rfl rfl
    · cases h
  | move e p =>
    simp only [World.apply] at h
    split at h
    · obtain ⟨bx, rfl, _⟩ := move_some h
      exact ht.of_same rfl rfl rfl rfl rfl
    · cases h
  | setKind e k =>
    simp only [World.apply] at h
    split at h
    · obtain rfl := Option.some.inj h
      exact ht.of_same rfl rfl rfl rfl rfl
    · cases h
  | setIdle e b =>
    simp only [World.apply] at h
    split at h
    · obtain rfl := Option.some.inj h
      exact ht.of_same rfl rfl rfl rfl rfl
    · cases h
  | init =>
    have h' : w.init = some w' := h
    simp only [World.init] at h'
    have nd := ht.nodup
    rw [List.nodup_append] at nd
    cases h1 : w.each World.initPoly (w.newPoly.filter w.body) with
    | none => rw [h1] at h'; cases h'
    | some w1 =>
      rw [h1] at h'
      have hb1 : ∀ e ∈ w.newPoly.filter w.body, w.body e = true ∧ w.list e = none := fun e he =>
        ⟨(List.mem_filter.1 he).2, ht.bare e (.inl (List.mem_filter.1 he).1) (List.mem_filter.1 he).2⟩
      have i1 := each_inited (fun w e w' => initPoly_some) _ w w1 hi.core
        (fun e he => (hb1 e he).1) h1
      obtain ⟨k1, k2, k3⟩ := each_kept (fun w e w' => initPoly_some) _ w w1 hi.core hb1
        (nd.1.filter _) ht.kept h1
      cases h2 : w1.each World.initComp (w1.newComp.filter w1.body) with
      | none =>
        simp only [Option.bind_eq_bind, Option.bind_some, h2] at h'
        cases h'
      | some w2 =>
        simp only [Option.bind_eq_bind, Option.bind_some, h2] at h'
        obtain rfl := Option.some.inj h'
        obtain ⟨m1, _, _⟩ := each_kept (fun w e w' => initComp_some) _ w1 w2 i1.core (by
          intro e he
          rw [i1.newComp, i1.body] at he
          have k := List.mem_filter.1 he
          refine ⟨by rw [i1.body]; exact k.2, ?_⟩
          rw [k3 e (hi.core.blt e k.2)]
          · exact ht.bare e (.inr k.1) k.2
          · intro k4
            exact nd.2.2 e (List.mem_filter.1 k4).1 e k.1 rfl) (by
          rw [i1.newComp]; exact nd.2.1.filter _) k1 h2
        refine ⟨m1, ?_, by simp, ?_⟩
        · intro e he
          simp [Fresh] at he
        · intro e he
          simp [Fresh] at he
  | step f =>
    obtain ⟨hp, bx, rfl, _⟩ := step_some hi h
    exact ht.of_same rfl rfl rfl rfl rfl

theorem run_tidy {cfg : Cfg T β} : ∀ (os : List (Op T)) {w w' : World T β}, Inv w → Tidy w →
    (∀ o ∈ os, o.Once) → w.run cfg os = some w' → Tidy w'
  | [], w, w', _, ht, _, h => by obtain rfl := Option.some.inj h; exact ht
  | o :: os, w, w', hi, ht, ho, h => by
    cases h1 : w.apply cfg o with
    | none => simp [World.run, h1] at h
    | some w1 =>
      simp only [World.run, h1, Option.bind_some] at h
      exact run_tidy os (apply_inv hi h1) (apply_tidy hi ht (ho o (List.mem_cons_self ..)) h1)
        (fun x hx => ho x (List.mem_cons_of_mem _ hx)) h

/-- What one would want of the entities that hold rotated meshes: after every history each belongs to a
body that exists.  It is false: `replaced_compound_leaks`. -/
def NoLeakFull : Prop :=
  ∀ (T β : Type) (_ : Field T) (cfg : Cfg T β) (os : List (Op T)) (w : World T β),
    World.empty.run cfg os = some w → Kept w

/-- **C91, in part.**  If no body gets polyhedra in place of another shape, every entity that holds a
rotated mesh belongs to a body, so that none is left when all bodies are gone.  Missing: histories in
which a shape is replaced by polyhedra, where it is false. -/
theorem no_leak_partial (cfg : Cfg T β) (os : List (Op T)) (ho : ∀ o ∈ os, o.Once) (w : World T β)
    (h : World.empty.run cfg os = some w) :
    Kept w ∧ ((∀ e, w.body e = false) → ∀ d, w.list d = none) := by
  have ht : Tidy (World.empty : World T β) := by
    refine ⟨?_, ?_, ?_, ?_⟩ <;> simp [World.empty, Kept, Fresh]
  have hk := (run_tidy os empty_inv ht ho h).kept
  refine ⟨hk, fun hb d => ?_⟩
  cases hd : w.list d with
  | none => rfl
  | some r =>
    obtain ⟨e, he, _⟩ := hk d (by rw [hd]; rfl)
    rw [hb e] at he
    cases he

end Edyn.Poly
