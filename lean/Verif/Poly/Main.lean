import Verif.Poly.Theorems
import Verif.Geom.AabbMore

/-!
# Rotated meshes of polyhedra: the properties (C91)

A polyhedron collides in the orientation that its body has, and its bounding box is that of the
polyhedron where it is.
-/

namespace Edyn.Poly

open Edyn.Math

variable {T : Type} [Field T] {β : Type}

theorem current_of_no_parts {w : World T β} {e : ℕ}
    (h : ∀ s, w.shape e = some s → s.parts = []) : Current w e := by
  intro s hs p hp
  rw [h s hs] at hp
  cases hp

/-- One operation keeps a body current, unless the body gets another shape or, outside the worker, it
is turned. -/
theorem keeps_current_of_inv {cfg : Cfg T β} {w w' : World T β} (hi : Inv w) {o : Op T}
    (h : w.apply cfg o = some w') {e : ℕ} (he : w.body e = true) (he' : w'.body e = true)
    (hf : ¬ Fresh w e) (hcur : Current w e) (ht : cfg.worker = true ∨ ∀ q, o ≠ .turn e q)
    (hs : ∀ s, o ≠ .setShape e s) : Current w' e := by
  have lk := hi.linked e he hf
  cases o with
  | create s p q k =>
    obtain rfl := Option.some.inj h
    have hne : e ≠ w.n := Nat.ne_of_lt (hi.core.blt e he)
    cases s with
    | none =>
      exact hcur.keep lk rfl (put_ne _ _ hne) fun _ _ _ _ => rfl
    | some sh =>
      obtain ⟨_, _, _, _, _, _, a7, a8, _, _, a11⟩ := announce_same
        ({ w with n := w.n + 1, body := put w.body w.n true, kind := put w.kind w.n k,
                  idle := put w.idle w.n false, pos := put w.pos w.n p, orn := put w.orn w.n q,
                  shape := put w.shape w.n (some sh),
                  box := put w.box w.n (some (cfg.shapeBox sh.bare p q)) } : World T β) w.n sh
      exact hcur.keep lk ((congrFun a8 e).trans (put_ne _ _ hne))
        ((congrFun a7 e).trans (put_ne _ _ hne)) fun _ r _ _ => congrFun a11 r.rotated
  | setShape x s =>
    simp only [World.apply] at h
    split at h
    · obtain rfl := Option.some.inj h
      obtain ⟨_, _, _, _, _, _, a7, a8, _, _, a11, _⟩ := setShape_same cfg w x s
      have hne : e ≠ x := fun k => hs s (by rw [k])
      exact hcur.keep lk ((congrFun a8 e).trans (put_ne _ _ hne)) (congrFun a7 e)
        fun _ r _ _ => congrFun a11 r.rotated
    · cases h
  | destroy x =>
    simp only [World.apply] at h
    split at h
    · rename_i hx
      obtain ⟨l, hp, e1, _, _, _, _, e6⟩ := destroy_some hi hx
      obtain rfl := Option.some.inj (e1.symm.trans h)
      have hne : e ≠ x := by
        rintro rfl
        have : put w.body e false e = true := he'
        simp at this
      refine hcur.keep lk (put_ne _ _ hne) rfl fun d r hd hr => e6 _ fun d' r' hd' hr' k => ?_
      obtain rfl := hi.core.inj _ _ _ _ hr' hr k
      exact hne (hi.core.reach_unique (hi.core.root he) (hi.core.root hx) d' hd hd')
    · cases h
  | turn x q =>
    simp only [World.apply] at h
    split at h
    · rename_i hx
      obtain ⟨hp, bx, rfl, _, _, e4, e5⟩ := turn_some hi hx h
      by_cases k : e = x
      · subst k
        have hw := ht.resolve_right fun k => k q rfl
        cases hsh : w.shape e with
        | none =>
          exact current_of_no_parts fun s hs => absurd (hsh.symm.trans hs) (by simp)
        | some s =>
          refine current_of_cells (w := { w with orn := put w.orn e q, heap := hp, box := bx }) hsh
            (lk s hsh) fun d r hd hr => ?_
          show hp r.rotated = some (r.mesh.turned (put w.orn e q e * r.orn))
          rw [put_same]
          exact e5 hw d r hd hr
      · refine hcur.keep lk rfl (put_ne _ _ k) fun d r hd hr => e4 d r (fun hd' => ?_) hr
        exact k (hi.core.reach_unique (hi.core.root he) (hi.core.root hx) d hd hd')
    · cases h
  | move x p =>
    simp only [World.apply] at h
    split at h
    · obtain ⟨bx, rfl, _⟩ := move_some h
      exact hcur.keep lk rfl rfl fun _ _ _ _ => rfl
    · cases h
  | setKind x k =>
    simp only [World.apply] at h
    split at h
    · obtain rfl := Option.some.inj h
      exact hcur.keep lk rfl rfl fun _ _ _ _ => rfl
    · cases h
  | setIdle x b =>
    simp only [World.apply] at h
    split at h
    · obtain rfl := Option.some.inj h
      exact hcur.keep lk rfl rfl fun _ _ _ _ => rfl
    · cases h
  | init =>
    obtain ⟨w2, rfl, i2⟩ := init_inited hi.core h
    have := i2.current e he (.inr ⟨lk, hcur⟩)
    exact this
  | step f =>
    obtain ⟨hp, bx, rfl, _, hc, _⟩ := step_some hi h
    exact hc e he hf (.inr hcur)

theorem run_append {cfg : Cfg T β} : ∀ (os os' : List (Op T)) (w : World T β),
    w.run cfg (os ++ os') = (w.run cfg os).bind fun w' => w'.run cfg os'
  | [], _, _ => rfl
  | o :: os, os', w => by
    simp only [List.cons_append, World.run]
    cases w.apply cfg o with
    | none => rfl
    | some w1 => exact run_append os os' w1

/-- An operation other than the initializer leaves pending what is pending. -/
theorem fresh_mono {cfg : Cfg T β} {w w' : World T β} (hi : Inv w) {o : Op T}
    (h : w.apply cfg o = some w') (ho : o ≠ .init) {e : ℕ} (hf : Fresh w e) : Fresh w' e := by
  cases o with
  | create s p q k =>
    obtain rfl := Option.some.inj h
    cases s with
    | none => exact hf
    | some sh => exact (announce_fresh _ _ _ _).2 (.inl hf)
  | setShape x s =>
    simp only [World.apply] at h
    split at h
    · obtain rfl := Option.some.inj h
      obtain ⟨_, _, _, _, _, _, _, _, _, _, _, ff⟩ := setShape_same cfg w x s
      exact (ff e).2 (.inl hf)
    · cases h
  | destroy x =>
    simp only [World.apply] at h
    split at h
    · rename_i hx
      obtain ⟨l, hp, e1, _⟩ := destroy_some hi hx
      obtain rfl := Option.some.inj (e1.symm.trans h)
      exact hf
    · cases h
  | turn x q =>
    simp only [World.apply] at h
    split at h
    · rename_i hx
      obtain ⟨hp, bx, rfl, _⟩ := turn_some hi hx h
      exact hf
    · cases h
  | move x p =>
    simp only [World.apply] at h
    split at h
    · obtain ⟨bx, rfl, _⟩ := move_some h
      exact hf
    · cases h
  | setKind x k =>
    simp only [World.apply] at h
    split at h
    · obtain rfl := Option.some.inj h
      exact hf
    · cases h
  | setIdle x b =>
    simp only [World.apply] at h
    split at h
    · obtain rfl := Option.some.inj h
      exact hf
    · cases h
  | init => exact absurd rfl ho
  | step f =>
    obtain ⟨hp, bx, rfl, _⟩ := step_some hi h
    exact hf

theorem init_current_of_inv {w w' : World T β} (hi : Inv w) (h : w.init = some w') :
    (∀ e, ¬ Fresh w' e) ∧ w'.body = w.body ∧ w'.pos = w.pos ∧ w'.orn = w.orn ∧ w'.box = w.box ∧
    (∀ e, (w'.shape e).map Shape.bare = (w.shape e).map Shape.bare) ∧
    ∀ e, w.body e = true → Fresh w e ∨ Current w e → Current w' e := by
  obtain ⟨w2, rfl, i2⟩ := init_inited hi.core h
  refine ⟨fun e => by simp [Fresh], i2.body, i2.pos, i2.orn, i2.box, i2.bare, fun e he hh => ?_⟩
  have hm : e ∈ w.newPoly.filter w.body ++ w.newComp.filter w.body ↔ Fresh w e := by
    simp only [List.mem_append, List.mem_filter, he, and_true]
    rfl
  have := i2.current e he (by
    rw [hm]
    by_cases hf : Fresh w e
    · exact .inl hf
    · exact .inr ⟨hi.linked e he hf, hh.resolve_left hf⟩)
  exact this

/-! ### The properties -/

/-- **C91.**  In the worker, after every history, a body whose shape is not waiting for the initializer
collides in the orientation that it has: each polyhedron in its shape points to memory that holds its
mesh turned as the body is turned. -/
theorem polyhedra_current (cfg : Cfg T β) (hw : cfg.worker = true) (os : List (Op T)) :
    ∀ w : World T β, World.empty.run cfg os = some w →
      ∀ e, w.body e = true → ¬ Fresh w e → Current w e := by
  induction os using List.reverseRecOn with
  | nil =>
    intro w h e he
    obtain rfl := Option.some.inj h
    cases he
  | append_singleton os o ih =>
    intro w' h e he' hf'
    rw [run_append] at h
    cases h0 : (World.empty : World T β).run cfg os with
    | none => rw [h0] at h; cases h
    | some w =>
      rw [h0] at h
      have hi := run_inv os empty_inv h0
      cases h1 : w.apply cfg o with
      | none => simp [World.run, h1] at h
      | some w1 =>
        simp only [Option.bind_some, World.run, h1, Option.some.injEq] at h
        subst h
        by_cases ho : o = .init
        · subst ho
          obtain ⟨_, hb, _, _, _, _, hc⟩ := init_current_of_inv hi h1
          rw [hb] at he'
          refine hc e he' ?_
          by_cases hf : Fresh w e
          · exact .inl hf
          · exact .inr (ih w h0 e he' hf)
        · have hf : ¬ Fresh w e := fun k => hf' (fresh_mono hi h1 ho k)
          by_cases he : w.body e = true
          · by_cases hs : ∃ s, o = .setShape e s
            · obtain ⟨s, rfl⟩ := hs
              simp only [World.apply, he, if_true, Option.some.injEq] at h1
              subst h1
              obtain ⟨_, _, _, _, _, _, _, a8, _, _, _, ff⟩ := setShape_same cfg w e s
              refine current_of_no_parts fun t ht => ?_
              rw [a8, put_same] at ht
              subst ht
              cases t with
              | poly m p => exact absurd ((ff e).2 (.inr ⟨rfl, _, rfl, by simp⟩)) hf'
              | compound ns => exact absurd ((ff e).2 (.inr ⟨rfl, _, rfl, by simp⟩)) hf'
              | other k => rfl
            · exact keeps_current_of_inv hi h1 he he' hf (ih w h0 e he hf) (.inl hw)
                fun s k => hs ⟨s, k⟩
          · -- a new body
            cases o with
            | create s p q k =>
              simp only [World.apply, Option.some.injEq] at h1
              subst h1
              cases s with
              | none =>
                refine current_of_no_parts fun t ht => ?_
                have : w.shape e = some t := ht
                rw [hi.core.shaped e (by simpa using he)] at this
                cases this
              | some sh =>
                obtain ⟨_, _, a3, _, _, _, _, a8, _, _, _⟩ := announce_same
                  ({ w with n := w.n + 1, body := put w.body w.n true, kind := put w.kind w.n k,
                            idle := put w.idle w.n false, pos := put w.pos w.n p,
                            orn := put w.orn w.n q, shape := put w.shape w.n (some sh),
                            box := put w.box w.n (some (cfg.shapeBox sh.bare p q)) } : World T β)
                  w.n sh
                have k1 : e = w.n := by
                  by_contra k1
                  have k2 : put w.body w.n true e = true := (congrFun a3 e).symm.trans he'
                  rw [put_ne _ _ k1] at k2
                  exact he k2
                refine current_of_no_parts fun t ht => ?_
                have ht2 : put w.shape w.n (some sh) e = some t := (congrFun a8 e).symm.trans ht
                rw [k1, put_same] at ht2
                obtain rfl := Option.some.inj ht2
                cases sh with
                | poly m p => exact absurd ((announce_fresh _ _ _ _).2 (.inr ⟨k1, by simp⟩)) hf'
                | compound ns => exact absurd ((announce_fresh _ _ _ _).2 (.inr ⟨k1, by simp⟩)) hf'
                | other k => rfl
            | setShape x s =>
              exfalso
              simp only [World.apply] at h1
              split at h1
              · obtain rfl := Option.some.inj h1
                rw [(setShape_same cfg w x s).2.2.1] at he'
                exact he he'
              · cases h1
            | destroy x =>
              exfalso
              simp only [World.apply] at h1
              split at h1
              · rename_i hx
                obtain ⟨l, hp, e1, _⟩ := destroy_some hi hx
                obtain rfl := Option.some.inj (e1.symm.trans h1)
                have k2 : put w.body x false e = true := he'
                by_cases k1 : e = x
                · subst k1; simp at k2
                · rw [put_ne _ _ k1] at k2
                  exact he k2
              · cases h1
            | turn x q =>
              exfalso
              simp only [World.apply] at h1
              split at h1
              · rename_i hx
                obtain ⟨hp, bx, rfl, _⟩ := turn_some hi hx h1
                exact he he'
              · cases h1
            | move x p =>
              exfalso
              simp only [World.apply] at h1
              split at h1
              · obtain ⟨bx, rfl, _⟩ := move_some h1
                exact he he'
              · cases h1
            | setKind x k =>
              exfalso
              simp only [World.apply] at h1
              split at h1
              · obtain rfl := Option.some.inj h1
                exact he he'
              · cases h1
            | setIdle x b =>
              exfalso
              simp only [World.apply] at h1
              split at h1
              · obtain rfl := Option.some.inj h1
                exact he he'
              · cases h1
            | init => exact absurd rfl ho
            | step f =>
              exfalso
              obtain ⟨hp, bx, rfl, _⟩ := step_some hi h1
              exact he he'

/-- **C91.**  In every mode, after any history, a step is defined if no moving body waits for the
initializer, and after it every body that moves collides in the orientation that the step gave it and
has the bounding box of its shape there. -/
theorem step_current (cfg : Cfg T β) (os : List (Op T)) (w : World T β)
    (h : World.empty.run cfg os = some w) (hf : ∀ e, w.moving e = true → ¬ Fresh w e)
    (f : ℕ → V3 T × Quat T) :
    ∃ w', w.step cfg f = some w' ∧ w'.body = w.body ∧ w'.shape = w.shape ∧
      ∀ e, w.moving e = true →
        w'.pos e = (f e).1 ∧ w'.orn e = (f e).2 ∧ Current w' e ∧ Boxed cfg w' e := by
  have hi := run_inv os empty_inv h
  obtain ⟨w', h1⟩ := step_defined_of_inv cfg hi hf f
  obtain ⟨hp, bx, e1, _, e3, e4, _⟩ := step_some hi h1
  refine ⟨w', h1, by rw [e1]; rfl, by rw [e1]; rfl, fun e he => ?_⟩
  refine ⟨by rw [e1]; simp [stepped, he], by rw [e1]; simp [stepped, he],
    e3 e (moving_body he) (hf e he) (.inl he), e4 e (moving_body he) (hf e he) he⟩

/-- **C91.**  In every mode, nothing but a change of its shape or of its orientation makes a body
collide in another orientation than its own. -/
theorem keeps_current (cfg : Cfg T β) (os : List (Op T)) (w w' : World T β)
    (h : World.empty.run cfg os = some w) (o : Op T) (ho : w.apply cfg o = some w') (e : ℕ)
    (he : w.body e = true) (he' : w'.body e = true) (hf : ¬ Fresh w e) (hc : Current w e)
    (ht : cfg.worker = true ∨ ∀ q, o ≠ .turn e q) (hs : ∀ s, o ≠ .setShape e s) : Current w' e :=
  keeps_current_of_inv (run_inv os empty_inv h) ho he he' hf hc ht hs

/-- **C91.**  The initializer leaves no shape waiting, makes every body that waited current and changes
nothing else about any body. -/
theorem init_current (cfg : Cfg T β) (os : List (Op T)) (w w' : World T β)
    (h : World.empty.run cfg os = some w) (h' : w.init = some w') :
    (∀ e, ¬ Fresh w' e) ∧ w'.body = w.body ∧ w'.pos = w.pos ∧ w'.orn = w.orn ∧ w'.box = w.box ∧
    (∀ e, (w'.shape e).map Shape.bare = (w.shape e).map Shape.bare) ∧
    ∀ e, w.body e = true → Fresh w e ∨ Current w e → Current w' e :=
  init_current_of_inv (run_inv os empty_inv h) h'

/-- **C91.**  The initializer only fails if a body that waits has been given a shape of another type
since. -/
theorem init_defined (cfg : Cfg T β) (os : List (Op T)) (w : World T β)
    (h : World.empty.run cfg os = some w)
    (hp : ∀ e ∈ w.newPoly, w.body e = true → ∃ m p, w.shape e = some (.poly m p))
    (hq : ∀ e ∈ w.newComp, w.body e = true → ∃ ns, w.shape e = some (.compound ns)) :
    ∃ w', w.init = some w' := by
  have hi := run_inv os empty_inv h
  have bareOf : ∀ {a b : World T β} {e : ℕ}, (b.shape e).map Shape.bare = (a.shape e).map Shape.bare →
      ((∃ m p, a.shape e = some (.poly m p)) → ∃ m p, b.shape e = some (.poly m p)) ∧
      ((∃ ns, a.shape e = some (.compound ns)) → ∃ ns, b.shape e = some (.compound ns)) := by
    intro a b e hab
    constructor
    · rintro ⟨m, p, hs⟩
      rw [hs] at hab
      cases hb : b.shape e with
      | none => rw [hb] at hab; cases hab
      | some s =>
        rw [hb] at hab
        cases s with
        | poly m' p' => exact ⟨m', p', rfl⟩
        | compound ns => simp [Shape.bare] at hab
        | other k => simp [Shape.bare] at hab
    · rintro ⟨ns, hs⟩
      rw [hs] at hab
      cases hb : b.shape e with
      | none => rw [hb] at hab; cases hab
      | some s =>
        rw [hb] at hab
        cases s with
        | compound ns' => exact ⟨ns', rfl⟩
        | poly m' p' => simp [Shape.bare] at hab
        | other k => simp [Shape.bare] at hab
  have allPoly : ∀ (es : List ℕ) (w : World T β), Core w → (∀ e ∈ es, w.body e = true ∧
      ∃ m p, w.shape e = some (.poly m p)) → ∃ w', w.each World.initPoly es = some w' := by
    intro es
    induction es with
    | nil => exact fun w _ _ => ⟨w, rfl⟩
    | cons e es ih =>
      intro w hc hes
      obtain ⟨hb, m, p, hs⟩ := hes e (List.mem_cons_self ..)
      have : ∃ w1, w.initPoly e = some w1 := by simp [World.initPoly, hs, makeRotated_eq]
      obtain ⟨w1, h1⟩ := this
      have i1 := initPoly_some hc hb h1
      obtain ⟨w', h2⟩ := ih w1 i1.core fun x hx => by
        obtain ⟨k1, k2⟩ := hes x (List.mem_cons_of_mem _ hx)
        refine ⟨by rw [i1.body]; exact k1, ?_⟩
        by_cases k : x = e
        · subst k; exact (bareOf i1.bare).1 k2
        · rw [i1.other x k]; exact k2
      exact ⟨w', by simp only [World.each, h1, Option.bind_some]; exact h2⟩
  have allComp : ∀ (es : List ℕ) (w : World T β), Core w → (∀ e ∈ es, w.body e = true ∧
      ∃ ns, w.shape e = some (.compound ns)) → ∃ w', w.each World.initComp es = some w' := by
    intro es
    induction es with
    | nil => exact fun w _ _ => ⟨w, rfl⟩
    | cons e es ih =>
      intro w hc hes
      obtain ⟨hb, ns, hs⟩ := hes e (List.mem_cons_self ..)
      have : ∃ w1, w.initComp e = some w1 := by
        obtain ⟨w1, ns', k, _⟩ := initNodes_none e w hc hb ns
        simp [World.initComp, hs, k]
      obtain ⟨w1, h1⟩ := this
      have i1 := initComp_some hc hb h1
      obtain ⟨w', h2⟩ := ih w1 i1.core fun x hx => by
        obtain ⟨k1, k2⟩ := hes x (List.mem_cons_of_mem _ hx)
        refine ⟨by rw [i1.body]; exact k1, ?_⟩
        by_cases k : x = e
        · subst k; exact (bareOf i1.bare).2 k2
        · rw [i1.other x k]; exact k2
      exact ⟨w', by simp only [World.each, h1, Option.bind_some]; exact h2⟩
  obtain ⟨w1, h1⟩ := allPoly (w.newPoly.filter w.body) w hi.core fun e he =>
    ⟨(List.mem_filter.1 he).2, hp e (List.mem_filter.1 he).1 (List.mem_filter.1 he).2⟩
  have i1 := each_inited (fun w e w' => initPoly_some) _ w w1 hi.core
    (fun e he => (List.mem_filter.1 he).2) h1
  obtain ⟨w2, h2⟩ := allComp (w1.newComp.filter w1.body) w1 i1.core fun e he => by
    rw [i1.newComp, i1.body] at he
    refine ⟨by rw [i1.body]; exact (List.mem_filter.1 he).2, (bareOf (i1.bare e)).2 ?_⟩
    exact hq e (List.mem_filter.1 he).1 (List.mem_filter.1 he).2
  exact ⟨_, by simp only [World.init, h1, Option.bind_eq_bind, Option.bind_some, h2]; rfl⟩

/-- **C91.**  In every mode, nothing but a change of its shape, position or orientation makes the
bounding box of a body wrong. -/
theorem keeps_boxed (cfg : Cfg T β) (os : List (Op T)) (w w' : World T β)
    (h : World.empty.run cfg os = some w) (o : Op T) (ho : w.apply cfg o = some w') (e : ℕ)
    (he : w.body e = true) (he' : w'.body e = true) (hf : ¬ Fresh w e) (hb : Boxed cfg w e)
    (ht : ∀ q, o ≠ .turn e q) (hm : ∀ p, o ≠ .move e p) (hs : ∀ s, o ≠ .setShape e s) :
    Boxed cfg w' e := by
  have hi := run_inv os empty_inv h
  have same : ∀ {a : World T β}, a.shape e = w.shape e → a.box e = w.box e → a.pos e = w.pos e →
      a.orn e = w.orn e → Boxed cfg a e := by
    intro a h1 h2 h3 h4 s b k1 k2
    rw [h3, h4]
    exact hb s b (h1 ▸ k1) (h2 ▸ k2)
  cases o with
  | create s p q k =>
    obtain rfl := Option.some.inj ho
    have hne : e ≠ w.n := Nat.ne_of_lt (hi.core.blt e he)
    cases s with
    | none => exact same rfl rfl (put_ne _ _ hne) (put_ne _ _ hne)
    | some sh =>
      obtain ⟨_, _, _, _, _, a6, a7, a8, a9, _, _⟩ := announce_same
        ({ w with n := w.n + 1, body := put w.body w.n true, kind := put w.kind w.n k,
                  idle := put w.idle w.n false, pos := put w.pos w.n p, orn := put w.orn w.n q,
                  shape := put w.shape w.n (some sh),
                  box := put w.box w.n (some (cfg.shapeBox sh.bare p q)) } : World T β) w.n sh
      exact same ((congrFun a8 e).trans (put_ne _ _ hne)) ((congrFun a9 e).trans (put_ne _ _ hne))
        ((congrFun a6 e).trans (put_ne _ _ hne)) ((congrFun a7 e).trans (put_ne _ _ hne))
  | setShape x s =>
    simp only [World.apply] at ho
    split at ho
    · obtain rfl := Option.some.inj ho
      obtain ⟨_, _, _, _, _, a6, a7, a8, a9, _⟩ := setShape_same cfg w x s
      have hne : e ≠ x := fun k => hs s (by rw [k])
      exact same ((congrFun a8 e).trans (put_ne _ _ hne)) (a9 e hne) (congrFun a6 e) (congrFun a7 e)
    · cases ho
  | destroy x =>
    simp only [World.apply] at ho
    split at ho
    · rename_i hx
      obtain ⟨l, hp, e1, _⟩ := destroy_some hi hx
      obtain rfl := Option.some.inj (e1.symm.trans ho)
      have hne : e ≠ x := by
        rintro rfl
        have : put w.body e false e = true := he'
        simp at this
      exact same (put_ne _ _ hne) (put_ne _ _ hne) rfl rfl
    · cases ho
  | turn x q =>
    simp only [World.apply] at ho
    split at ho
    · rename_i hx
      obtain ⟨hp, bx, rfl, _, e3, _⟩ := turn_some hi hx ho
      have hne : e ≠ x := fun k => ht q (by rw [k])
      exact same rfl (e3 e hne) rfl (put_ne _ _ hne)
    · cases ho
  | move x p =>
    simp only [World.apply] at ho
    split at ho
    · obtain ⟨bx, rfl, e2, _⟩ := move_some ho
      have hne : e ≠ x := fun k => hm p (by rw [k])
      exact same rfl (e2 e hne) (put_ne _ _ hne) rfl
    · cases ho
  | setKind x k =>
    simp only [World.apply] at ho
    split at ho
    · obtain rfl := Option.some.inj ho
      exact same rfl rfl rfl rfl
    · cases ho
  | setIdle x b =>
    simp only [World.apply] at ho
    split at ho
    · obtain rfl := Option.some.inj ho
      exact same rfl rfl rfl rfl
    · cases ho
  | init =>
    obtain ⟨_, _, h3, h4, h5, h6, _⟩ := init_current_of_inv hi ho
    intro s b k1 k2
    have h7 := h6 e
    rw [k1] at h7
    cases hse : w.shape e with
    | none => rw [hse] at h7; cases h7
    | some t =>
      rw [hse] at h7
      have h8 : s.bare = t.bare := Option.some.inj h7
      rw [h5] at k2
      rw [h3, h4, h8]
      refine (hb t b hse k2).imp id ?_
      rintro ⟨m, p, rfl, h9⟩
      cases s with
      | poly m' p' =>
        obtain rfl : m' = m := by simpa [Shape.bare] using h8
        exact ⟨m', p', rfl, h9⟩
      | compound ns => simp [Shape.bare] at h8
      | other k => simp [Shape.bare] at h8
  | step f =>
    obtain ⟨hp, bx, e1, _, _, e4, e5⟩ := step_some hi ho
    by_cases m : w.moving e = true
    · exact e4 e he hf m
    · rw [e1]
      refine same rfl (e5 e (by simpa using m)) ?_ ?_
      · simp [stepped, m]
      · simp [stepped, m]

/-- **C91.**  In the worker a body that the user moves gets the bounding box of its shape there. -/
theorem moved_boxed (cfg : Cfg T β) (hw : cfg.worker = true) (os : List (Op T)) (w w' : World T β)
    (h : World.empty.run cfg os = some w) (e : ℕ) (p : V3 T)
    (ho : w.apply cfg (.move e p) = some w') (hf : ¬ Fresh w e) :
    w'.pos e = p ∧ Boxed cfg w' e := by
  simp only [World.apply] at ho
  split at ho
  · rename_i he
    have hc := polyhedra_current cfg hw os w h e he hf
    obtain ⟨bx, rfl, _, e3⟩ := move_some ho
    refine ⟨put_same _ _ _, fun s b hs hb => ?_⟩
    exact (e3 hw b hb).right (w := { w with pos := put w.pos e p })
      (w' := { w with pos := put w.pos e p, box := bx }) hc rfl rfl rfl hb s b hs hb
  · cases ho

/-- The property of boxes that one would want of a body that the user turns in the worker.  It fails for
polyhedra: `turned_box_stale`. -/
def TurnedBoxedFull : Prop :=
  ∀ (T β : Type) (_ : Field T) (cfg : Cfg T β), cfg.worker = true → ∀ (os : List (Op T))
    (w w' : World T β), World.empty.run cfg os = some w → ∀ (e : ℕ) (q : Quat T),
    w.apply cfg (.turn e q) = some w' → ¬ Fresh w e → Boxed cfg w' e

/-- **C91, in part.**  In the worker a body that the user turns gets the bounding box of its shape
there, if its shape is not a polyhedron.  Missing: polyhedra, for which it is false. -/
theorem turned_boxed_partial (cfg : Cfg T β) (hw : cfg.worker = true) (os : List (Op T))
    (w w' : World T β) (_h : World.empty.run cfg os = some w) (e : ℕ) (q : Quat T)
    (ho : w.apply cfg (.turn e q) = some w') (hs : ∀ m p, w.shape e ≠ some (.poly m p)) :
    w'.orn e = q ∧ Boxed cfg w' e := by
  have hi := run_inv os empty_inv _h
  simp only [World.apply] at ho
  split at ho
  · rename_i he
    obtain ⟨hp, bx, e1, _⟩ := turn_some hi he ho
    refine ⟨by rw [e1]; exact put_same _ _ _, ?_⟩
    intro s b ks kb
    left
    have hse : w.shape e = some s := by rw [e1] at ks; exact ks
    have hpos : w'.pos = w.pos := by rw [e1]
    have horn : w'.orn e = q := by rw [e1]; exact put_same _ _ _
    -- the box after `update_aabb`
    unfold World.turn at ho
    simp only [hw, if_true] at ho
    have fin : ∀ w1 : World T β, (if (w1.list e).isSome then w1.refresh e else some w1) = some w' →
        Core w1 → w1.body e = true → w'.box = w1.box := by
      intro w1 h1 hc1 hb1
      by_cases hl : (w1.list e).isSome
      · rw [if_pos hl] at h1
        obtain ⟨hp', k1, _⟩ := each_refresh [e] w1 hc1 (by
          intro x hx
          obtain rfl : x = e := by simpa using hx
          exact ⟨hb1, hl⟩)
        simp only [World.each, h1, Option.bind_some] at k1
        rw [Option.some.inj k1]
      · rw [if_neg hl] at h1
        rw [Option.some.inj h1]
    have hc0 : Core { w with orn := put w.orn e q } :=
      ⟨hi.core.lt, hi.core.cell, hi.core.fits, hi.core.up, hi.core.next, hi.core.aux, hi.core.inj,
        hi.core.ninj, hi.core.blt, hi.core.shaped⟩
    by_cases hb : (w.box e).isSome
    · simp only [hb, if_true] at ho
      cases h1 : World.rebox cfg ({ w with orn := put w.orn e q }) e with
      | none => rw [h1] at ho; cases ho
      | some w1 =>
        rw [h1] at ho
        obtain ⟨b', rfl, s', k1, k2⟩ := rebox_some h1
        have := fin _ ho (hc0.withBox _) he
        rw [this] at kb
        have kb' : put w.box e (some b') e = some b := kb
        rw [put_same] at kb'
        obtain rfl := Option.some.inj kb'
        obtain rfl := Option.some.inj (hse.symm.trans k1)
        rcases k2 with k2 | ⟨m, i, r, rfl, _⟩
        · rw [k2, hpos, horn]
          show cfg.shapeBox _ _ (put w.orn e q e) = _
          rw [put_same]
        · exact absurd hse (hs _ _)
    · simp only [hb] at ho
      have := fin _ ho hc0 he
      rw [this] at kb
      exact absurd (Option.isSome_iff_exists.2 ⟨b, kb⟩) hb
  · cases ho

/-- **C91.**  Destroying a body is always possible, releases the rotated copies of its polyhedra and
leaves those of all other bodies. -/
theorem destroy_releases (cfg : Cfg T β) (os : List (Op T)) (w : World T β)
    (h : World.empty.run cfg os = some w) (e : ℕ) (he : w.body e = true) :
    ∃ w', w.apply cfg (.destroy e) = some w' ∧ w'.body e = false ∧
      (∀ s, w.shape e = some s → ¬ Fresh w e → ∀ p ∈ s.parts, ∃ i, p.rotated = some i ∧
        w.heap i ≠ none ∧ w'.heap i = none) ∧
      ∀ d, d ≠ e → w'.body d = w.body d ∧ w'.shape d = w.shape d ∧ w'.box d = w.box d ∧
        (w.body d = true → ¬ Fresh w d → Current w d → Current w' d) := by
  have hi := run_inv os empty_inv h
  obtain ⟨l, hp, e1, _, e3, e4, e5, e6⟩ := destroy_some hi he
  have ho : w.apply cfg (.destroy e) = some (without w e l hp) := by
    simp only [World.apply, he, if_true]; exact e1
  refine ⟨_, ho, put_same _ _ _, ?_, ?_⟩
  · intro s hs hf p hps
    rcases hi.linked e he hf s hs with k | k
    · rw [k] at hps; cases hps
    · obtain ⟨d, r, k1, k2, _, _, k5⟩ := k.mem p hps
      refine ⟨r.rotated, k5, ?_, e5 d r k1 k2⟩
      obtain ⟨a, ha, _⟩ := hi.core.fits d r k2
      rw [ha]; simp
  · intro d hd
    refine ⟨put_ne _ _ hd, put_ne _ _ hd, put_ne _ _ hd, fun hb hf hc => ?_⟩
    exact keeps_current_of_inv hi ho hb ((put_ne w.body false hd).trans hb) hf hc
      (.inr fun q => by simp) (fun s => by simp)

/-! ### Polyhedra in space -/

/-- The boxes of C67 for polyhedra. -/
def RealBoxes (big : ℝ) (cfg : Cfg ℝ Geom.AABB) : Prop :=
  (∀ m p pos orn, cfg.shapeBox (.poly m p) pos orn = Geom.cloudAabb big m.vertices pos orn) ∧
  ∀ vs pos, cfg.cloudBox vs pos = Geom.rotatedCloudAabb big vs pos

/-- **C91.**  With the boxes of C67, a polyhedron whose box is right lies in it. -/
theorem boxed_encloses (big : ℝ) (cfg : Cfg ℝ Geom.AABB) (hr : RealBoxes big cfg)
    (w : World ℝ Geom.AABB) (e : ℕ) (hb : Boxed cfg w e) (m : Mesh ℝ) (p : Option ℕ) (b : Geom.AABB)
    (hs : w.shape e = some (.poly m p)) (hx : w.box e = some b) :
    b.Encloses (Geom.Placed (Geom.Hull m.vertices) (w.pos e) (w.orn e)) := by
  rcases hb _ b hs hx with rfl | ⟨m', p', h1, rfl⟩
  · rw [Shape.bare, hr.1]
    exact (Geom.cloud_aabb_spec big m.vertices (w.pos e) (w.orn e)).1
  · obtain ⟨rfl, rfl⟩ : m = m' ∧ p = p' := by simpa using h1
    rw [hr.2]
    exact Geom.rotated_cloud_encloses big m.vertices (w.pos e) (w.orn e)

end Edyn.Poly
