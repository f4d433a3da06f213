import Verif.Poly.Ops

/-!
# Rotated meshes of polyhedra: histories (C91)
-/

namespace Edyn.Poly

open Edyn.Math

variable {T : Type} [Field T] {β : Type}

/-- The list of body `e` is that of its shape. -/
def Linked (w : World T β) (e : ℕ) : Prop :=
  ∀ s, w.shape e = some s → s.parts = [] ∨ Chain w.list (some e) s.parts

/-- The invariant of all histories. -/
structure Inv (w : World T β) : Prop where
  core : Core w
  linked : ∀ e, w.body e = true → ¬ Fresh w e → Linked w e

/-! ### The initializer -/

theorem Inited.list_other {e e' : ℕ} {w w' : World T β} (h : Inited e w w') (hc : Core w)
    (he : w.body e = true) (he' : w.body e' = true) (hne : e' ≠ e) (hl : (w.list e').isSome) :
    ∀ d, Reach w.list e' d → w'.list d = w.list d := by
  intro d hd
  obtain ⟨x, hx⟩ := Option.isSome_iff_exists.1 (hc.reach_some hd hl)
  refine h.list d (hc.lt d x hx) ?_
  rintro rfl
  exact hne (hc.reach_unique (hc.root he') (hc.root he) d hd (.refl d))

theorem Inited.linked_other {e e' : ℕ} {w w' : World T β} (h : Inited e w w') (hc : Core w)
    (he : w.body e = true) (he' : w.body e' = true) (hne : e' ≠ e) (hl : Linked w e') :
    Linked w' e' := by
  intro s hs
  rw [h.other e' hne] at hs
  rcases hl s hs with k | k
  · exact .inl k
  · refine .inr (k.congr fun c hc' x hx => ?_)
    obtain rfl := Option.some.inj hc'
    refine h.list_other hc he he' hne ?_ x hx
    cases hp : s.parts with
    | nil => rw [hp] at k; exact k.elim
    | cons p ps =>
      rw [hp] at k
      obtain ⟨r, hr, _⟩ := k
      rw [hr]; rfl

theorem Inited.current_other {e e' : ℕ} {w w' : World T β} (h : Inited e w w') (hc : Core w)
    (he : w.body e = true) (he' : w.body e' = true) (hne : e' ≠ e) (hl : Linked w e')
    (hcur : Current w e') : Current w' e' := by
  refine hcur.keep hl (h.other e' hne) (by rw [h.orn]) fun d r hd hr => ?_
  refine h.heap _ (hc.cell d r hr) fun r' hr' k => ?_
  obtain rfl := hc.inj _ _ _ _ hr' hr k
  exact hne (hc.reach_unique (hc.root he') (hc.root he) e hd (.refl e))

/-- What the initializer does for some bodies. -/
structure AllInited (es : List ℕ) (w w' : World T β) : Prop where
  core : Core w'
  body : w'.body = w.body
  kind : w'.kind = w.kind
  idle : w'.idle = w.idle
  pos : w'.pos = w.pos
  orn : w'.orn = w.orn
  box : w'.box = w.box
  newPoly : w'.newPoly = w.newPoly
  newComp : w'.newComp = w.newComp
  bare : ∀ d, (w'.shape d).map Shape.bare = (w.shape d).map Shape.bare
  linked : ∀ e, w.body e = true → e ∈ es ∨ Linked w e → Linked w' e
  current : ∀ e, w.body e = true → e ∈ es ∨ (Linked w e ∧ Current w e) → Current w' e

theorem each_inited {f : World T β → ℕ → Option (World T β)}
    (hf : ∀ w e w', Core w → w.body e = true → f w e = some w' → Inited e w w') :
    ∀ (es : List ℕ) (w w' : World T β), Core w → (∀ e ∈ es, w.body e = true) →
      w.each f es = some w' → AllInited es w w'
  | [], w, w', hc, _, h => by
    obtain rfl := Option.some.inj h
    exact ⟨hc, rfl, rfl, rfl, rfl, rfl, rfl, rfl, rfl, fun _ => rfl, by simp, by simp⟩
  | e :: es, w, w', hc, hb, h => by
    have he := hb e (List.mem_cons_self ..)
    cases h1 : f w e with
    | none => simp [World.each, h1] at h
    | some w1 =>
      simp only [World.each, h1, Option.bind_some] at h
      have i1 := hf w e w1 hc he h1
      have ih := each_inited hf es w1 w' i1.core
        (fun x hx => by rw [i1.body]; exact hb x (List.mem_cons_of_mem _ hx)) h
      have lk : ∀ x, w.body x = true → x ∈ e :: es ∨ Linked w x → x ∈ es ∨ Linked w1 x := by
        intro x hx hh
        by_cases k : x ∈ es
        · exact .inl k
        · by_cases k2 : x = e
          · subst k2; exact .inr i1.linked
          · have : Linked w x := by
              rcases hh with hh | hh
              · exact absurd hh (by simp [k, k2])
              · exact hh
            exact .inr (i1.linked_other hc he hx k2 this)
      refine ⟨ih.core, ih.body.trans i1.body, ih.kind.trans i1.kind, ih.idle.trans i1.idle,
        ih.pos.trans i1.pos, ih.orn.trans i1.orn, ih.box.trans i1.box,
        ih.newPoly.trans i1.newPoly, ih.newComp.trans i1.newComp, ?_, ?_, ?_⟩
      · intro d
        rw [ih.bare d]
        by_cases k : d = e
        · subst k; exact i1.bare
        · rw [i1.other d k]
      · intro x hx hh
        exact ih.linked x (by rw [i1.body]; exact hx) (lk x hx hh)
      · intro x hx hh
        refine ih.current x (by rw [i1.body]; exact hx) ?_
        by_cases k : x ∈ es
        · exact .inl k
        · refine .inr ⟨(lk x hx (hh.imp id And.left)).resolve_left k, ?_⟩
          by_cases k2 : x = e
          · subst k2; exact i1.current
          · have : Linked w x ∧ Current w x := by
              rcases hh with hh | hh
              · exact absurd hh (by simp [k, k2])
              · exact hh
            exact i1.current_other hc he hx k2 this.1 this.2

/-- What `init_new_shapes` does. -/
theorem init_inited {w w' : World T β} (hc : Core w) (h : w.init = some w') :
    ∃ w2, w' = { w2 with newPoly := [], newComp := [] } ∧
      AllInited (w.newPoly.filter w.body ++ w.newComp.filter w.body) w w2 := by
  simp only [World.init] at h
  cases h1 : w.each World.initPoly (w.newPoly.filter w.body) with
  | none => rw [h1] at h; cases h
  | some w1 =>
    rw [h1] at h
    have i1 := each_inited (fun w e w' => initPoly_some) _ w w1 hc
      (fun e he => (List.mem_filter.1 he).2) h1
    cases h2 : w1.each World.initComp (w1.newComp.filter w1.body) with
    | none =>
      simp only [Option.bind_eq_bind, Option.bind_some, h2] at h
      cases h
    | some w2 =>
      simp only [Option.bind_eq_bind, Option.bind_some, h2] at h
      have i2 := each_inited (fun w e w' => initComp_some) _ w1 w2 i1.core
        (fun e he => (List.mem_filter.1 he).2) h2
      rw [i1.newComp, i1.body] at i2
      refine ⟨w2, (Option.some.inj h).symm, i2.core, i2.body.trans i1.body, i2.kind.trans i1.kind,
        i2.idle.trans i1.idle, i2.pos.trans i1.pos, i2.orn.trans i1.orn, i2.box.trans i1.box,
        i2.newPoly.trans i1.newPoly, i2.newComp.trans i1.newComp,
        fun d => (i2.bare d).trans (i1.bare d), ?_, ?_⟩
      · intro e he hh
        refine i2.linked e (by rw [i1.body]; exact he) ?_
        by_cases k : e ∈ w.newComp.filter w.body
        · exact .inl k
        · refine .inr (i1.linked e he ?_)
          exact hh.imp (fun m => (List.mem_append.1 m).resolve_right k) id
      · intro e he hh
        refine i2.current e (by rw [i1.body]; exact he) ?_
        by_cases k : e ∈ w.newComp.filter w.body
        · exact .inl k
        · have hh' : e ∈ w.newPoly.filter w.body ∨ (Linked w e ∧ Current w e) :=
            hh.imp (fun m => (List.mem_append.1 m).resolve_right k) id
          exact .inr ⟨i1.linked e he (hh'.imp id And.left), i1.current e he hh'⟩

/-! ### Boxes -/

/-- The box that `update_aabb` computes. -/
def NewBox (cfg : Cfg T β) (w : World T β) (e : ℕ) (b : β) : Prop :=
  ∃ s, w.shape e = some s ∧
    (b = cfg.shapeBox s.bare (w.pos e) (w.orn e) ∨
      ∃ m i r, s = .poly m (some i) ∧ w.heap i = some r ∧ b = cfg.cloudBox r.vertices (w.pos e))

theorem rebox_some {cfg : Cfg T β} {w w' : World T β} {e : ℕ} (h : w.rebox cfg e = some w') :
    ∃ b, w' = { w with box := put w.box e (some b) } ∧ NewBox cfg w e b := by
  unfold World.rebox at h
  cases hs : w.shape e with
  | none => simp [hs] at h
  | some s =>
    cases s with
    | poly m p =>
      cases p with
      | none => simp [hs] at h
      | some i =>
        cases hi : w.heap i with
        | none => simp [hs, hi] at h
        | some r =>
          simp only [hs, hi] at h
          exact ⟨_, (Option.some.inj h).symm, _, hs, .inr ⟨m, i, r, rfl, hi, rfl⟩⟩
    | compound ns =>
      simp only [hs] at h
      exact ⟨_, (Option.some.inj h).symm, _, hs, .inl rfl⟩
    | other k =>
      simp only [hs] at h
      exact ⟨_, (Option.some.inj h).symm, _, hs, .inl rfl⟩

/-- The box of a current body is right. -/
theorem NewBox.right {cfg : Cfg T β} {w w' : World T β} {e : ℕ} {b : β} (h : NewBox cfg w e b)
    (hc : Current w e) (hs : w'.shape e = w.shape e) (hp : w'.pos e = w.pos e)
    (ho : w'.orn e = w.orn e) (hb : w'.box e = some b) : Boxed cfg w' e := by
  obtain ⟨s, h1, h2⟩ := h
  intro s' b' hs' hb'
  obtain rfl := Option.some.inj (hb.symm.trans hb')
  rw [hs] at hs'
  obtain rfl := Option.some.inj (h1.symm.trans hs')
  rw [hp, ho]
  refine h2.imp id ?_
  rintro ⟨m, i, r, rfl, h3, h4⟩
  obtain ⟨j, k1, k2⟩ := hc _ h1 ⟨m, 1, some i⟩ (by simp [Shape.parts])
  obtain rfl := Option.some.inj k1
  obtain rfl := Option.some.inj (h3.symm.trans k2)
  refine ⟨m, _, rfl, ?_⟩
  rw [h4, mul_one_quat]
  rfl

theorem each_rebox {cfg : Cfg T β} : ∀ (es : List ℕ) (w w' : World T β),
    w.each (World.rebox cfg) es = some w' →
    ∃ bx, w' = { w with box := bx } ∧ (∀ e ∈ es, ∃ b, bx e = some b ∧ NewBox cfg w e b) ∧
      ∀ e, e ∉ es → bx e = w.box e
  | [], w, w', h => by
    obtain rfl := Option.some.inj h
    exact ⟨w.box, rfl, by simp, fun _ _ => rfl⟩
  | e :: es, w, w', h => by
    cases h1 : w.rebox cfg e with
    | none => simp [World.each, h1] at h
    | some w1 =>
      simp only [World.each, h1, Option.bind_some] at h
      obtain ⟨b, e1, e2⟩ := rebox_some h1
      obtain ⟨bx, f1, f2, f3⟩ := each_rebox es w1 w' h
      subst e1
      refine ⟨bx, f1, ?_, ?_⟩
      · intro x hx
        by_cases k : x ∈ es
        · exact f2 x k
        · obtain rfl : x = e := by simpa [k] using hx
          exact ⟨b, by rw [f3 x k]; exact put_same _ _ _, e2⟩
      · intro x hx
        rw [f3 x fun k => hx (List.mem_cons_of_mem _ k)]
        exact put_ne _ _ fun k => hx (k ▸ List.mem_cons_self ..)

theorem each_rebox_defined {cfg : Cfg T β} : ∀ (es : List ℕ) (w : World T β),
    (∀ e ∈ es, Current w e ∧ (w.shape e).isSome) → ∃ w', w.each (World.rebox cfg) es = some w'
  | [], w, _ => ⟨w, rfl⟩
  | e :: es, w, h => by
    obtain ⟨hc, hs⟩ := h e (List.mem_cons_self ..)
    have : ∃ w1, w.rebox cfg e = some w1 := by
      obtain ⟨s, hs⟩ := Option.isSome_iff_exists.1 hs
      cases s with
      | poly m p =>
        obtain ⟨i, k1, k2⟩ := hc _ hs ⟨m, 1, p⟩ (by simp [Shape.parts])
        obtain rfl : p = some i := k1
        simp [World.rebox, hs, k2]
      | compound ns => simp [World.rebox, hs]
      | other k => simp [World.rebox, hs]
    obtain ⟨w1, h1⟩ := this
    obtain ⟨b, rfl, _⟩ := rebox_some h1
    obtain ⟨w', h'⟩ := each_rebox_defined (cfg := cfg) es
      { w with box := put w.box e (some b) } fun x hx => h x (List.mem_cons_of_mem _ hx)
    exact ⟨w', by simp only [World.each, h1, Option.bind_some]; exact h'⟩

/-! ### A step -/

theorem moving_body {w : World T β} {e : ℕ} (h : w.moving e = true) : w.body e = true := by
  simp only [World.moving, Bool.and_eq_true] at h
  exact h.1

/-- The transforms that the solver leaves. -/
def stepped (w : World T β) (f : ℕ → V3 T × Quat T) : World T β :=
  { w with pos := fun e => if w.moving e then (f e).1 else w.pos e,
           orn := fun e => if w.moving e then (f e).2 else w.orn e }

theorem Core.stepped {w : World T β} (hc : Core w) (f : ℕ → V3 T × Quat T) : Core (stepped w f) :=
  ⟨hc.lt, hc.cell, hc.fits, hc.up, hc.next, hc.aux, hc.inj, hc.ninj, hc.blt, hc.shaped⟩

/-- The meshes after a step. -/
theorem step_meshes {w : World T β} (hi : Inv w) (f : ℕ → V3 T × Quat T) :
    ∃ hp, (stepped w f).each World.refresh
        (((List.range w.n).filter w.moving).filter fun e => (w.list e).isSome) =
          some { stepped w f with heap := hp } ∧
      Core { stepped w f with heap := hp } ∧
      (∀ e, w.body e = true → ¬ Fresh w e → w.moving e = true ∨ Current w e →
        Current { stepped w f with heap := hp } e) := by
  obtain ⟨hp, e1, e2, e3, e4⟩ := each_refresh
    (((List.range w.n).filter w.moving).filter fun e => (w.list e).isSome) (stepped w f)
    (hi.core.stepped f) (by
      intro e he
      simp only [List.mem_filter, List.mem_range] at he
      exact ⟨moving_body he.1.2, he.2⟩)
  refine ⟨hp, e1, e4, fun e he hf hm => ?_⟩
  cases hs : w.shape e with
  | none =>
    intro s hs'
    exact absurd (hs.symm.trans hs') (by simp)
  | some s =>
    have lk := hi.linked e he hf s hs
    by_cases m : w.moving e = true
    · rcases lk with lk | lk
      · intro s' hs' p hp'
        obtain rfl := Option.some.inj (hs.symm.trans hs')
        rw [lk] at hp'
        cases hp'
      · refine current_of_cells (w := { stepped w f with heap := hp }) hs (.inr lk) fun d r hd hr => ?_
        refine e2 e ?_ d r hd hr
        simp only [List.mem_filter, List.mem_range]
        refine ⟨⟨hi.core.blt e he, m⟩, ?_⟩
        cases hps : s.parts with
        | nil => rw [hps] at lk; exact lk.elim
        | cons p ps =>
          rw [hps] at lk
          obtain ⟨x, hx, _⟩ := lk
          rw [hx]; rfl
    · have hcur := hm.resolve_left m
      refine hcur.keep (w' := { stepped w f with heap := hp }) (hi.linked e he hf) rfl
        (by simp [stepped, m]) fun d r hd hr => ?_
      refine e3 r.rotated fun e' he' d' r' hd' hr' k => ?_
      simp only [List.mem_filter, List.mem_range] at he'
      obtain rfl := hi.core.inj _ _ _ _ hr' hr k
      obtain rfl := hi.core.reach_unique (hi.core.root he) (hi.core.root (moving_body he'.1.2)) d' hd hd'
      exact m he'.1.2

/-- What a step does. -/
theorem step_some {cfg : Cfg T β} {w w' : World T β} {f : ℕ → V3 T × Quat T} (hi : Inv w)
    (h : w.step cfg f = some w') :
    ∃ hp bx, w' = { stepped w f with heap := hp, box := bx } ∧ Core w' ∧
      (∀ e, w.body e = true → ¬ Fresh w e → w.moving e = true ∨ Current w e → Current w' e) ∧
      (∀ e, w.body e = true → ¬ Fresh w e → w.moving e = true → Boxed cfg w' e) ∧
      (∀ e, w.moving e = false → bx e = w.box e) := by
  obtain ⟨hp, e1, e2, e3⟩ := step_meshes hi f
  simp only [World.step] at h
  have e1' : World.each World.refresh (stepped w f)
      (List.filter (fun e => ((stepped w f).list e).isSome) (List.filter w.moving (List.range w.n))) =
        some { stepped w f with heap := hp } := e1
  change (World.each World.refresh (stepped w f)
      (List.filter (fun e => ((stepped w f).list e).isSome)
        (List.filter w.moving (List.range w.n)))).bind _ = _ at h
  rw [e1', Option.bind_some] at h
  obtain ⟨bx, f1, f2, f3⟩ := each_rebox _ _ _ h
  have hcur : ∀ e, w.body e = true → ¬ Fresh w e → w.moving e = true ∨ Current w e →
      Current w' e := by
    intro e h1 h2 h3 s hs p hp
    rw [f1] at hs ⊢
    exact e3 e h1 h2 h3 s hs p hp
  refine ⟨hp, bx, f1, ?_, hcur, ?_, ?_⟩
  · rw [f1]
    exact ⟨e2.lt, e2.cell, e2.fits, e2.up, e2.next, e2.aux, e2.inj, e2.ninj, e2.blt, e2.shaped⟩
  · intro e h1 h2 h3
    by_cases k : e ∈ List.filter (fun e => ((stepped w f).shape e).isSome && ((stepped w f).box e).isSome)
        (List.filter w.moving (List.range w.n))
    · obtain ⟨b, k1, k2⟩ := f2 e k
      exact k2.right (e3 e h1 h2 (.inl h3)) (by rw [f1]) (by rw [f1]) (by rw [f1]) (by rw [f1]; exact k1)
    · intro s b hs hb
      exfalso
      apply k
      have hb' : (w.box e).isSome := by
        rw [f1] at hb
        have := f3 e k
        rw [show ({ stepped w f with heap := hp } : World T β).box e = w.box e from rfl] at this
        rw [← this]
        exact Option.isSome_iff_exists.2 ⟨b, hb⟩
      have hs' : (w.shape e).isSome := by
        rw [f1] at hs
        exact Option.isSome_iff_exists.2 ⟨s, hs⟩
      simp only [List.mem_filter, List.mem_range, Bool.and_eq_true]
      exact ⟨⟨hi.core.blt e h1, h3⟩, hs', hb'⟩
  · intro e h1
    refine f3 e fun k => ?_
    simp only [List.mem_filter, List.mem_range] at k
    rw [k.1.2] at h1
    cases h1

/-- A step is defined unless a shape is pending. -/
theorem step_defined_of_inv (cfg : Cfg T β) {w : World T β} (hi : Inv w)
    (hf : ∀ e, w.moving e = true → ¬ Fresh w e) (f : ℕ → V3 T × Quat T) :
    ∃ w', w.step cfg f = some w' := by
  obtain ⟨hp, e1, _, e3⟩ := step_meshes hi f
  simp only [World.step]
  have e1' : World.each World.refresh (stepped w f)
      (List.filter (fun e => ((stepped w f).list e).isSome) (List.filter w.moving (List.range w.n))) =
        some { stepped w f with heap := hp } := e1
  change ∃ w', (World.each World.refresh (stepped w f)
      (List.filter (fun e => ((stepped w f).list e).isSome)
        (List.filter w.moving (List.range w.n)))).bind _ = some w'
  rw [e1', Option.bind_some]
  refine each_rebox_defined _ _ fun e he => ?_
  simp only [List.mem_filter, List.mem_range, Bool.and_eq_true] at he
  exact ⟨e3 e (moving_body he.1.2) (hf e he.1.2) (.inl he.1.2), he.2.1⟩

end Edyn.Poly
