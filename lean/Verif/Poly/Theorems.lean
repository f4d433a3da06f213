import Verif.Poly.Props

/-!
# Rotated meshes of polyhedra: the theorems (C91)
-/

namespace Edyn.Poly

open Edyn.Math

variable {T : Type} [Field T] {β : Type}

/-! ### Every operation keeps the invariant -/

theorem announce_same (w : World T β) (e : ℕ) (s : Shape T) :
    (w.announce e s).n = w.n ∧ (w.announce e s).h = w.h ∧ (w.announce e s).body = w.body ∧
    (w.announce e s).kind = w.kind ∧ (w.announce e s).idle = w.idle ∧ (w.announce e s).pos = w.pos ∧
    (w.announce e s).orn = w.orn ∧ (w.announce e s).shape = w.shape ∧ (w.announce e s).box = w.box ∧
    (w.announce e s).list = w.list ∧ (w.announce e s).heap = w.heap := by
  cases s <;> exact ⟨rfl, rfl, rfl, rfl, rfl, rfl, rfl, rfl, rfl, rfl, rfl⟩

theorem announce_fresh (w : World T β) (e : ℕ) (s : Shape T) (x : ℕ) :
    Fresh (w.announce e s) x ↔ Fresh w x ∨ (x = e ∧ ∀ k, s ≠ .other k) := by
  cases s <;> simp [World.announce, Fresh]
  · tauto
  · tauto

theorem Core.of_same {w w' : World T β} (hc : Core w) (hn : w.n ≤ w'.n) (hh : w'.h = w.h)
    (hl : w'.list = w.list) (hp : w'.heap = w.heap) (hb : ∀ e, w'.body e = true → e < w'.n)
    (ha : ∀ e, e < w.n → w.body e = false → w'.body e = false)
    (hs : ∀ e, w'.body e = false → w'.shape e = none) : Core w' := by
  refine ⟨?_, ?_, ?_, ?_, ?_, ?_, ?_, ?_, hb, hs⟩
  · intro c r h; rw [hl] at h; exact (hc.lt c r h).trans_le hn
  · intro c r h; rw [hl] at h; rw [hh]; exact hc.cell c r h
  · intro c r h; rw [hl] at h; rw [hp]; exact hc.fits c r h
  · intro c r d h; rw [hl] at h; exact hc.up c r d h
  · intro c r d h h2; rw [hl] at h ⊢; exact hc.next c r d h h2
  · intro c r d h h2
    rw [hl] at h
    refine ha d ?_ (hc.aux c r d h h2)
    obtain ⟨x, hx⟩ := Option.isSome_iff_exists.1 (hc.next c r d h h2)
    exact hc.lt d x hx
  · intro c c' r r' h h'; rw [hl] at h h'; exact hc.inj c c' r r' h h'
  · intro c c' r r' d h h'; rw [hl] at h h'; exact hc.ninj c c' r r' d h h'

theorem create_inv {cfg : Cfg T β} {w : World T β} (hi : Inv w) (s : Option (Shape T)) (p : V3 T)
    (q : Quat T) (k : Kind) : Inv (w.create cfg s p q k) := by
  have fresh_lt : w.shape w.n = none := by
    refine hi.core.shaped _ ?_
    cases hb : w.body w.n with
    | false => rfl
    | true => exact absurd (hi.core.blt _ hb) (Nat.lt_irrefl _)
  cases s with
  | none =>
    constructor
    · refine hi.core.of_same (Nat.le_succ _) rfl rfl rfl ?_ ?_ ?_
      · intro e he
        show e < w.n + 1
        by_cases ke : e = w.n
        · omega
        · have he' : w.body e = true := (put_ne w.body true ke).symm.trans he
          have := hi.core.blt e he'
          omega
      · intro e he hb
        exact (put_ne w.body true (Nat.ne_of_lt he)).trans hb
      · intro e he
        by_cases ke : e = w.n
        · rw [ke]; exact fresh_lt
        · exact hi.core.shaped e ((put_ne w.body true ke).symm.trans he)
    · intro e he hf s hs
      by_cases ke : e = w.n
      · rw [ke] at hs
        exact absurd (fresh_lt.symm.trans hs) (by simp)
      · exact hi.linked e ((put_ne w.body true ke).symm.trans he) hf s hs
  | some sh =>
    obtain ⟨a1, a2, a3, _, _, _, _, a8, _, a10, a11⟩ := announce_same
      ({ w with n := w.n + 1, body := put w.body w.n true, kind := put w.kind w.n k,
                idle := put w.idle w.n false, pos := put w.pos w.n p, orn := put w.orn w.n q,
                shape := put w.shape w.n (some sh),
                box := put w.box w.n (some (cfg.shapeBox sh.bare p q)) } : World T β) w.n sh
    have ff := announce_fresh
      ({ w with n := w.n + 1, body := put w.body w.n true, kind := put w.kind w.n k,
                idle := put w.idle w.n false, pos := put w.pos w.n p, orn := put w.orn w.n q,
                shape := put w.shape w.n (some sh),
                box := put w.box w.n (some (cfg.shapeBox sh.bare p q)) } : World T β) w.n sh
    constructor
    · refine hi.core.of_same ?_ a2 a10 a11 ?_ ?_ ?_
      · exact (Nat.le_succ _).trans a1.symm.le
      · intro e he
        refine lt_of_lt_of_eq ?_ a1.symm
        have he2 : put w.body w.n true e = true := (congrFun a3 e).symm.trans he
        show e < w.n + 1
        by_cases ke : e = w.n
        · omega
        · have := hi.core.blt e ((put_ne w.body true ke).symm.trans he2)
          omega
      · intro e he hb
        exact (congrFun a3 e).trans ((put_ne w.body true (Nat.ne_of_lt he)).trans hb)
      · intro e he
        have he2 : put w.body w.n true e = false := (congrFun a3 e).symm.trans he
        refine (congrFun a8 e).trans ?_
        by_cases ke : e = w.n
        · subst ke; simp at he2
        · exact (put_ne _ _ ke).trans (hi.core.shaped e ((put_ne w.body true ke).symm.trans he2))
    · intro e he hf s hs
      have he2 : put w.body w.n true e = true := (congrFun a3 e).symm.trans he
      have hs2 : put w.shape w.n (some sh) e = some s := (congrFun a8 e).symm.trans hs
      have hf2 := fun h => hf ((ff e).2 h)
      by_cases ke : e = w.n
      · subst ke
        simp only [put_same, Option.some.injEq] at hs2
        subst hs2
        cases sh with
        | poly m p => exact absurd (Or.inr ⟨rfl, by simp⟩) hf2
        | compound ns => exact absurd (Or.inr ⟨rfl, by simp⟩) hf2
        | other k => exact .inl rfl
      · have h1 := hi.linked e ((put_ne w.body true ke).symm.trans he2) (fun h => hf2 (.inl h)) s
          ((put_ne _ _ ke).symm.trans hs2)
        refine h1.imp id fun h => ?_
        show Chain (World.list _) _ _
        rw [show (w.create cfg (some sh) p q k).list = w.list from a10]
        exact h

/-- Setting a shape changes shape and box of that body and the pending shapes. -/
theorem setShape_same (cfg : Cfg T β) (w : World T β) (e : ℕ) (s : Option (Shape T)) :
    (w.setShape cfg e s).n = w.n ∧ (w.setShape cfg e s).h = w.h ∧
    (w.setShape cfg e s).body = w.body ∧ (w.setShape cfg e s).kind = w.kind ∧
    (w.setShape cfg e s).idle = w.idle ∧ (w.setShape cfg e s).pos = w.pos ∧
    (w.setShape cfg e s).orn = w.orn ∧ (w.setShape cfg e s).shape = put w.shape e s ∧
    (∀ d, d ≠ e → (w.setShape cfg e s).box d = w.box d) ∧
    (w.setShape cfg e s).list = w.list ∧ (w.setShape cfg e s).heap = w.heap ∧
    (∀ x, Fresh (w.setShape cfg e s) x ↔
      Fresh w x ∨ (x = e ∧ ∃ t, s = some t ∧ ∀ k, t ≠ .other k)) := by
  cases s with
  | none =>
    refine ⟨rfl, rfl, rfl, rfl, rfl, rfl, rfl, rfl, fun d hd => put_ne _ _ hd, rfl, rfl, fun x => ?_⟩
    simp [World.setShape, Fresh]
  | some s =>
    obtain ⟨a1, a2, a3, a4, a5, a6, a7, a8, a9, a10, a11⟩ := announce_same
      ({ w with shape := put w.shape e (some s) } : World T β) e s
    have ff := announce_fresh ({ w with shape := put w.shape e (some s) } : World T β) e s
    unfold World.setShape
    dsimp only
    split
    · refine ⟨a1, a2, a3, a4, a5, a6, a7, a8, fun d _ => congrFun a9 d, a10, a11, fun x => ?_⟩
      rw [ff x]
      simp [Fresh]
    · refine ⟨a1, a2, a3, a4, a5, a6, a7, a8, fun d hd => put_ne _ _ hd, a10, a11, fun x => ?_⟩
      have := ff x
      simp only [Fresh] at this ⊢
      rw [this]
      simp

theorem setShape_inv {cfg : Cfg T β} {w : World T β} (hi : Inv w) {e : ℕ} (he : w.body e = true)
    (s : Option (Shape T)) : Inv (w.setShape cfg e s) := by
  obtain ⟨a1, a2, a3, _, _, _, _, a8, _, a10, a11, ff⟩ := setShape_same cfg w e s
  constructor
  · refine hi.core.of_same a1.symm.le a2 a10 a11 ?_ ?_ ?_
    · intro d hd; rw [a3] at hd; rw [a1]; exact hi.core.blt d hd
    · intro d _ hd; rw [a3]; exact hd
    · intro d hd
      rw [a3] at hd
      rw [a8, put_ne]
      · exact hi.core.shaped d hd
      · rintro rfl
        rw [he] at hd; cases hd
  · intro d hd hf t ht
    rw [a3] at hd
    rw [a10]
    rw [ff d] at hf
    rw [a8] at ht
    by_cases k : d = e
    · subst k
      rw [put_same] at ht
      subst ht
      cases t with
      | poly m p => exact absurd (Or.inr ⟨rfl, _, rfl, by simp⟩) hf
      | compound ns => exact absurd (Or.inr ⟨rfl, _, rfl, by simp⟩) hf
      | other k => exact .inl rfl
    · rw [put_ne _ _ k] at ht
      exact hi.linked d hd (fun h => hf (.inl h)) t ht

/-- The world without body `e`. -/
def without (w : World T β) (e : ℕ) (l : ℕ → Option (RList T)) (hp : ℕ → Option (RMesh T)) :
    World T β :=
  { w with body := put w.body e false, shape := put w.shape e none, box := put w.box e none,
           list := l, heap := hp }

/-- What destruction does. -/
theorem destroy_some {w : World T β} (hi : Inv w) {e : ℕ} (he : w.body e = true) :
    ∃ l hp, w.destroy e = some (without w e l hp) ∧ Core (without w e l hp) ∧
      (∀ d, Reach w.list e d → l d = none) ∧ (∀ d, ¬ Reach w.list e d → l d = w.list d) ∧
      (∀ d r, Reach w.list e d → w.list d = some r → hp r.rotated = none) ∧
      (∀ i, (∀ d r, Reach w.list e d → w.list d = some r → r.rotated ≠ i) → hp i = w.heap i) := by
  have hc0 : Core { w with body := put w.body e false, shape := put w.shape e none,
                           box := put w.box e none } := by
    refine hi.core.of_same le_rfl rfl rfl rfl ?_ ?_ ?_
    · intro d hd
      by_cases k : d = e
      · subst k; exact hi.core.blt d he
      · exact hi.core.blt d ((put_ne w.body false k).symm.trans hd)
    · intro d _ hd
      show put w.body e false d = false
      by_cases k : d = e
      · subst k; simp
      · exact (put_ne _ _ k).trans hd
    · intro d hd
      show put w.shape e none d = none
      by_cases k : d = e
      · subst k; simp
      · exact (put_ne _ _ k).trans (hi.core.shaped d ((put_ne w.body false k).symm.trans hd))
  by_cases hl : (w.list e).isSome
  · obtain ⟨l, hp, e1, e2, e3, e4, e5, e6⟩ := dropList_spec (w.n + 1) _ e hc0 hl
      (hi.core.root he) (by show w.n - e < w.n + 1; omega)
    refine ⟨l, hp, ?_, e2, e3, e4, e5, e6⟩
    simp only [World.destroy, hl, if_true]
    exact e1
  · have hn : w.list e = none := by simpa using hl
    have only : ∀ d, Reach w.list e d → d = e := by
      intro d hd
      cases hd with
      | refl => rfl
      | head h1 _ _ => rw [hn] at h1; cases h1
    refine ⟨w.list, w.heap, ?_, hc0, ?_, fun _ _ => rfl, ?_, fun _ _ => rfl⟩
    · simp [World.destroy, hn, without]
    · intro d hd
      rw [only d hd, hn]
    · intro d r hd hr
      rw [only d hd, hn] at hr
      cases hr

theorem destroy_inv {w w' : World T β} (hi : Inv w) {e : ℕ} (he : w.body e = true)
    (h : w.destroy e = some w') : Inv w' := by
  obtain ⟨l, hp, e1, e2, e3, e4, _, _⟩ := destroy_some hi he
  obtain rfl := Option.some.inj (e1.symm.trans h)
  refine ⟨e2, fun d hd hf s hs => ?_⟩
  have k : d ≠ e := by
    rintro rfl
    have : put w.body d false d = true := hd
    simp at this
  have hd' : w.body d = true := (put_ne w.body false k).symm.trans hd
  have hs' : w.shape d = some s := (put_ne _ _ k).symm.trans hs
  refine (hi.linked d hd' hf s hs').imp id fun h => h.congr fun c hc x hx => e4 x fun hr => ?_
  obtain rfl := Option.some.inj hc
  exact k (hi.core.reach_unique (hi.core.root hd') (hi.core.root he) x hx hr)

/-- Changes that touch neither shapes nor lists. -/
theorem Inv.of_same {w w' : World T β} (hi : Inv w) (hc : Core w') (hb : w'.body = w.body)
    (hs : w'.shape = w.shape) (hl : w'.list = w.list) (hp : w'.newPoly = w.newPoly)
    (hq : w'.newComp = w.newComp) : Inv w' := by
  refine ⟨hc, fun e he hf s h => ?_⟩
  rw [hb] at he
  rw [hs] at h
  rw [hl]
  refine hi.linked e he (fun k => hf ?_) s h
  unfold Fresh
  rw [hp, hq]
  exact k

theorem Core.withBox {w : World T β} (hc : Core w) (bx : ℕ → Option β) : Core { w with box := bx } :=
  ⟨hc.lt, hc.cell, hc.fits, hc.up, hc.next, hc.aux, hc.inj, hc.ninj, hc.blt, hc.shaped⟩

/-- What turning a body does. -/
theorem turn_some {cfg : Cfg T β} {w w' : World T β} (hi : Inv w) {e : ℕ} (he : w.body e = true)
    {q : Quat T} (h : w.turn cfg e q = some w') :
    ∃ hp bx, w' = { w with orn := put w.orn e q, heap := hp, box := bx } ∧ Core w' ∧
      (∀ d, d ≠ e → bx d = w.box d) ∧
      (∀ d r, ¬ Reach w.list e d → w.list d = some r → hp r.rotated = w.heap r.rotated) ∧
      (cfg.worker = true → ∀ d r, Reach w.list e d → w.list d = some r →
        hp r.rotated = some (r.mesh.turned (q * r.orn))) := by
  have hc0 : Core { w with orn := put w.orn e q } :=
    ⟨hi.core.lt, hi.core.cell, hi.core.fits, hi.core.up, hi.core.next, hi.core.aux, hi.core.inj,
      hi.core.ninj, hi.core.blt, hi.core.shaped⟩
  unfold World.turn at h
  by_cases hw : cfg.worker = true
  · simp only [hw, if_true] at h
    have hbx : ∃ bx : ℕ → Option β, (∀ d, d ≠ e → bx d = w.box d) ∧
        (if (w.list e).isSome then
          ({ w with orn := put w.orn e q, box := bx } : World T β).refresh e
          else some { w with orn := put w.orn e q, box := bx }) = some w' := by
      by_cases hb : (w.box e).isSome
      · simp only [hb, if_true] at h
        cases h1 : World.rebox cfg ({ w with orn := put w.orn e q }) e with
        | none => rw [h1] at h; cases h
        | some w1 =>
          rw [h1] at h
          obtain ⟨b, rfl, _⟩ := rebox_some h1
          exact ⟨put w.box e (some b), fun d hd => put_ne _ _ hd, h⟩
      · simp only [hb] at h
        exact ⟨w.box, fun _ _ => rfl, h⟩
    obtain ⟨bx, hb1, h2⟩ := hbx
    by_cases hl : (w.list e).isSome
    · rw [if_pos hl] at h2
      obtain ⟨hp, e1, e2, e3, e4⟩ := each_refresh [e]
        ({ w with orn := put w.orn e q, box := bx } : World T β) (hc0.withBox bx)
        (by intro x hx; obtain rfl : x = e := by simpa using hx
            exact ⟨he, hl⟩)
      simp only [World.each, h2, Option.bind_some] at e1
      obtain rfl := Option.some.inj e1
      refine ⟨hp, bx, rfl, e4, hb1, ?_, fun _ => ?_⟩
      · intro d r hd hr
        refine e3 _ fun x hx d' r' hd' hr' k => ?_
        obtain rfl : x = e := by simpa using hx
        obtain rfl := hi.core.inj _ _ _ _ hr' hr k
        exact hd hd'
      · intro d r hd hr
        have := e2 e (by simp) d r hd hr
        rw [show ({ w with orn := put w.orn e q, box := bx } : World T β).orn e = q from
          put_same _ _ _] at this
        exact this
    · rw [if_neg hl] at h2
      obtain rfl := Option.some.inj h2
      refine ⟨w.heap, bx, rfl, hc0.withBox bx, hb1, fun _ _ _ _ => rfl, fun _ d r hd hr => ?_⟩
      exfalso
      have hn : w.list e = none := by simpa using hl
      cases hd with
      | refl => rw [hn] at hr; cases hr
      | head h1 _ _ => rw [hn] at h1; cases h1
  · simp only [hw] at h
    obtain rfl := Option.some.inj h
    exact ⟨w.heap, w.box, rfl, hc0, fun _ _ => rfl, fun _ _ _ _ => rfl, fun k => absurd k hw⟩

/-- What moving a body does. -/
theorem move_some {cfg : Cfg T β} {w w' : World T β} {e : ℕ} {p : V3 T}
    (h : w.move cfg e p = some w') :
    ∃ bx, w' = { w with pos := put w.pos e p, box := bx } ∧ (∀ d, d ≠ e → bx d = w.box d) ∧
      (cfg.worker = true → ∀ b, bx e = some b →
        NewBox cfg { w with pos := put w.pos e p } e b) := by
  unfold World.move at h
  dsimp only at h
  split at h
  · obtain ⟨b, rfl, hb⟩ := rebox_some h
    refine ⟨_, rfl, fun d hd => put_ne _ _ hd, fun _ b' hb' => ?_⟩
    rw [put_same] at hb'
    obtain rfl := Option.some.inj hb'
    exact hb
  · rename_i hn
    obtain rfl := Option.some.inj h
    refine ⟨w.box, rfl, fun _ _ => rfl, fun hw b hb => ?_⟩
    simp [hw, hb] at hn

theorem apply_inv {cfg : Cfg T β} {w w' : World T β} (hi : Inv w) {o : Op T}
    (h : w.apply cfg o = some w') : Inv w' := by
  cases o with
  | create s p q k =>
    obtain rfl := Option.some.inj h
    exact create_inv hi s p q k
  | setShape e s =>
    simp only [World.apply] at h
    split at h
    · rename_i he
      obtain rfl := Option.some.inj h
      exact setShape_inv hi he s
    · cases h
  | destroy e =>
    simp only [World.apply] at h
    split at h
    · rename_i he
      exact destroy_inv hi he h
    · cases h
  | turn e q =>
    simp only [World.apply] at h
    split at h
    · rename_i he
      obtain ⟨hp, bx, rfl, hc, _⟩ := turn_some hi he h
      exact hi.of_same hc rfl rfl rfl rfl rfl
    · cases h
  | move e p =>
    simp only [World.apply] at h
    split at h
    · obtain ⟨bx, rfl, _⟩ := move_some h
      exact hi.of_same ⟨hi.core.lt, hi.core.cell, hi.core.fits, hi.core.up, hi.core.next, hi.core.aux,
        hi.core.inj, hi.core.ninj, hi.core.blt, hi.core.shaped⟩ rfl rfl rfl rfl rfl
    · cases h
  | setKind e k =>
    simp only [World.apply] at h
    split at h
    · obtain rfl := Option.some.inj h
      exact hi.of_same ⟨hi.core.lt, hi.core.cell, hi.core.fits, hi.core.up, hi.core.next, hi.core.aux,
        hi.core.inj, hi.core.ninj, hi.core.blt, hi.core.shaped⟩ rfl rfl rfl rfl rfl
    · cases h
  | setIdle e b =>
    simp only [World.apply] at h
    split at h
    · obtain rfl := Option.some.inj h
      exact hi.of_same ⟨hi.core.lt, hi.core.cell, hi.core.fits, hi.core.up, hi.core.next, hi.core.aux,
        hi.core.inj, hi.core.ninj, hi.core.blt, hi.core.shaped⟩ rfl rfl rfl rfl rfl
    · cases h
  | init =>
    obtain ⟨w2, rfl, i2⟩ := init_inited hi.core h
    refine ⟨⟨i2.core.lt, i2.core.cell, i2.core.fits, i2.core.up, i2.core.next, i2.core.aux,
      i2.core.inj, i2.core.ninj, i2.core.blt, i2.core.shaped⟩, fun e he _ => ?_⟩
    have he' : w.body e = true := by rw [← i2.body]; exact he
    refine i2.linked e he' ?_
    by_cases hf : Fresh w e
    · left
      simp only [List.mem_append, List.mem_filter]
      exact hf.imp (fun k => ⟨k, he'⟩) (fun k => ⟨k, he'⟩)
    · exact .inr (hi.linked e he' hf)
  | step f =>
    obtain ⟨hp, bx, rfl, hc, _⟩ := step_some hi h
    exact hi.of_same hc rfl rfl rfl rfl rfl

theorem empty_inv : Inv (World.empty : World T β) := by
  refine ⟨⟨?_, ?_, ?_, ?_, ?_, ?_, ?_, ?_, ?_, ?_⟩, ?_⟩ <;> simp [World.empty]

theorem run_inv {cfg : Cfg T β} : ∀ (os : List (Op T)) {w w' : World T β}, Inv w →
    w.run cfg os = some w' → Inv w'
  | [], w, w', hi, h => by obtain rfl := Option.some.inj h; exact hi
  | o :: os, w, w', hi, h => by
    cases h1 : w.apply cfg o with
    | none => simp [World.run, h1] at h
    | some w1 =>
      simp only [World.run, h1, Option.bind_some] at h
      exact run_inv os (apply_inv hi h1) h

end Edyn.Poly
