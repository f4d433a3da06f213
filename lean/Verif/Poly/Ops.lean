import Verif.Poly.Inv

/-!
# Rotated meshes of polyhedra: what each operation does (C91)
-/

namespace Edyn.Poly

open Edyn.Math

variable {T : Type} [Field T] {β : Type}

/-! ### Destruction -/

/-- Dropping the list of an entity that nothing links to. -/
theorem Core.dropOne {w : World T β} (hc : Core w) {c : ℕ} {r : RList T} (hr : w.list c = some r)
    (h : Root w c) :
    Core { w with list := put w.list c none, heap := put w.heap r.rotated none } := by
  have key : ∀ d x, put w.list c none d = some x → d ≠ c ∧ w.list d = some x := by
    intro d x hx
    by_cases e : d = c
    · subst e; simp at hx
    · exact ⟨e, by rwa [put_ne _ _ e] at hx⟩
  constructor
  · exact fun d x hx => hc.lt d x (key d x hx).2
  · exact fun d x hx => hc.cell d x (key d x hx).2
  · intro d x hx
    obtain ⟨h1, h2⟩ := key d x hx
    obtain ⟨a, ha, hf⟩ := hc.fits d x h2
    refine ⟨a, ?_, hf⟩
    show put w.heap r.rotated none x.rotated = some a
    rw [put_ne]
    · exact ha
    · exact fun e => h1 (hc.inj _ _ _ _ h2 hr e)
  · exact fun d x y hx hy => hc.up d x y (key d x hx).2 hy
  · intro d x y hx hy
    obtain ⟨h1, h2⟩ := key d x hx
    have : y ≠ c := fun e => h d x h2 (e ▸ hy)
    show (put w.list c none y).isSome
    rw [put_ne _ _ this]
    exact hc.next d x y h2 hy
  · exact fun d x y hx hy => hc.aux d x y (key d x hx).2 hy
  · exact fun d d' x x' hx hx' hy => hc.inj d d' x x' (key d x hx).2 (key d' x' hx').2 hy
  · exact fun d d' x x' y hx hx' hy hy' =>
      hc.ninj d d' x x' y (key d x hx).2 (key d' x' hx').2 hy hy'
  · exact hc.blt
  · exact hc.shaped

/-- The cascade removes the list that starts at an entity, and nothing else. -/
theorem dropList_spec : ∀ (fuel : ℕ) (w : World T β) (c : ℕ), Core w → (w.list c).isSome → Root w c →
    w.n - c < fuel →
    ∃ l hp, w.dropList fuel c = some { w with list := l, heap := hp } ∧
      Core { w with list := l, heap := hp } ∧
      (∀ d, Reach w.list c d → l d = none) ∧
      (∀ d, ¬ Reach w.list c d → l d = w.list d) ∧
      (∀ d r, Reach w.list c d → w.list d = some r → hp r.rotated = none) ∧
      (∀ i, (∀ d r, Reach w.list c d → w.list d = some r → r.rotated ≠ i) → hp i = w.heap i)
  | 0, _, _, _, _, _, h => by omega
  | fuel + 1, w, c, hc, hs, hroot, hf => by
    obtain ⟨r, hr⟩ := Option.isSome_iff_exists.1 hs
    have hlt := hc.lt c r hr
    have hc1 := hc.dropOne hr hroot
    simp only [World.dropList, World.free, hr]
    cases hn : r.next with
    | none =>
      have only : ∀ d, Reach w.list c d → d = c := by
        intro d hd
        cases hd with
        | refl => rfl
        | head h1 h2 _ =>
          obtain rfl := Option.some.inj (hr.symm.trans h1)
          rw [hn] at h2
          cases h2
      refine ⟨_, _, rfl, hc1, ?_, ?_, ?_, ?_⟩
      · intro d hd
        rw [only d hd, put_same]
      · exact fun d hd => put_ne _ _ fun e => hd (e ▸ .refl d)
      · intro d r' hd hr'
        rw [only d hd] at hr'
        obtain rfl := Option.some.inj (hr.symm.trans hr')
        exact put_same _ _ _
      · exact fun i hi => put_ne _ _ fun e => hi c r (.refl c) hr e.symm
    | some x =>
      have hx := hc.up c r x hr hn
      have same : ∀ y, Reach w.list x y → put w.list c none y = w.list y := fun y hy =>
        put_ne _ _ fun e => by have := hc.reach_le hy; omega
      have fwd : ∀ {d}, Reach w.list x d → Reach (put w.list c none) x d := fun h => h.congr same
      have bwd : ∀ {d}, Reach (put w.list c none) x d → Reach w.list x d := fun h => h.congr' same
      obtain ⟨l, hp, e1, e2, e3, e4, e5, e6⟩ := dropList_spec fuel _ x hc1
        (by
          show (put w.list c none x).isSome
          rw [same x (.refl x)]
          exact hc.next c r x hr hn)
        (by
          intro d y hy hyn
          by_cases e : d = c
          · subst e; simp at hy
          · have hy' : w.list d = some y := by rwa [← put_ne w.list none e]
            exact e (hc.ninj _ _ _ _ _ hy' hr hyn hn))
        (by show w.n - x < fuel; omega)
      refine ⟨l, hp, e1, e2, ?_, ?_, ?_, ?_⟩
      · intro d hd
        cases hd with
        | refl =>
          rw [e4]
          · simp
          · intro k
            have := hc.reach_le (bwd k)
            omega
        | head h1 h2 h3 =>
          obtain rfl := Option.some.inj (hr.symm.trans h1)
          obtain rfl := Option.some.inj (hn.symm.trans h2)
          exact e3 d (fwd h3)
      · intro d hd
        rw [e4 d fun k => hd (.head hr hn (bwd k))]
        exact put_ne _ _ fun e => hd (e ▸ .refl d)
      · intro d r' hd hr'
        cases hd with
        | refl =>
          obtain rfl := Option.some.inj (hr.symm.trans hr')
          rw [e6]
          · simp
          · intro d' r'' hd' hr'' e
            have h9 := bwd hd'
            have h8 : w.list d' = some r'' := by rw [← same d' h9]; exact hr''
            have := hc.inj _ _ _ _ h8 hr e
            have := hc.reach_le h9
            omega
        | head h1 h2 h3 =>
          obtain rfl := Option.some.inj (hr.symm.trans h1)
          obtain rfl := Option.some.inj (hn.symm.trans h2)
          exact e5 d r' (fwd h3) ((same d h3).trans hr')
      · intro i hi
        rw [e6 i fun d r' hd hr' => ?_]
        · exact put_ne _ _ fun e => hi c r (.refl c) hr e.symm
        · have h9 := bwd hd
          exact hi d r' (.head hr hn h9) (by rw [← same d h9]; exact hr')

/-! ### Initialization -/

/-- Giving an entity that nothing links to a new list of one element, with a new cell. -/
theorem Core.newList {w : World T β} (hc : Core w) {c : ℕ} (hroot : Root w c) {N : ℕ} (hN : w.n ≤ N)
    (hlt : c < N) (m : Mesh T) (o q : Quat T) :
    Core (({ w.alloc (m.turned q) with n := N } : World T β).putList c ⟨m, w.h, o, none⟩) := by
  have key : ∀ d x, put w.list c (some (⟨m, w.h, o, none⟩ : RList T)) d = some x →
      (d = c ∧ x = ⟨m, w.h, o, none⟩) ∨ (d ≠ c ∧ w.list d = some x) := by
    intro d x hx
    by_cases e : d = c
    · subst e
      simp at hx
      exact .inl ⟨rfl, hx.symm⟩
    · exact .inr ⟨e, by rwa [put_ne _ _ e] at hx⟩
  have heapEq : ∀ i, (∀ r, w.list c = some r → r.rotated ≠ i) →
      (({ w.alloc (m.turned q) with n := N } : World T β).putList c ⟨m, w.h, o, none⟩).heap i =
        put w.heap w.h (some (m.turned q)) i := by
    intro i hi
    simp only [World.putList, World.free, World.alloc]
    cases hl : w.list c with
    | none => rfl
    | some r => exact put_ne _ _ fun e => hi r hl e.symm
  have listEq : (({ w.alloc (m.turned q) with n := N } : World T β).putList c
      ⟨m, w.h, o, none⟩).list = put w.list c (some ⟨m, w.h, o, none⟩) := rfl
  have nEq : (({ w.alloc (m.turned q) with n := N } : World T β).putList c
      ⟨m, w.h, o, none⟩).n = N := by
    simp only [World.putList, World.free, World.alloc]; split <;> rfl
  have hEq : (({ w.alloc (m.turned q) with n := N } : World T β).putList c
      ⟨m, w.h, o, none⟩).h = w.h + 1 := by
    simp only [World.putList, World.free, World.alloc]; split <;> rfl
  have bEq : (({ w.alloc (m.turned q) with n := N } : World T β).putList c
      ⟨m, w.h, o, none⟩).body = w.body := by
    simp only [World.putList, World.free, World.alloc]; split <;> rfl
  have sEq : (({ w.alloc (m.turned q) with n := N } : World T β).putList c
      ⟨m, w.h, o, none⟩).shape = w.shape := by
    simp only [World.putList, World.free, World.alloc]; split <;> rfl
  constructor
  · intro d x hx
    rw [listEq] at hx
    rw [nEq]
    rcases key d x hx with ⟨rfl, rfl⟩ | ⟨_, h⟩
    · exact hlt
    · exact (hc.lt d x h).trans_le hN
  · intro d x hx
    rw [listEq] at hx
    rw [hEq]
    rcases key d x hx with ⟨rfl, rfl⟩ | ⟨_, h⟩
    · exact Nat.lt_succ_self _
    · exact (hc.cell d x h).trans (Nat.lt_succ_self _)
  · intro d x hx
    rw [listEq] at hx
    rcases key d x hx with ⟨rfl, rfl⟩ | ⟨hne, h⟩
    · refine ⟨m.turned q, ?_, turned_fits _ _⟩
      rw [heapEq]
      · simp
      · intro r hr
        have := hc.cell _ r hr
        show r.rotated ≠ w.h
        omega
    · obtain ⟨a, ha, hf⟩ := hc.fits d x h
      refine ⟨a, ?_, hf⟩
      rw [heapEq, put_ne]
      · exact ha
      · have := hc.cell d x h
        omega
      · exact fun r hr e => hne (hc.inj _ _ _ _ h hr e.symm)
  · intro d x y hx hy
    rw [listEq] at hx
    rcases key d x hx with ⟨rfl, rfl⟩ | ⟨_, h⟩
    · cases hy
    · exact hc.up d x y h hy
  · intro d x y hx hy
    rw [listEq] at hx ⊢
    rcases key d x hx with ⟨rfl, rfl⟩ | ⟨_, h⟩
    · cases hy
    · by_cases e : y = c
      · subst e; simp
      · rw [put_ne _ _ e]
        exact hc.next d x y h hy
  · intro d x y hx hy
    rw [listEq] at hx
    rw [bEq]
    rcases key d x hx with ⟨rfl, rfl⟩ | ⟨_, h⟩
    · cases hy
    · exact hc.aux d x y h hy
  · intro d d' x x' hx hx' hy
    rw [listEq] at hx hx'
    rcases key d x hx with ⟨rfl, rfl⟩ | ⟨_, h⟩
    · rcases key d' x' hx' with ⟨rfl, rfl⟩ | ⟨_, h'⟩
      · rfl
      · have := hc.cell _ _ h'
        simp only at hy
        omega
    · rcases key d' x' hx' with ⟨rfl, rfl⟩ | ⟨_, h'⟩
      · have := hc.cell _ _ h
        simp only at hy
        omega
      · exact hc.inj _ _ _ _ h h' hy
  · intro d d' x x' y hx hx' hy hy'
    rw [listEq] at hx hx'
    rcases key d x hx with ⟨rfl, rfl⟩ | ⟨_, h⟩
    · cases hy
    · rcases key d' x' hx' with ⟨rfl, rfl⟩ | ⟨_, h'⟩
      · cases hy'
      · exact hc.ninj _ _ _ _ _ h h' hy hy'
  · intro e he
    rw [bEq] at he
    rw [nEq]
    exact (hc.blt e he).trans_le hN
  · intro e he
    rw [bEq] at he
    rw [sEq]
    exact hc.shaped e he

/-- Setting the last link of a list. -/
theorem Core.relink {w : World T β} (hc : Core w) {c d : ℕ} {r : RList T} (hr : w.list c = some r)
    (hcd : c < d) (hd : (w.list d).isSome) (hb : w.body d = false) (hroot : Root w d) :
    Core { w with list := put w.list c (some { r with next := some d }) } := by
  have key : ∀ e x, put w.list c (some { r with next := some d }) e = some x →
      (e = c ∧ x = { r with next := some d }) ∨ (e ≠ c ∧ w.list e = some x) := by
    intro e x hx
    by_cases k : e = c
    · subst k
      simp at hx
      exact .inl ⟨rfl, hx.symm⟩
    · exact .inr ⟨k, by rwa [put_ne _ _ k] at hx⟩
  constructor
  · intro e x hx
    rcases key e x hx with ⟨rfl, rfl⟩ | ⟨_, h⟩
    · exact hc.lt _ _ hr
    · exact hc.lt _ _ h
  · intro e x hx
    rcases key e x hx with ⟨rfl, rfl⟩ | ⟨_, h⟩
    · exact hc.cell _ r hr
    · exact hc.cell _ _ h
  · intro e x hx
    rcases key e x hx with ⟨rfl, rfl⟩ | ⟨_, h⟩
    · exact hc.fits _ r hr
    · exact hc.fits _ _ h
  · intro e x y hx hy
    rcases key e x hx with ⟨rfl, rfl⟩ | ⟨_, h⟩
    · obtain rfl := Option.some.inj hy
      exact hcd
    · exact hc.up _ _ _ h hy
  · intro e x y hx hy
    show (put w.list c _ y).isSome
    by_cases k : y = c
    · subst k; simp
    · rw [put_ne _ _ k]
      rcases key e x hx with ⟨rfl, rfl⟩ | ⟨_, h⟩
      · obtain rfl := Option.some.inj hy
        exact hd
      · exact hc.next _ _ _ h hy
  · intro e x y hx hy
    rcases key e x hx with ⟨rfl, rfl⟩ | ⟨_, h⟩
    · obtain rfl := Option.some.inj hy
      exact hb
    · exact hc.aux _ _ _ h hy
  · intro e e' x x' hx hx' hy
    rcases key e x hx with ⟨rfl, rfl⟩ | ⟨k, h⟩ <;> rcases key e' x' hx' with ⟨rfl, rfl⟩ | ⟨k', h'⟩
    · rfl
    · exact hc.inj _ _ _ _ hr h' hy
    · exact hc.inj _ _ _ _ h hr hy
    · exact hc.inj _ _ _ _ h h' hy
  · intro e e' x x' y hx hx' hy hy'
    rcases key e x hx with ⟨rfl, rfl⟩ | ⟨k, h⟩ <;> rcases key e' x' hx' with ⟨rfl, rfl⟩ | ⟨k', h'⟩
    · rfl
    · obtain rfl := Option.some.inj hy
      exact absurd hy' (hroot _ _ h')
    · obtain rfl := Option.some.inj hy'
      exact absurd hy (hroot _ _ h)
    · exact hc.ninj _ _ _ _ _ h h' hy hy'
  · exact hc.blt
  · exact hc.shaped

/-- Everything but lists, memory and the counters stays. -/
structure SameRest (w w' : World T β) : Prop where
  body : w'.body = w.body
  kind : w'.kind = w.kind
  idle : w'.idle = w.idle
  pos : w'.pos = w.pos
  orn : w'.orn = w.orn
  shape : w'.shape = w.shape
  box : w'.box = w.box
  newPoly : w'.newPoly = w.newPoly
  newComp : w'.newComp = w.newComp
  n : w.n ≤ w'.n
  h : w.h ≤ w'.h

theorem SameRest.refl (w : World T β) : SameRest w w :=
  ⟨rfl, rfl, rfl, rfl, rfl, rfl, rfl, rfl, rfl, le_rfl, le_rfl⟩

theorem SameRest.trans {a b c : World T β} (h : SameRest a b) (k : SameRest b c) : SameRest a c :=
  ⟨k.body.trans h.body, k.kind.trans h.kind, k.idle.trans h.idle, k.pos.trans h.pos,
    k.orn.trans h.orn, k.shape.trans h.shape, k.box.trans h.box, k.newPoly.trans h.newPoly,
    k.newComp.trans h.newComp, h.n.trans k.n, h.h.trans k.h⟩

theorem sameRest_putList (w : World T β) (a : RMesh T) {N : ℕ} (hN : w.n ≤ N) (c : ℕ) (r : RList T) :
    SameRest w (({ w.alloc a with n := N } : World T β).putList c r) := by
  simp only [World.putList, World.free, World.alloc]
  constructor <;> (dsimp only; split <;> first | rfl | exact hN | exact Nat.le_succ _)

/-- The children after the first polyhedron. -/
theorem initNodes_some (e : ℕ) : ∀ (ns : List (Node T)) (w : World T β) (p : ℕ) (r : RList T),
    Core w → w.list p = some r → r.next = none →
    ∃ w' ns' o, w.initNodes e (some p) ns = some (w', ns') ∧ Core w' ∧ SameRest w w' ∧
      w'.list p = some { r with next := o } ∧
      (∀ d, d < w.n → d ≠ p → w'.list d = w.list d) ∧
      (∀ i, i < w.h → w'.heap i = w.heap i) ∧
      Chain w'.list o (nodeParts ns') ∧
      (∀ x ∈ nodeParts ns', ∃ i, x.rotated = some i ∧
        w'.heap i = some (x.mesh.turned (w.orn e * x.orn))) ∧
      ns'.map Node.bare = ns.map Node.bare ∧
      (∀ d, w.n ≤ d → (w'.list d).isSome → ∃ c, o = some c ∧ Reach w'.list c d)
  | [], w, p, r, hc, hr, hn => by
    refine ⟨w, [], none, rfl, hc, .refl w, ?_, fun _ _ _ => rfl, fun _ _ => rfl, trivial, by
      simp [nodeParts], rfl, fun d hd hs => ?_⟩
    · rw [hr, ← hn]
    · obtain ⟨x, hx⟩ := Option.isSome_iff_exists.1 hs
      have := hc.lt d x hx
      omega
  | .other o :: ns, w, p, r, hc, hr, hn => by
    obtain ⟨w', ns', x, h1, h2, h3, h4, h5, h6, h7, h8, h9, h10⟩ := initNodes_some e ns w p r hc hr hn
    refine ⟨w', .other o :: ns', x, ?_, h2, h3, h4, h5, h6, h7, h8, ?_, h10⟩
    · simp [World.initNodes, h1]
    · simp [Node.bare, h9]
  | .poly m pt o :: ns, w, p, r, hc, hr, hn => by
    have hp := hc.lt p r hr
    have hbn : w.body w.n = false := by
      cases hb : w.body w.n with
      | false => rfl
      | true => exact absurd (hc.blt _ hb) (Nat.lt_irrefl _)
    have hln : w.list w.n = none := by
      cases hb : w.list w.n with
      | none => rfl
      | some x => exact absurd (hc.lt _ x hb) (Nat.lt_irrefl _)
    have hroot : Root w w.n := by
      intro c x h1 h2
      have := hc.next c x _ h1 h2
      rw [hln] at this
      cases this
    -- the new element
    have hc1 := hc.newList hroot (Nat.le_succ w.n) (Nat.lt_succ_self w.n) m o (w.orn e * o)
    have hs1 := sameRest_putList w (m.turned (w.orn e * o)) (Nat.le_succ w.n) w.n ⟨m, w.h, o, none⟩
    generalize hw1 : (({ w.alloc (m.turned (w.orn e * o)) with n := w.n.succ } :
      World T β).putList w.n ⟨m, w.h, o, none⟩) = w1 at hc1 hs1
    have l1 : w1.list = put w.list w.n (some ⟨m, w.h, o, none⟩) := by rw [← hw1]; rfl
    have p1 : w1.heap = put w.heap w.h (some (m.turned (w.orn e * o))) := by
      rw [← hw1]
      simp only [World.putList, World.free, World.alloc, hln]
    have n1 : w1.n = w.n + 1 := by
      rw [← hw1]
      simp only [World.putList, World.free, World.alloc, hln]
    have h1 : w1.h = w.h + 1 := by
      rw [← hw1]
      simp only [World.putList, World.free, World.alloc, hln]
    have hr1 : w1.list p = some r := by
      rw [l1, put_ne _ _ (Nat.ne_of_lt hp)]
      exact hr
    have hroot1 : Root w1 w.n := by
      intro c x k1 k2
      rw [l1] at k1
      by_cases k : c = w.n
      · subst k
        simp at k1
        subst k1
        cases k2
      · rw [put_ne _ _ k] at k1
        exact hroot c x k1 k2
    have hc2 := hc1.relink hr1 hp (d := w.n) (by rw [l1]; simp) (by rw [hs1.body]; exact hbn) hroot1
    have l2 : put w1.list p (some { r with next := some w.n }) w.n = some ⟨m, w.h, o, none⟩ := by
      rw [put_ne _ _ (Nat.ne_of_gt hp), l1]
      simp
    obtain ⟨w', ns', x, e1, e2, e3, e4, e5, e6, e7, e8, e9, e10⟩ := initNodes_some e ns
      { w1 with list := put w1.list p (some { r with next := some w.n }) } w.n ⟨m, w.h, o, none⟩
      hc2 l2 rfl
    have hs2 : SameRest w w' := hs1.trans
      ⟨e3.body, e3.kind, e3.idle, e3.pos, e3.orn, e3.shape, e3.box, e3.newPoly, e3.newComp, e3.n, e3.h⟩
    refine ⟨w', .poly m (some w.h) o :: ns', some w.n, ?_, e2, hs2, ?_, ?_, ?_, ?_, ?_, ?_,
      ?_⟩
    · have unf : World.initNodes e w (some p) (.poly m pt o :: ns) =
          (makeRotated m (w.orn e * o)).bind fun a =>
            ((({ w.alloc a with n := w.n.succ } : World T β).putList w.n ⟨m, w.h, o, none⟩).link p
              w.n).bind fun w2 => (World.initNodes e w2 (some w.n) ns).bind fun x =>
                some (x.1, .poly m (some w.h) o :: x.2) := by
        simp only [World.initNodes]
        rfl
      rw [unf, makeRotated_eq, Option.bind_some, hw1]
      simp only [World.link, hr1, Option.bind_some, e1]
    · rw [e5 p (by show p < w1.n; omega) (Nat.ne_of_lt hp)]
      simp
    · intro d hd hdp
      rw [e5 d (by show d < w1.n; omega) (Nat.ne_of_lt hd)]
      show put w1.list p _ d = _
      rw [put_ne _ _ hdp, l1, put_ne _ _ (Nat.ne_of_lt hd)]
    · intro i hi
      rw [e6 i (by show i < w1.h; omega)]
      show w1.heap i = _
      rw [p1, put_ne _ _ (Nat.ne_of_lt hi)]
    · exact ⟨_, e4, rfl, rfl, rfl, e7⟩
    · intro y hy
      rcases List.mem_cons.1 hy with rfl | hy
      · refine ⟨w.h, rfl, ?_⟩
        rw [e6 w.h (by show w.h < w1.h; omega)]
        show w1.heap w.h = _
        rw [p1, put_same]
      · obtain ⟨i, k1, k2⟩ := e8 y hy
        exact ⟨i, k1, by rw [k2]; show some (_ : RMesh T) = _; rw [hs1.orn]⟩
    · simp [Node.bare, e9]
    · intro d hd hsome
      refine ⟨w.n, rfl, ?_⟩
      by_cases k : d = w.n
      · subst k
        exact .refl _
      · obtain ⟨c, k1, k2⟩ := e10 d (by show w1.n ≤ d; omega) hsome
        exact .head e4 k1 k2

/-- What the initializer does for body `e`. -/
structure Inited (e : ℕ) (w w' : World T β) : Prop where
  core : Core w'
  body : w'.body = w.body
  kind : w'.kind = w.kind
  idle : w'.idle = w.idle
  pos : w'.pos = w.pos
  orn : w'.orn = w.orn
  box : w'.box = w.box
  newPoly : w'.newPoly = w.newPoly
  newComp : w'.newComp = w.newComp
  n : w.n ≤ w'.n
  other : ∀ d, d ≠ e → w'.shape d = w.shape d
  bare : (w'.shape e).map Shape.bare = (w.shape e).map Shape.bare
  list : ∀ d, d < w.n → d ≠ e → w'.list d = w.list d
  heap : ∀ i, i < w.h → (∀ r, w.list e = some r → r.rotated ≠ i) → w'.heap i = w.heap i
  linked : ∀ s, w'.shape e = some s → s.parts = [] ∨ Chain w'.list (some e) s.parts
  current : Current w' e
  own : ∀ d, w.n ≤ d → (w'.list d).isSome → Reach w'.list e d

theorem initPoly_some {w w' : World T β} {e : ℕ} (hc : Core w) (he : w.body e = true)
    (h : w.initPoly e = some w') : Inited e w w' := by
  have hlt := hc.blt e he
  cases hs : w.shape e with
  | none => simp [World.initPoly, hs] at h
  | some s =>
    cases s with
    | compound ns => simp [World.initPoly, hs] at h
    | other k => simp [World.initPoly, hs] at h
    | poly m p =>
      have hc1 := hc.newList (hc.root he) le_rfl hlt m 1 (w.orn e)
      have hs1 := sameRest_putList w (m.turned (w.orn e)) le_rfl e ⟨m, w.h, 1, none⟩
      have hw' : w' = { (({ w.alloc (m.turned (w.orn e)) with n := w.n } : World T β).putList e
          ⟨m, w.h, 1, none⟩) with shape := put w.shape e (some (.poly m (some w.h))) } := by
        simp only [World.initPoly, hs, makeRotated_eq] at h
        have := Option.some.inj h
        rw [← this]
        simp only [World.putList, World.free, World.alloc]
        split <;> rfl
      have l1 : w'.list = put w.list e (some ⟨m, w.h, 1, none⟩) := by rw [hw']; rfl
      have p1 : ∀ i, (∀ r, w.list e = some r → r.rotated ≠ i) →
          w'.heap i = put w.heap w.h (some (m.turned (w.orn e))) i := by
        intro i hi
        rw [hw']
        simp only [World.putList, World.free, World.alloc]
        cases hl : w.list e with
        | none => rfl
        | some r => exact put_ne _ _ fun k => hi r hl k.symm
      have pe : w'.heap w.h = some (m.turned (w.orn e)) := by
        rw [p1]
        · simp
        · intro r hr
          have := hc.cell _ r hr
          omega
      have s1 : w'.shape = put w.shape e (some (.poly m (some w.h))) := by rw [hw']
      generalize hw1 : (({ w.alloc (m.turned (w.orn e)) with n := w.n } : World T β).putList e
          ⟨m, w.h, 1, none⟩) = w1 at hc1 hs1 hw'
      have hb : w'.body = w.body := by rw [hw']; exact hs1.body
      have ho : w'.orn = w.orn := by rw [hw']; exact hs1.orn
      have link : Chain w'.list (some e) [⟨m, 1, some w.h⟩] := by
        refine ⟨⟨m, w.h, 1, none⟩, ?_, rfl, rfl, rfl, trivial⟩
        rw [l1, put_same]
      refine ⟨?_, hb, by rw [hw']; exact hs1.kind, by rw [hw']; exact hs1.idle,
        by rw [hw']; exact hs1.pos, ho, by rw [hw']; exact hs1.box, by rw [hw']; exact hs1.newPoly,
        by rw [hw']; exact hs1.newComp, by rw [hw']; exact hs1.n, ?_, ?_, ?_, ?_, ?_, ?_, ?_⟩
      · rw [hw']
        refine ⟨hc1.lt, hc1.cell, hc1.fits, hc1.up, hc1.next, hc1.aux, hc1.inj, hc1.ninj, hc1.blt, ?_⟩
        intro d hd
        have hd' : w.body d = false := by rw [← hs1.body]; exact hd
        show put w.shape e _ d = none
        rw [put_ne]
        · exact hc.shaped d hd'
        · rintro rfl
          rw [he] at hd'
          cases hd'
      · intro d hd
        rw [s1, put_ne _ _ hd]
      · rw [s1, put_same, hs]
        rfl
      · intro d _ hd
        rw [l1, put_ne _ _ hd]
      · intro i hi hr
        rw [p1 i hr, put_ne _ _ (Nat.ne_of_lt hi)]
      · intro s hs'
        rw [s1, put_same] at hs'
        obtain rfl := Option.some.inj hs'
        exact .inr link
      · intro s hs' x hx
        rw [s1, put_same] at hs'
        obtain rfl := Option.some.inj hs'
        obtain rfl : x = ⟨m, 1, some w.h⟩ := by simpa [Shape.parts] using hx
        refine ⟨w.h, rfl, ?_⟩
        rw [pe, ho, mul_one_quat]
      · intro d hd hsome
        rw [l1, put_ne _ _ (by omega : d ≠ e)] at hsome
        obtain ⟨x, hx⟩ := Option.isSome_iff_exists.1 hsome
        have := hc.lt d x hx
        omega

/-- The children of a compound, from the first. -/
theorem initNodes_none (e : ℕ) (w : World T β) (hc : Core w) (he : w.body e = true) :
    ∀ (ns : List (Node T)),
    ∃ w' ns', w.initNodes e none ns = some (w', ns') ∧ Core w' ∧ SameRest w w' ∧
      (∀ d, d < w.n → d ≠ e → w'.list d = w.list d) ∧
      (∀ i, i < w.h → (∀ r, w.list e = some r → r.rotated ≠ i) → w'.heap i = w.heap i) ∧
      (nodeParts ns' = [] ∨ Chain w'.list (some e) (nodeParts ns')) ∧
      (∀ x ∈ nodeParts ns', ∃ i, x.rotated = some i ∧
        w'.heap i = some (x.mesh.turned (w.orn e * x.orn))) ∧
      ns'.map Node.bare = ns.map Node.bare ∧
      (∀ d, w.n ≤ d → (w'.list d).isSome → Reach w'.list e d)
  | [] => by
    refine ⟨w, [], rfl, hc, .refl w, fun _ _ _ => rfl, fun _ _ _ => rfl, .inl rfl, by
      simp [nodeParts], rfl, fun d hd hs => ?_⟩
    obtain ⟨x, hx⟩ := Option.isSome_iff_exists.1 hs
    have := hc.lt d x hx
    omega
  | .other o :: ns => by
    obtain ⟨w', ns', h1, h2, h3, h4, h5, h6, h7, h8, h9⟩ := initNodes_none e w hc he ns
    refine ⟨w', .other o :: ns', ?_, h2, h3, h4, h5, h6, h7, ?_, h9⟩
    · simp [World.initNodes, h1]
    · simp [Node.bare, h8]
  | .poly m pt o :: ns => by
    have hlt := hc.blt e he
    have hc1 := hc.newList (hc.root he) le_rfl hlt m o (w.orn e * o)
    have hs1 := sameRest_putList w (m.turned (w.orn e * o)) le_rfl e ⟨m, w.h, o, none⟩
    generalize hw1 : (({ w.alloc (m.turned (w.orn e * o)) with n := w.n } : World T β).putList e
      ⟨m, w.h, o, none⟩) = w1 at hc1 hs1
    have l1 : w1.list = put w.list e (some ⟨m, w.h, o, none⟩) := by rw [← hw1]; rfl
    have p1 : ∀ i, (∀ r, w.list e = some r → r.rotated ≠ i) →
        w1.heap i = put w.heap w.h (some (m.turned (w.orn e * o))) i := by
      intro i hi
      rw [← hw1]
      simp only [World.putList, World.free, World.alloc]
      cases hl : w.list e with
      | none => rfl
      | some r => exact put_ne _ _ fun k => hi r hl k.symm
    have n1 : w1.n = w.n := by
      rw [← hw1]
      simp only [World.putList, World.free, World.alloc]
      split <;> rfl
    have h1 : w1.h = w.h + 1 := by
      rw [← hw1]
      simp only [World.putList, World.free, World.alloc]
      split <;> rfl
    obtain ⟨w', ns', x, e1, e2, e3, e4, e5, e6, e7, e8, e9, e10⟩ := initNodes_some e ns w1 e
      ⟨m, w.h, o, none⟩ hc1 (by rw [l1]; simp) rfl
    refine ⟨w', .poly m (some w.h) o :: ns', ?_, e2, hs1.trans e3, ?_, ?_, .inr ?_, ?_, ?_, ?_⟩
    · have unf : World.initNodes e w none (.poly m pt o :: ns) =
          (makeRotated m (w.orn e * o)).bind fun a =>
            (World.initNodes e (({ w.alloc a with n := w.n } : World T β).putList e
              ⟨m, w.h, o, none⟩) (some e) ns).bind fun x =>
                some (x.1, .poly m (some w.h) o :: x.2) := by
        simp only [World.initNodes]
        rfl
      rw [unf, makeRotated_eq, Option.bind_some, hw1, e1]
      rfl
    · intro d hd hde
      rw [e5 d (by omega) hde, l1, put_ne _ _ hde]
    · intro i hi hr
      rw [e6 i (by omega), p1 i hr, put_ne _ _ (Nat.ne_of_lt hi)]
    · exact ⟨_, e4, rfl, rfl, rfl, e7⟩
    · intro y hy
      rcases List.mem_cons.1 hy with rfl | hy
      · refine ⟨w.h, rfl, ?_⟩
        rw [e6 w.h (by omega), p1]
        · simp
        · intro r hr
          have := hc.cell _ r hr
          omega
      · obtain ⟨i, k1, k2⟩ := e8 y hy
        exact ⟨i, k1, by rw [k2, hs1.orn]⟩
    · simp [Node.bare, e9]
    · intro d hd hsome
      obtain ⟨c, k1, k2⟩ := e10 d (by omega) hsome
      exact .head e4 k1 k2

theorem initComp_some {w w' : World T β} {e : ℕ} (hc : Core w) (he : w.body e = true)
    (h : w.initComp e = some w') : Inited e w w' := by
  cases hs : w.shape e with
  | none => simp [World.initComp, hs] at h
  | some s =>
    cases s with
    | poly m p => simp [World.initComp, hs] at h
    | other k => simp [World.initComp, hs] at h
    | compound ns =>
      obtain ⟨w1, ns', e1, e2, e3, e4, e5, e6, e7, e8, e9⟩ := initNodes_none e w hc he ns
      have hw' : w' = { w1 with shape := put w1.shape e (some (.compound ns')) } := by
        simp only [World.initComp, hs, e1] at h
        exact (Option.some.inj h).symm
      have s1 : w'.shape = put w.shape e (some (.compound ns')) := by rw [hw', ← e3.shape]
      have ho : w'.orn = w.orn := by rw [hw']; exact e3.orn
      refine ⟨?_, by rw [hw']; exact e3.body, by rw [hw']; exact e3.kind, by rw [hw']; exact e3.idle,
        by rw [hw']; exact e3.pos, ho, by rw [hw']; exact e3.box, by rw [hw']; exact e3.newPoly,
        by rw [hw']; exact e3.newComp, by rw [hw']; exact e3.n, ?_, ?_, ?_, ?_, ?_, ?_, ?_⟩
      · rw [hw']
        refine ⟨e2.lt, e2.cell, e2.fits, e2.up, e2.next, e2.aux, e2.inj, e2.ninj, e2.blt, ?_⟩
        intro d hd
        have hd' : w.body d = false := by rw [← e3.body]; exact hd
        show put w1.shape e _ d = none
        rw [put_ne, e3.shape]
        · exact hc.shaped d hd'
        · rintro rfl
          rw [he] at hd'
          cases hd'
      · intro d hd
        rw [s1, put_ne _ _ hd]
      · rw [s1, put_same, hs]
        simp [Shape.bare, e8]
      · intro d h1 h2
        rw [hw']
        exact e4 d h1 h2
      · intro i h1 h2
        rw [hw']
        exact e5 i h1 h2
      · intro s hs'
        rw [s1, put_same] at hs'
        obtain rfl := Option.some.inj hs'
        rw [hw']
        exact e6
      · intro s hs' x hx
        rw [s1, put_same] at hs'
        obtain rfl := Option.some.inj hs'
        obtain ⟨i, k1, k2⟩ := e7 x hx
        refine ⟨i, k1, ?_⟩
        rw [ho, hw']
        exact k2
      · intro d h1 h2
        rw [hw'] at h2 ⊢
        exact e9 d h1 h2

end Edyn.Poly
