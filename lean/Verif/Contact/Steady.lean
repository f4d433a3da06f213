import Verif.Contact.Warm
import Mathlib.Data.List.Induction

/-!
# Contacts that persist (C33)
-/

namespace Edyn.Contact

open Edyn.Math

variable {T : Type} [Field T] [LinearOrder T] [IsStrictOrderedRing T] {X : Type}

theorem plan1_steady {e : Env T X} {res : List (Pt T X)} : ∀ (l : List (Nat × Dat T X)) (mg : List Nat),
    (l.map fun x => e.near x.2.pt res).Nodup → (∀ x ∈ l, e.near x.2.pt res < res.length ∧ e.near x.2.pt res ∉ mg) →
    (plan1 e res l mg).1 = l.map (fun x => (x.1, ⟨(res[e.near x.2.pt res]?).getD x.2.pt, x.2.life + 1, x.2.imp⟩)) ∧
    (∀ i, i ∈ (plan1 e res l mg).2.1 ↔ i ∈ mg ∨ i ∈ l.map fun x => e.near x.2.pt res) ∧ (plan1 e res l mg).2.2 = [] := by
  intro l
  induction l with
  | nil => intro mg _ _; simp [plan1]
  | cons y l ih =>
    obtain ⟨id, d⟩ := y
    intro mg hn hm
    rw [List.map_cons, List.nodup_cons] at hn
    have h0 := hm (id, d) (by simp)
    simp only at h0
    simp only [plan1]
    rw [if_pos h0, List.getElem?_eq_getElem h0.1]
    simp only
    obtain ⟨i1, i2, i3⟩ := ih (e.near d.pt res :: mg) hn.2 fun x hx => by
      obtain ⟨k1, k2⟩ := hm x (List.mem_cons_of_mem _ hx)
      refine ⟨k1, fun h => ?_⟩
      rcases List.mem_cons.1 h with h | h
      · exact hn.1 (List.mem_map.2 ⟨x, hx, h⟩)
      · exact k2 h
    refine ⟨?_, ?_, i3⟩
    · rw [i1, List.map_cons]
      simp only [merge, tick, List.getElem?_eq_getElem h0.1, Option.getD_some]
    · intro i
      rw [i2 i]
      simp only [List.mem_cons, List.map_cons]
      tauto

theorem plan1_nothing {e : Env T X} : ∀ (l : List (Nat × Dat T X)) (mg : List Nat),
    (plan1 e [] l mg).1 = l.map (fun x => (x.1, ⟨x.2.pt, x.2.life + 1, x.2.imp⟩)) ∧
    (plan1 e [] l mg).2.2 = (l.filter fun x => e.breaks x.2.pt).map Prod.fst := by
  intro l
  induction l with
  | nil => intro mg; simp [plan1]
  | cons y l ih =>
    obtain ⟨id, d⟩ := y
    intro mg
    obtain ⟨i1, i2⟩ := ih mg
    simp only [plan1]
    rw [if_neg (by simp)]
    by_cases hb : e.breaks d.pt = true
    · rw [if_pos hb]
      simp [i1, i2, tick, hb]
    · rw [if_neg hb]
      simp [i1, i2, tick, hb]

theorem After.nothing_made {n : Nat} {a : A T X} {l : List (Nat × Dat T X)} (h : After n a l) (hm : a.made = []) :
    l = a.live := by
  obtain ⟨new, rfl, h2, -⟩ := h
  rw [hm] at h2
  simp at h2
  rw [h2]; rfl

theorem Planned.steady {e : Env T X} {res : List (Pt T X)} {l : List (Nat × Dat T X)} {a : A T X}
    (hp : Planned e res l a) (hn : (l.map fun x => e.near x.2.pt res).Nodup)
    (hl : ∀ x ∈ l, e.near x.2.pt res < res.length) (hlen : res.length ≤ l.length) :
    a.made = [] ∧
    a.live = l.map (fun x => (x.1, ⟨(res[e.near x.2.pt res]?).getD x.2.pt, x.2.life + 1, x.2.imp⟩)) := by
  obtain ⟨h1, h2, h3⟩ := plan1_steady l [] hn fun x hx => ⟨hl x hx, by simp⟩
  have hall : ∀ i < res.length, i ∈ (plan1 e res l []).2.1 := by
    intro i hi
    rw [h2 i]
    right
    have hsub : (l.map fun x => e.near x.2.pt res).Subperm (List.range res.length) := by
      apply List.subperm_of_subset hn
      intro j hj
      obtain ⟨x, hx, rfl⟩ := List.mem_map.1 hj
      exact List.mem_range.2 (hl x hx)
    have := hsub.perm_of_length_le (by simpa using hlen)
    exact this.mem_iff.2 (List.mem_range.2 hi)
  cases hp.unique (.early hall)
  refine ⟨rfl, ?_⟩
  rw [h3, live_of_nil, h1]

theorem Planned.nothing {e : Env T X} {l : List (Nat × Dat T X)} {a : A T X} (hn : (l.map Prod.fst).Nodup)
    (hp : Planned e [] l a) : a.made = [] ∧
    a.live = (l.filter fun x => !e.breaks x.2.pt).map (fun x => (x.1, ⟨x.2.pt, x.2.life + 1, x.2.imp⟩)) := by
  obtain ⟨h1, h2⟩ := plan1_nothing (e := e) l []
  cases hp.unique (.early (by simp))
  refine ⟨rfl, ?_⟩
  simp only [A.live, h1, h2]
  rw [List.filter_map]
  congr 1
  apply List.filter_congr
  intro x hx
  simp only [Function.comp]
  cases hb : e.breaks x.2.pt
  · simp only [Bool.not_false, decide_eq_true_eq]
    intro hy
    obtain ⟨y, hy, ey⟩ := List.mem_map.1 hy
    rw [List.mem_filter] at hy
    have : y = x := List.inj_on_of_nodup_map hn hy.1 hx ey
    rw [this, hb] at hy
    cases hy.2
  · simp only [Bool.not_true, decide_eq_false_iff_not, not_not]
    exact List.mem_map.2 ⟨x, List.mem_filter.2 ⟨hx, hb⟩, rfl⟩

/-! The number of points. -/

theorem live_length_gone {a : A T X} {i : Nat} {md : List (Pt T X)} (hn : (a.l.map Prod.fst).Nodup) :
    a.live.length ≤ ({ a with gone := a.gone ++ [i], made := md } : A T X).live.length + 1 := by
  rw [live_gone]
  have hd : (a.live.map Prod.fst).Nodup := List.Nodup.sublist ((List.filter_sublist).map _) hn
  by_cases h : i ∈ a.live.map Prod.fst
  · obtain ⟨x, hx, rfl⟩ := List.mem_map.1 h
    have := rmList_length hd (id := x.1) (d := x.2) hx
    omega
  · have : rmList i a.live = a.live := by
      simp only [rmList]
      rw [List.filter_eq_self]
      intro y hy
      simp only [decide_eq_true_eq]
      exact fun e => h (List.mem_map.2 ⟨y, hy, e⟩)
    rw [this]; omega

theorem planLocals_count : ∀ (ls : List (Local T X)) (a : A T X), (a.l.map Prod.fst).Nodup →
    a.live.length + a.made.length ≤ (planLocals ls a).live.length + (planLocals ls a).made.length := by
  intro ls
  induction ls with
  | nil => intro a _; exact le_refl _
  | cons l ls ih =>
    intro a hn
    simp only [planLocals]
    cases hk : l.kind with
    | none => simp only [planLocal, hk]; exact ih a hn
    | append =>
      simp only [planLocal, hk]
      refine le_trans ?_ (ih _ hn)
      simp [A.live]
    | similar =>
      cases hid : l.id with
      | none =>
        simp only [planLocal, hk, hid]
        refine le_trans ?_ (ih _ hn)
        simp [A.live]
      | some i =>
        simp only [planLocal, hk, hid]
        refine le_trans ?_ (ih _ ?_)
        · rw [live_modify]; simp [modList]
        · simp only [modList, List.map_map]
          rw [show (Prod.fst ∘ fun x : Nat × Dat T X => if x.1 = i then (x.1, merge l.pt x.2) else x) = Prod.fst from by
            funext x; simp only [Function.comp]; split <;> rfl]
          exact hn
    | replace =>
      cases hid : l.id with
      | none =>
        simp only [planLocal, hk, hid]
        refine le_trans ?_ (ih _ hn)
        simp [A.live]
      | some i =>
        simp only [planLocal, hk, hid]
        refine le_trans ?_ (ih _ hn)
        have := live_length_gone (a := a) (i := i) (md := a.made ++ [l.pt]) hn
        simp only [List.length_append, List.length_singleton]
        omega

theorem plan1_gone_length {e : Env T X} {res : List (Pt T X)} : ∀ (l : List (Nat × Dat T X)) (mg : List Nat),
    (plan1 e res l mg).2.2.length ≤ (l.filter fun x => e.breaks x.2.pt).length := by
  intro l
  induction l with
  | nil => intro mg; simp [plan1]
  | cons y l ih =>
    obtain ⟨id, d⟩ := y
    intro mg
    simp only [plan1]
    by_cases h : e.near d.pt res < res.length ∧ e.near d.pt res ∉ mg
    · rw [if_pos h, List.getElem?_eq_getElem h.1]
      simp only
      refine le_trans (ih _) ?_
      rw [List.filter_cons]; split <;> simp
    · rw [if_neg h]
      by_cases hb : e.breaks d.pt = true
      · rw [if_pos hb, List.filter_cons, if_pos hb]
        simp only [List.length_cons]
        exact Nat.succ_le_succ (ih mg)
      · rw [if_neg hb, List.filter_cons, if_neg hb]
        exact ih mg

theorem live_length {l : List (Nat × Dat T X)} (hn : (l.map Prod.fst).Nodup) : ∀ (g : List Nat),
    l.length ≤ (⟨l, [], g⟩ : A T X).live.length + g.length := by
  intro g
  induction g using List.reverseRecOn with
  | nil => simp [A.live]
  | append_singleton g i ih =>
    have := live_length_gone (a := ⟨l, [], g⟩) (i := i) (md := []) hn
    simp only [List.length_append, List.length_singleton]
    simp only at this
    omega

theorem Planned.count {e : Env T X} {res : List (Pt T X)} {l : List (Nat × Dat T X)} {a : A T X}
    (hp : Planned e res l a) (hn : (l.map Prod.fst).Nodup) :
    l.length ≤ a.live.length + a.made.length + (l.filter fun x => e.breaks x.2.pt).length := by
  have hids := (plan1_ids e res l []).1
  have h1 := live_length (l := (plan1 e res l []).1) (by rw [hids]; exact hn) (plan1 e res l []).2.2
  have h2 := plan1_gone_length (e := e) (res := res) l []
  have h3 : (plan1 e res l []).1.length = l.length := by
    have := congrArg List.length hids
    simpa using this
  cases hp with
  | early _ => simp only [List.length_nil]; omega
  | some ls _ _ _ =>
    have := planLocals_count ls ⟨(plan1 e res l []).1, [], (plan1 e res l []).2.2⟩ (by rw [hids]; exact hn)
    simp only [List.length_nil] at this
    omega
  | none p ps ls _ _ _ _ =>
    have := planLocals_count ls ⟨(plan1 e res l []).1, [], (plan1 e res l []).2.2⟩ (by rw [hids]; exact hn)
    simp only [List.length_nil] at this
    omega

/-! ### Both versions of the narrowphase -/

/-- A step of the narrowphase that handles the manifolds `ms`, in one thread or in several. -/
def Narrow (e : Nat → Env T X) (res : Nat → List (Pt T X)) (ms : List Nat) (r r' : Reg (Dat T X)) : Prop :=
  seqStep e res ms r = some r' ∨ ∃ order : List Nat, order.Perm ms ∧ parStep e res order ms r = some r'

theorem Narrow.planned {r r' : Reg (Dat T X)} {f f' : Nat → List (Nat × Dat T X)} (h : Reach r) (H : Lists r f)
    {e : Nat → Env T X} {res : Nat → List (Pt T X)} {ms : List Nat} (hn : ms.Nodup) (hm : ∀ m ∈ ms, r.man m ≠ none)
    (hs : Narrow e res ms r r') (H' : Lists r' f') :
    ∀ m ∈ ms, ∃ a, Planned (e m) (res m) (f m) a ∧ After r.nextId a (f' m) := by
  obtain ⟨g, Hg, h4⟩ := contact_lists h
  rw [Hg.eq H] at h4
  rcases hs with hs | ⟨order, hp, hs⟩
  · obtain ⟨r1, f1, h1, h2, -, -, -, h6⟩ := seqStep_spec e res ms r f H hn fun m hmm => ⟨hm m hmm, h4 m⟩
    rw [hs] at h1
    cases h1
    cases h2.eq H'
    exact fun m hmm => (h6 m hmm).1
  · obtain ⟨r1, f1, h1, h2, -, -, -, h6⟩ := parStep_spec e res H hn hp fun m hmm => ⟨hm m hmm, h4 m⟩
    rw [hs] at h1
    cases h1
    cases h2.eq H'
    intro m hmm
    obtain ⟨a, k1, k2, -⟩ := h6 m hmm
    exact ⟨a, k1, k2⟩

/-- A contact that persists: when the nearest points of the result to the points of the manifold are
different ones and no others are in the result, then the manifold has the same contact points in the same
order, with the new geometry, the impulses they had, and an age increased by one. -/
theorem persistent_contact {r r' : Reg (Dat T X)} {f f' : Nat → List (Nat × Dat T X)} (h : Reach r) (H : Lists r f)
    {e : Nat → Env T X} {res : Nat → List (Pt T X)} {ms : List Nat} (hn : ms.Nodup) (hm : ∀ m ∈ ms, r.man m ≠ none)
    (hs : Narrow e res ms r r') (H' : Lists r' f') {m : Nat} (hmm : m ∈ ms)
    (hd : ((f m).map fun x => (e m).near x.2.pt (res m)).Nodup)
    (hl : ∀ x ∈ f m, (e m).near x.2.pt (res m) < (res m).length) (hlen : (res m).length ≤ (f m).length) :
    f' m = (f m).map fun x =>
      (x.1, ⟨((res m)[(e m).near x.2.pt (res m)]?).getD x.2.pt, x.2.life + 1, x.2.imp⟩) := by
  obtain ⟨a, h1, h2⟩ := hs.planned h H hn hm H' m hmm
  obtain ⟨h3, h4⟩ := h1.steady hd hl hlen
  rw [h2.nothing_made h3, h4]

/-- When the shapes are not in contact any more, the points whose relative displacement is too large are
removed, and the others stay as they are. -/
theorem no_contact {r r' : Reg (Dat T X)} {f f' : Nat → List (Nat × Dat T X)} (h : Reach r) (H : Lists r f)
    {e : Nat → Env T X} {res : Nat → List (Pt T X)} {ms : List Nat} (hn : ms.Nodup) (hm : ∀ m ∈ ms, r.man m ≠ none)
    (hs : Narrow e res ms r r') (H' : Lists r' f') {m : Nat} (hmm : m ∈ ms) (hres : res m = []) :
    f' m = ((f m).filter fun x => !(e m).breaks x.2.pt).map fun x => (x.1, ⟨x.2.pt, x.2.life + 1, x.2.imp⟩) := by
  obtain ⟨a, h1, h2⟩ := hs.planned h H hn hm H' m hmm
  rw [hres] at h1
  obtain ⟨h3, h4⟩ := h1.nothing (H.nodup m)
  rw [h2.nothing_made h3, h4]

/-- A manifold loses no more points than are too far displaced: a new point takes the place of every other
one that is removed. -/
theorem points_not_lost {r r' : Reg (Dat T X)} {f f' : Nat → List (Nat × Dat T X)} (h : Reach r) (H : Lists r f)
    {e : Nat → Env T X} {res : Nat → List (Pt T X)} {ms : List Nat} (hn : ms.Nodup) (hm : ∀ m ∈ ms, r.man m ≠ none)
    (hs : Narrow e res ms r r') (H' : Lists r' f') {m : Nat} (hmm : m ∈ ms) :
    (f m).length ≤ (f' m).length + ((f m).filter fun x => (e m).breaks x.2.pt).length := by
  obtain ⟨a, h1, h2⟩ := hs.planned h H hn hm H' m hmm
  rw [h2.length]
  exact h1.count (H.nodup m)

end Edyn.Contact
