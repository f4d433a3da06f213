import Verif.Contact.Process
import Mathlib.Data.Multiset.AddSub
import Mathlib.Algebra.Order.Group.Multiset
import Mathlib.Tactic.Abel

/-!
# What processing a collision result does to the points of a manifold (C33)
-/

namespace Edyn.Contact

open Edyn.Math

variable {T : Type} [Field T] [LinearOrder T] [IsStrictOrderedRing T] {X : Type}

/-- What may become of an old contact point: one step older, with its impulses, and either unchanged and
not separating, or updated from a point of the result. -/
def Kept (e : Env T X) (res : List (Pt T X)) (l : List (Nat × Dat T X)) (x : Nat × Dat T X) : Prop :=
  ∃ d, (x.1, d) ∈ l ∧ x.2.life = d.life + 1 ∧ x.2.imp = d.imp ∧
    (x.2.pt = d.pt ∧ e.breaks d.pt = false ∨ x.2.pt ∈ res)

theorem plan1_facts (e : Env T X) (res : List (Pt T X)) : ∀ (l : List (Nat × Dat T X)) (mg : List Nat),
    ∀ x ∈ (plan1 e res l mg).1, x.1 ∉ (plan1 e res l mg).2.2 → Kept e res l x := by
  intro l
  induction l with
  | nil => intro mg x hx; simp [plan1] at hx
  | cons y l ih =>
    obtain ⟨id, d⟩ := y
    intro mg
    have up : ∀ {x : Nat × Dat T X}, Kept e res l x → Kept e res ((id, d) :: l) x := by
      rintro x ⟨d', h1, h2⟩
      exact ⟨d', List.mem_cons_of_mem _ h1, h2⟩
    simp only [plan1]
    by_cases h : e.near d.pt res < res.length ∧ e.near d.pt res ∉ mg
    · rw [if_pos h, List.getElem?_eq_getElem h.1]
      intro x hx hg
      rcases List.mem_cons.1 hx with rfl | hx
      · exact ⟨d, by simp, rfl, rfl, Or.inr (List.getElem_mem h.1)⟩
      · exact up (ih _ x hx hg)
    · rw [if_neg h]
      by_cases hb : e.breaks d.pt = true
      · rw [if_pos hb]
        intro x hx hg
        simp only [List.mem_cons, not_or] at hg
        rcases List.mem_cons.1 hx with rfl | hx
        · exact absurd rfl hg.1
        · exact up (ih _ x hx hg.2)
      · rw [if_neg hb]
        intro x hx hg
        rcases List.mem_cons.1 hx with rfl | hx
        · exact ⟨d, by simp, rfl, rfl, Or.inl ⟨rfl, by simpa using hb⟩⟩
        · exact up (ih _ x hx hg)

/-- A local point that is marked carries a point of the result. -/
def Marked (res : List (Pt T X)) (ls : List (Local T X)) : Prop := ∀ l ∈ ls, l.kind ≠ .none → l.pt ∈ res

theorem place_marked {c : Consts T} {res : List (Pt T X)} {ls ls' : List (Local T X)} {p : Pt T X}
    (h : Marked res ls) (hp : p ∈ res) (hl : place c ls p = some ls') : Marked res ls' := by
  have happ : ∀ {ls'}, (if ls.length < 4 then some (ls ++ [({ pt := p, kind := .append } : Local T X)]) else none) =
      some ls' → Marked res ls' := by
    intro ls' h'
    by_cases hc : ls.length < 4
    · rw [if_pos hc] at h'
      simp only [Option.some.injEq] at h'
      subst h'
      intro l hl hk
      rcases List.mem_append.1 hl with hl | hl
      · exact h l hl hk
      · simp at hl; subst hl; exact hp
    · rw [if_neg hc] at h'; cases h'
  have hmod : ∀ {ls'} {i : Nat} {k : Kind},
      (if i < ls.length then some (ls.modify i fun l => { l with pt := p, kind := k }) else none) =
      some ls' → Marked res ls' := by
    intro ls' i k h'
    by_cases hc : i < ls.length
    · rw [if_pos hc] at h'
      simp only [Option.some.injEq] at h'
      subst h'
      intro l hl hk
      rcases mem_modify hl with hl | ⟨y, hy, rfl⟩
      · exact h l hl hk
      · exact hp
    · rw [if_neg hc] at h'; cases h'
  unfold place at hl
  cases ha : insertionPoint c (ls.map fun l => l.pt.pA) p.pA with
  | append => rw [ha] at hl; exact happ hl
  | similar i => rw [ha] at hl; exact hmod hl
  | replace i => rw [ha] at hl; exact hmod hl
  | none =>
    rw [ha] at hl
    simp only at hl
    cases hb : insertionPoint c (ls.map fun l => l.pt.pB) p.pB with
    | append => rw [hb] at hl; exact happ hl
    | similar i => rw [hb] at hl; exact hmod hl
    | replace i => rw [hb] at hl; exact hmod hl
    | none => rw [hb] at hl; cases hl; exact h

theorem place_old {c : Consts T} {P : Local T X → Prop} {ls ls' : List (Local T X)} {p : Pt T X}
    (h : ∀ l ∈ ls, l.kind = .none → P l) (hl : place c ls p = some ls') : ∀ l ∈ ls', l.kind = .none → P l := by
  have happ : ∀ {ls'}, (if ls.length < 4 then some (ls ++ [({ pt := p, kind := .append } : Local T X)]) else none) =
      some ls' → ∀ l ∈ ls', l.kind = .none → P l := by
    intro ls' h'
    by_cases hc : ls.length < 4
    · rw [if_pos hc] at h'
      simp only [Option.some.injEq] at h'
      subst h'
      intro l hl hk
      rcases List.mem_append.1 hl with hl | hl
      · exact h l hl hk
      · simp at hl; subst hl; cases hk
    · rw [if_neg hc] at h'; cases h'
  have hmod : ∀ {ls'} {i : Nat} {k : Kind}, k ≠ .none →
      (if i < ls.length then some (ls.modify i fun l => { l with pt := p, kind := k }) else none) =
      some ls' → ∀ l ∈ ls', l.kind = .none → P l := by
    intro ls' i k hne h'
    by_cases hc : i < ls.length
    · rw [if_pos hc] at h'
      simp only [Option.some.injEq] at h'
      subst h'
      intro l hl hk
      rcases mem_modify hl with hl | ⟨y, hy, rfl⟩
      · exact h l hl hk
      · exact absurd hk hne
    · rw [if_neg hc] at h'; cases h'
  unfold place at hl
  cases ha : insertionPoint c (ls.map fun l => l.pt.pA) p.pA with
  | append => rw [ha] at hl; exact happ hl
  | similar i => rw [ha] at hl; exact hmod (by decide) hl
  | replace i => rw [ha] at hl; exact hmod (by decide) hl
  | none =>
    rw [ha] at hl
    simp only at hl
    cases hb : insertionPoint c (ls.map fun l => l.pt.pB) p.pB with
    | append => rw [hb] at hl; exact happ hl
    | similar i => rw [hb] at hl; exact hmod (by decide) hl
    | replace i => rw [hb] at hl; exact hmod (by decide) hl
    | none => rw [hb] at hl; cases hl; exact h

theorem placeAll_marked {c : Consts T} {res : List (Pt T X)} {mg : List Nat} : ∀ (ps : List (Pt T X)) (i : Nat)
    (ls ls' : List (Local T X)), Marked res ls → (∀ p ∈ ps, p ∈ res) → placeAll c mg ps i ls = some ls' →
    Marked res ls' := by
  intro ps
  induction ps with
  | nil => intro i ls ls' h _ hl; cases hl; exact h
  | cons p ps ih =>
    intro i ls ls' h hp hl
    simp only [placeAll] at hl
    by_cases hm : i ∈ mg
    · rw [if_pos hm] at hl
      exact ih (i + 1) ls ls' h (fun q hq => hp q (by simp [hq])) hl
    · rw [if_neg hm] at hl
      cases h1 : place c ls p with
      | none => rw [h1] at hl; cases hl
      | some l1 =>
        rw [h1] at hl
        exact ih (i + 1) l1 ls' (place_marked h (hp p (by simp)) h1) (fun q hq => hp q (by simp [hq])) hl

/-- A local point that is not marked is an old point. -/
theorem placeAll_old {c : Consts T} {mg : List Nat} {P : Local T X → Prop} : ∀ (ps : List (Pt T X)) (i : Nat)
    (ls ls' : List (Local T X)), (∀ l ∈ ls, l.kind = .none → P l) → placeAll c mg ps i ls = some ls' →
    ∀ l ∈ ls', l.kind = .none → P l := by
  intro ps
  induction ps with
  | nil => intro i ls ls' h hl; cases hl; exact h
  | cons p ps ih =>
    intro i ls ls' h hl
    simp only [placeAll] at hl
    by_cases hm : i ∈ mg
    · rw [if_pos hm] at hl
      exact ih (i + 1) ls ls' h hl
    · rw [if_neg hm] at hl
      cases h1 : place c ls p with
      | none => rw [h1] at hl; cases hl
      | some l1 =>
        rw [h1] at hl
        exact ih (i + 1) l1 ls' (place_old h h1) hl

theorem planLocals_facts {e : Env T X} {res : List (Pt T X)} {l₀ : List (Nat × Dat T X)} :
    ∀ (ls : List (Local T X)) (a : A T X), Marked res ls → (∀ x ∈ a.live, Kept e res l₀ x) →
    (∀ p ∈ a.made, p ∈ res) →
    (∀ x ∈ (planLocals ls a).live, Kept e res l₀ x) ∧ ∀ p ∈ (planLocals ls a).made, p ∈ res := by
  intro ls
  induction ls with
  | nil => intro a _ h1 h2; exact ⟨h1, h2⟩
  | cons l ls ih =>
    intro a hm h1 h2
    have hm' : Marked res ls := fun x hx => hm x (by simp [hx])
    have hnew : l.kind ≠ .none → ∀ p ∈ a.made ++ [l.pt], p ∈ res := by
      intro hk p hp
      rcases List.mem_append.1 hp with hp | hp
      · exact h2 p hp
      · simp at hp; subst hp; exact hm l (by simp) hk
    simp only [planLocals]
    cases hk : l.kind with
    | none => simp only [planLocal, hk]; exact ih a hm' h1 h2
    | append => simp only [planLocal, hk]; exact ih _ hm' h1 (hnew (by simp [hk]))
    | similar =>
      cases hid : l.id with
      | none => simp only [planLocal, hk, hid]; exact ih _ hm' h1 (hnew (by simp [hk]))
      | some i =>
        simp only [planLocal, hk, hid]
        refine ih _ hm' ?_ h2
        intro x hx
        rw [live_modify] at hx
        obtain ⟨y, hy, rfl⟩ := List.mem_map.1 hx
        obtain ⟨d, q1, q2, q3, q4⟩ := h1 y hy
        by_cases hi : y.1 = i
        · rw [if_pos hi]
          exact ⟨d, q1, q2, q3, Or.inr (hm l (by simp) (by simp [hk]))⟩
        · rw [if_neg hi]
          exact ⟨d, q1, q2, q3, q4⟩
    | replace =>
      cases hid : l.id with
      | none => simp only [planLocal, hk, hid]; exact ih _ hm' h1 (hnew (by simp [hk]))
      | some i =>
        simp only [planLocal, hk, hid]
        refine ih _ hm' ?_ (hnew (by simp [hk]))
        intro x hx
        rw [live_gone] at hx
        exact h1 x (List.mem_of_mem_filter hx)

/-- What is left of the old points, and what the new ones are made from. -/
theorem Planned.facts {e : Env T X} {res : List (Pt T X)} {l : List (Nat × Dat T X)} {a : A T X}
    (h : Planned e res l a) : (∀ x ∈ a.live, Kept e res l x) ∧ ∀ p ∈ a.made, p ∈ res := by
  have h0 : ∀ x ∈ (⟨(plan1 e res l []).1, [], (plan1 e res l []).2.2⟩ : A T X).live, Kept e res l x := by
    intro x hx
    obtain ⟨h1, h2⟩ := A.mem_live.1 hx
    exact plan1_facts e res l [] x h1 h2
  cases h with
  | early _ => exact ⟨h0, by simp⟩
  | some ls _ _ hp =>
    refine planLocals_facts ls _ (placeAll_marked res 0 _ ls ?_ (fun _ h => h) hp) h0 (by simp)
    intro x hx hk
    obtain ⟨y, -, rfl⟩ := List.mem_map.1 hx
    exact absurd rfl hk
  | none p ps ls _ _ hr hp =>
    refine planLocals_facts ls _ (placeAll_marked res 0 _ ls ?_ (fun _ h => h) hp) h0 (by simp)
    intro x hx hk
    simp at hx
    subst hx
    simp [hr]

/-! ### No point is used twice -/

/-- The elements of a list, from index `i` on, that are not marked as merged. -/
def unused {α : Type} (mg : List Nat) : List α → Nat → List α
  | [], _ => []
  | p :: ps, i => if i ∈ mg then unused mg ps (i + 1) else p :: unused mg ps (i + 1)

theorem unused_cons_lt {α : Type} (mg : List Nat) (k : Nat) : ∀ (ps : List α) (i : Nat), k < i →
    unused (k :: mg) ps i = unused mg ps i := by
  intro ps
  induction ps with
  | nil => intro i _; rfl
  | cons p ps ih =>
    intro i h
    simp only [unused, List.mem_cons, show ¬ i = k by omega, false_or, ih (i + 1) (by omega)]

theorem unused_nil {α : Type} : ∀ (ps : List α) (i : Nat), unused [] ps i = ps := by
  intro ps
  induction ps with
  | nil => intro i; rfl
  | cons p ps ih => intro i; simp [unused, ih]

theorem unused_perm {α : Type} (mg : List Nat) : ∀ (ps : List α) (i k : Nat) (h : k < ps.length), i + k ∉ mg →
    ((unused mg ps i : List α) : Multiset α) = (ps[k] ::ₘ (unused ((i + k) :: mg) ps i : List α)) := by
  intro ps
  induction ps with
  | nil => intro i k h; simp at h
  | cons p ps ih =>
    intro i k h hn
    cases k with
    | zero =>
      rw [Nat.add_zero] at hn ⊢
      simp only [unused, if_neg hn, List.mem_cons, true_or, if_true, List.getElem_cons_zero]
      rw [unused_cons_lt mg i ps (i + 1) (by omega)]
      rfl
    | succ k =>
      have hk : k < ps.length := by simpa using h
      have e := ih (i + 1) k hk (by rwa [show i + 1 + k = i + (k + 1) by omega])
      rw [show i + 1 + k = i + (k + 1) by omega] at e
      simp only [unused, List.mem_cons, show ¬ i = i + (k + 1) by omega, false_or, List.getElem_cons_succ]
      by_cases hm : i ∈ mg
      · rw [if_pos hm, if_pos hm]; exact e
      · rw [if_neg hm, if_neg hm, ← Multiset.cons_coe, ← Multiset.cons_coe, e]
        exact Multiset.cons_swap _ _ _

/-- The geometry of contact points, as a multiset. -/
def pts (l : List (Nat × Dat T X)) : Multiset (Pt T X) := (l.map fun x => x.2.pt : List (Pt T X))

theorem pts_cons (x : Nat × Dat T X) (l : List (Nat × Dat T X)) : pts (x :: l) = {x.2.pt} + pts l := by
  simp [pts, ← Multiset.cons_coe]

theorem plan1_pts (e : Env T X) (res : List (Pt T X)) : ∀ (l : List (Nat × Dat T X)) (mg : List Nat),
    pts (plan1 e res l mg).1 + (unused (plan1 e res l mg).2.1 res 0 : List (Pt T X)) ≤
      pts l + (unused mg res 0 : List (Pt T X)) := by
  intro l
  induction l with
  | nil => intro mg; simp [plan1]
  | cons y l ih =>
    obtain ⟨id, d⟩ := y
    intro mg
    simp only [plan1]
    by_cases h : e.near d.pt res < res.length ∧ e.near d.pt res ∉ mg
    · rw [if_pos h, List.getElem?_eq_getElem h.1]
      simp only [pts_cons]
      have hu := unused_perm mg res 0 (e.near d.pt res) h.1 (by simpa using h.2)
      rw [Nat.zero_add] at hu
      rw [hu]
      have := ih (e.near d.pt res :: mg)
      show {res[e.near d.pt res]} + _ + _ ≤ {d.pt} + _ + _
      rw [← Multiset.singleton_add]
      calc _ = {res[e.near d.pt res]} + (pts (plan1 e res l (e.near d.pt res :: mg)).1 +
              (unused (plan1 e res l (e.near d.pt res :: mg)).2.1 res 0 : List (Pt T X))) := by abel
        _ ≤ {res[e.near d.pt res]} + (pts l + (unused (e.near d.pt res :: mg) res 0 : List (Pt T X))) :=
            add_le_add_right this _
        _ ≤ {d.pt} + ({res[e.near d.pt res]} + (pts l + (unused (e.near d.pt res :: mg) res 0 : List (Pt T X)))) :=
            Multiset.le_add_left _ _
        _ = _ := by abel
    · rw [if_neg h]
      have : {d.pt} + (pts (plan1 e res l mg).1 + (unused (plan1 e res l mg).2.1 res 0 : List (Pt T X))) ≤
          {d.pt} + (pts l + (unused mg res 0 : List (Pt T X))) := add_le_add_right (ih mg) _
      by_cases hb : e.breaks d.pt = true
      · rw [if_pos hb]
        simp only [pts_cons]
        rw [add_assoc, add_assoc]; exact this
      · rw [if_neg hb]
        simp only [pts_cons]
        rw [add_assoc, add_assoc]; exact this

/-- The geometry of local points. -/
def lpts (ls : List (Local T X)) : Multiset (Pt T X) := (ls.map Local.pt : List (Pt T X))

theorem lpts_cons (x : Local T X) (l : List (Local T X)) : lpts (x :: l) = {x.pt} + lpts l := by
  simp [lpts, ← Multiset.cons_coe]

theorem lpts_modify (p : Pt T X) (k : Kind) : ∀ (ls : List (Local T X)) (i : Nat),
    lpts (ls.modify i fun l => { l with pt := p, kind := k }) ≤ {p} + lpts ls := by
  intro ls
  induction ls with
  | nil => intro i; simp [lpts]
  | cons a ls ih =>
    intro i
    cases i with
    | zero =>
      simp only [List.modify_zero_cons, lpts_cons]
      exact add_le_add_right (Multiset.le_add_left _ _) _
    | succ i =>
      simp only [List.modify_succ_cons, lpts_cons]
      calc {a.pt} + lpts (ls.modify i fun l => { l with pt := p, kind := k }) ≤ {a.pt} + ({p} + lpts ls) :=
            add_le_add_right (ih i) _
        _ = _ := by abel

theorem place_pts {c : Consts T} {ls ls' : List (Local T X)} {p : Pt T X} (hl : place c ls p = some ls') :
    lpts ls' ≤ {p} + lpts ls := by
  have happ : ∀ {ls'}, (if ls.length < 4 then some (ls ++ [({ pt := p, kind := .append } : Local T X)]) else none) =
      some ls' → lpts ls' ≤ {p} + lpts ls := by
    intro ls' h'
    by_cases hc : ls.length < 4
    · rw [if_pos hc] at h'
      simp only [Option.some.injEq] at h'
      subst h'
      simp only [lpts, List.map_append, List.map_cons, List.map_nil, ← Multiset.coe_add]
      rw [add_comm]
      exact le_refl _
    · rw [if_neg hc] at h'; cases h'
  have hmod : ∀ {ls'} {i : Nat} {k : Kind},
      (if i < ls.length then some (ls.modify i fun l => { l with pt := p, kind := k }) else none) =
      some ls' → lpts ls' ≤ {p} + lpts ls := by
    intro ls' i k h'
    by_cases hc : i < ls.length
    · rw [if_pos hc] at h'
      simp only [Option.some.injEq] at h'
      subst h'
      exact lpts_modify p k ls i
    · rw [if_neg hc] at h'; cases h'
  unfold place at hl
  cases ha : insertionPoint c (ls.map fun l => l.pt.pA) p.pA with
  | append => rw [ha] at hl; exact happ hl
  | similar i => rw [ha] at hl; exact hmod hl
  | replace i => rw [ha] at hl; exact hmod hl
  | none =>
    rw [ha] at hl
    simp only at hl
    cases hb : insertionPoint c (ls.map fun l => l.pt.pB) p.pB with
    | append => rw [hb] at hl; exact happ hl
    | similar i => rw [hb] at hl; exact hmod hl
    | replace i => rw [hb] at hl; exact hmod hl
    | none => rw [hb] at hl; cases hl; exact Multiset.le_add_left _ _

theorem placeAll_pts {c : Consts T} {mg : List Nat} : ∀ (ps : List (Pt T X)) (i : Nat)
    (ls ls' : List (Local T X)), placeAll c mg ps i ls = some ls' →
    lpts ls' ≤ (unused mg ps i : List (Pt T X)) + lpts ls := by
  intro ps
  induction ps with
  | nil => intro i ls ls' hl; cases hl; simp [unused]
  | cons p ps ih =>
    intro i ls ls' hl
    simp only [placeAll] at hl
    by_cases hm : i ∈ mg
    · rw [if_pos hm] at hl
      simp only [unused, if_pos hm]
      exact ih (i + 1) ls ls' hl
    · rw [if_neg hm] at hl
      simp only [unused, if_neg hm]
      cases h1 : place c ls p with
      | none => rw [h1] at hl; cases hl
      | some l1 =>
        rw [h1] at hl
        rw [← Multiset.cons_coe, ← Multiset.singleton_add]
        calc lpts ls' ≤ (unused mg ps (i + 1) : List (Pt T X)) + lpts l1 := ih (i + 1) l1 ls' hl
          _ ≤ (unused mg ps (i + 1) : List (Pt T X)) + ({p} + lpts ls) := add_le_add_right (place_pts h1) _
          _ = _ := by abel

/-- The points whose identifier is not in a list. -/
def others (ids : List Nat) (l : List (Nat × Dat T X)) : List (Nat × Dat T X) :=
  l.filter fun x => decide (x.1 ∉ ids)

theorem others_cons {ids : List Nat} {i : Nat} {d : Dat T X} (hi : i ∉ ids) :
    ∀ {l : List (Nat × Dat T X)}, (l.map Prod.fst).Nodup → (i, d) ∈ l →
    pts (others ids l) = {d.pt} + pts (others (i :: ids) l) := by
  intro l
  induction l with
  | nil => intro _ h; cases h
  | cons x l ih =>
    intro hn h
    simp only [List.map_cons, List.nodup_cons] at hn
    by_cases e : x.1 = i
    · have hx : x = (i, d) := by
        rcases List.mem_cons.1 h with h | h
        · exact h.symm
        · exact absurd (List.mem_map.2 ⟨_, h, e.symm⟩) hn.1
      subst hx
      have h1 : others ids ((i, d) :: l) = (i, d) :: others ids l := by simp [others, hi]
      have h2 : others (i :: ids) ((i, d) :: l) = others ids l := by
        simp only [others]
        rw [List.filter_cons_of_neg (by simp)]
        apply List.filter_congr
        intro y hy
        have : y.1 ≠ i := fun e => hn.1 (List.mem_map.2 ⟨y, hy, e⟩)
        simp [this]
      rw [h1, h2, pts_cons]
    · have h' : (i, d) ∈ l := by
        rcases List.mem_cons.1 h with h | h
        · subst h; exact absurd rfl e
        · exact h
      have := ih hn.2 h'
      by_cases hm : x.1 ∈ ids
      · have h1 : others ids (x :: l) = others ids l := by simp [others, hm]
        have h2 : others (i :: ids) (x :: l) = others (i :: ids) l := by simp [others, hm]
        rw [h1, h2]; exact this
      · have h1 : others ids (x :: l) = x :: others ids l := by simp [others, hm]
        have h2 : others (i :: ids) (x :: l) = x :: others (i :: ids) l := by simp [others, hm, e]
        rw [h1, h2, pts_cons, pts_cons, this]
        abel

/-- The points after the last loop come from the local points. -/
theorem planLocals_pts : ∀ (ls : List (Local T X)) (a : A T X), (a.l.map Prod.fst).Nodup →
    (ls.filterMap Local.id).Nodup → (∀ i ∈ ls.filterMap Local.id, ∃ d, (i, d) ∈ a.live) →
    (∀ l ∈ ls, l.kind = .none → ∀ i d, l.id = some i → (i, d) ∈ a.live → d.pt = l.pt) →
    (∀ l ∈ ls, l.id = none → l.kind ≠ .none) → (∀ l ∈ ls, l.kind = .append → l.id = none) →
    pts (planLocals ls a).live + ((planLocals ls a).made : List (Pt T X)) =
      (a.made : List (Pt T X)) + lpts ls + pts (others (ls.filterMap Local.id) a.live) := by
  intro ls
  induction ls with
  | nil =>
    intro a hn hd hm hk h1 h2
    have : others [] a.live = a.live := by simp [others]
    simp only [planLocals, List.filterMap_nil, this, lpts, List.map_nil]
    rw [add_comm]
    simp
  | cons l ls ih =>
    intro a hn hd hm hk h1 h2
    have h1' : ∀ x ∈ ls, x.id = none → x.kind ≠ .none := fun x hx => h1 x (by simp [hx])
    have h2' : ∀ x ∈ ls, x.kind = .append → x.id = none := fun x hx => h2 x (by simp [hx])
    have hk' : ∀ x ∈ ls, x.kind = .none → ∀ i d, x.id = some i → (i, d) ∈ a.live → d.pt = x.pt :=
      fun x hx => hk x (by simp [hx])
    cases hid : l.id with
    | none =>
      have e1 : (l :: ls).filterMap Local.id = ls.filterMap Local.id := by simp [hid]
      rw [e1] at hd hm ⊢
      have hp : planLocal a l = { a with made := a.made ++ [l.pt] } := by
        unfold planLocal
        cases hkk : l.kind with
        | none => exact absurd hkk (h1 l (by simp) hid)
        | append => simp [hid]
        | similar => simp [hid]
        | replace => simp [hid]
      simp only [planLocals, hp]
      rw [ih { a with made := a.made ++ [l.pt] } hn hd hm hk' h1' h2', lpts_cons]
      show ((a.made ++ [l.pt] : List (Pt T X)) : Multiset _) + _ + pts (others _ a.live) = _
      rw [← Multiset.coe_add, Multiset.coe_singleton]
      abel
    | some i =>
      have e1 : (l :: ls).filterMap Local.id = i :: ls.filterMap Local.id := by simp [hid]
      rw [e1] at hd hm ⊢
      rw [List.nodup_cons] at hd
      obtain ⟨d, hdl⟩ := hm i (by simp)
      have hlive := live_nodup hn
      have hm' : ∀ j ∈ ls.filterMap Local.id, ∃ d, (j, d) ∈ a.live := fun j hj => hm j (List.mem_cons_of_mem _ hj)
      cases hkk : l.kind with
      | none =>
        have hp : planLocal a l = a := by simp [planLocal, hkk]
        simp only [planLocals, hp]
        rw [ih a hn hd.2 hm' hk' h1' h2', others_cons hd.1 hlive hdl, lpts_cons,
          hk l (by simp) hkk i d hid hdl]
        abel
      | append => exact absurd (h2 l (by simp) hkk) (by simp [hid])
      | similar =>
        have hp : planLocal a l = { a with l := modList i (merge l.pt) a.l } := by
          simp [planLocal, hkk, hid]
        have hne : ∀ x ∈ ls, x.id ≠ some i := fun x hx e =>
          hd.1 (List.mem_filterMap.2 ⟨x, hx, e⟩)
        simp only [planLocals, hp]
        rw [ih _ (by rw [modList_ids]; exact hn) hd.2 ?_ ?_ h1' h2']
        · rw [live_modify]
          have hmem : (i, merge l.pt d) ∈ modList i (merge l.pt) a.live :=
            List.mem_map.2 ⟨_, hdl, by simp⟩
          rw [others_cons hd.1 (by rw [modList_ids]; exact hlive) hmem, lpts_cons]
          have : others (i :: ls.filterMap Local.id) (modList i (merge l.pt) a.live) =
              others (i :: ls.filterMap Local.id) a.live := by
            simp only [others, modList, List.filter_map]
            conv_rhs => rw [← List.map_id (List.filter _ a.live)]
            have ef : a.live.filter ((fun x => decide (x.1 ∉ i :: ls.filterMap Local.id)) ∘
                fun x => if x.1 = i then (x.1, merge l.pt x.2) else x) =
                a.live.filter fun x => decide (x.1 ∉ i :: ls.filterMap Local.id) := by
              apply List.filter_congr
              intro x _
              simp only [Function.comp]
              split <;> rfl
            rw [ef]
            apply List.map_congr_left
            intro x hx
            have := (List.mem_filter.1 hx).2
            simp only [List.mem_cons, not_or, decide_eq_true_eq] at this
            rw [if_neg this.1]; rfl
          rw [this]
          show (a.made : Multiset _) + _ + ({l.pt} + _) = _
          abel
        · intro j hj
          obtain ⟨d', hd'⟩ := hm' j hj
          rw [live_modify]
          by_cases e : j = i
          · exact ⟨merge l.pt d', List.mem_map.2 ⟨_, hd', by simp [e]⟩⟩
          · exact ⟨d', List.mem_map.2 ⟨_, hd', by simp [e]⟩⟩
        · intro x hx hxk j d' hj hd'
          rw [live_modify] at hd'
          obtain ⟨y, hy, hy'⟩ := List.mem_map.1 hd'
          have hji : j ≠ i := fun e => hne x hx (e ▸ hj)
          by_cases e : y.1 = i
          · rw [if_pos e] at hy'
            have := congrArg Prod.fst hy'
            simp only at this
            exact absurd (this.symm.trans e) hji
          · rw [if_neg e] at hy'
            subst hy'
            exact hk' x hx hxk j d' hj hy
      | replace =>
        have hp : planLocal a l = { a with gone := a.gone ++ [i], made := a.made ++ [l.pt] } := by
          simp [planLocal, hkk, hid]
        simp only [planLocals, hp]
        rw [ih { a with gone := a.gone ++ [i], made := a.made ++ [l.pt] } hn hd.2 ?_ ?_ h1' h2', live_gone, lpts_cons]
        · have : others (ls.filterMap Local.id) (rmList i a.live) =
              others (i :: ls.filterMap Local.id) a.live := by
            simp only [others, rmList, List.filter_filter]
            apply List.filter_congr
            intro x _
            simp only [← Bool.decide_and]
            apply decide_eq_decide.2
            simp only [List.mem_cons, not_or]
            tauto
          rw [this, ← Multiset.coe_add, Multiset.coe_singleton]
          abel
        · intro j hj
          obtain ⟨d', hd'⟩ := hm' j hj
          rw [live_gone]
          refine ⟨d', List.mem_filter.2 ⟨hd', ?_⟩⟩
          simp only [decide_eq_true_eq]
          rintro rfl
          exact hd.1 hj
        · intro x hx hxk j d' hj hd'
          rw [live_gone] at hd'
          exact hk' x hx hxk j d' hj (List.mem_of_mem_filter hd')

theorem pts_live_le (a : A T X) : pts a.live ≤ pts a.l := by
  simp only [pts, A.live]
  exact Multiset.coe_le.2 (List.filter_sublist.map _).subperm

/-- Every point afterwards is accounted for by a different old point or point of the result. -/
theorem Planned.pts {e : Env T X} {res : List (Pt T X)} {l : List (Nat × Dat T X)} {a : A T X}
    (hn : (l.map Prod.fst).Nodup) (h4 : l.length ≤ 4) (h : Planned e res l a) :
    pts a.live + (a.made : List (Pt T X)) ≤ Contact.pts l + (res : List (Pt T X)) := by
  have hids := plan1_ids e res l []
  have hpl := plan1_pts e res l []
  rw [unused_nil] at hpl
  have hnd : ((plan1 e res l []).1.map Prod.fst).Nodup := by rw [hids.1]; exact hn
  have hlen : (plan1 e res l []).1.length = l.length := by
    have := congrArg List.length hids.1
    simpa using this
  cases h with
  | early _ =>
    refine le_trans ?_ (le_trans (Multiset.le_add_right _ _) hpl)
    show _ + (([] : List (Pt T X)) : Multiset (Pt T X)) ≤ _
    rw [Multiset.coe_nil, add_zero]
    exact pts_live_le _
  | some ls he hne hp =>
    set a0 : A T X := ⟨(plan1 e res l []).1, [], (plan1 e res l []).2.2⟩ with ha0
    have hle : a0.live.length ≤ 4 := by
      have : a0.live.length ≤ a0.l.length := List.length_filter_le _ _
      simp only [ha0] at this ⊢
      omega
    have hgood : Good (a0.live.map Prod.fst)
        (a0.live.map fun x => ({ pt := x.2.pt, id := Option.some x.1 } : Local T X)) := by
      refine ⟨by rw [List.length_map]; exact hle, ?_, ?_, ?_⟩
      · rw [List.filterMap_map]
        exact List.filterMap_eq_map' (f := Prod.fst) ▸ rfl
      · intro x hx hxn
        obtain ⟨y, -, rfl⟩ := List.mem_map.1 hx
        cases hxn
      · intro x hx hxn
        obtain ⟨y, -, rfl⟩ := List.mem_map.1 hx
        cases hxn
    obtain ⟨ls', g1, g2, -⟩ := good_placeAll (c := e.c) (mg := (plan1 e res l []).2.1) res 0 _ hgood
    rw [hp] at g1
    cases g1
    have hmem : ∀ l ∈ ls, l.kind = .none → ∃ x ∈ a0.live, l = { pt := x.2.pt, id := Option.some x.1 } :=
      placeAll_old res 0 _ ls (by
        intro l hl _
        obtain ⟨x, hx, rfl⟩ := List.mem_map.1 hl
        exact ⟨x, hx, rfl⟩) hp
    rw [planLocals_pts ls a0 hnd (by rw [g2.ids]; exact live_nodup hnd) ?_ ?_ g2.made g2.kept]
    · have ho : others (ls.filterMap Local.id) a0.live = [] := by
        rw [g2.ids, others, List.filter_eq_nil_iff]
        intro x hx
        simp only [decide_eq_true_eq, not_not]
        exact List.mem_map.2 ⟨x, hx, rfl⟩
      rw [ho]
      have h1 := placeAll_pts res 0 _ ls hp
      have h2 : lpts (a0.live.map fun x => ({ pt := x.2.pt, id := Option.some x.1 } : Local T X)) = Contact.pts a0.live := by
        simp [lpts, Contact.pts, Function.comp_def]
      rw [h2] at h1
      show (([] : List (Pt T X)) : Multiset _) + lpts ls + (([] : List (Pt T X)) : Multiset _) ≤ _
      rw [Multiset.coe_nil, zero_add, add_zero]
      refine le_trans h1 (le_trans ?_ hpl)
      rw [add_comm]
      exact add_le_add_left (pts_live_le a0) _
    · rw [g2.ids]
      intro i hi
      obtain ⟨x, hx, rfl⟩ := List.mem_map.1 hi
      exact ⟨x.2, hx⟩
    · intro l hl hk i d hi hd
      obtain ⟨x, hx, rfl⟩ := hmem l hl hk
      simp only [Option.some.injEq] at hi
      have := List.inj_on_of_nodup_map (live_nodup hnd) hx hd hi
      rw [this]
  | none p ps ls he hne hr hp =>
    set a0 : A T X := ⟨(plan1 e res l []).1, [], (plan1 e res l []).2.2⟩ with ha0
    have hm0 : (plan1 e res l []).2.1 = [] := by
      have h1 := plan1_count e res l []
      have h2 := live_count (gone := (plan1 e res l []).2.2) hnd (plan1_gone_nodup e res l [] hn)
        (by rw [hids.1]; exact hids.2)
      have h3 : a0.live.length = 0 := by rw [hne]; rfl
      simp only [A.live, ha0] at h3
      simp only [List.length_nil] at h1
      exact List.length_eq_zero_iff.1 (by omega)
    have hgood : Good [] [({ pt := p, kind := .append } : Local T X)] :=
      ⟨by simp, by simp, by simp, by simp⟩
    obtain ⟨ls', g1, g2, -⟩ := good_placeAll (c := e.c) (mg := 0 :: (plan1 e res l []).2.1) res 0 _ hgood
    rw [hp] at g1
    cases g1
    have hids0 := g2.ids
    rw [planLocals_pts ls a0 hnd (by rw [hids0]; exact List.nodup_nil) (by rw [hids0]; simp) ?_ g2.made g2.kept]
    · rw [hne]
      have h1 := placeAll_pts res 0 _ ls hp
      rw [hm0] at h1
      show (([] : List (Pt T X)) : Multiset _) + lpts ls + (([] : List (Pt T X)) : Multiset _) ≤ _
      rw [Multiset.coe_nil, zero_add, add_zero]
      refine le_trans h1 (le_trans ?_ (Multiset.le_add_left _ _))
      rw [hr]
      simp only [unused, List.mem_singleton, if_true]
      rw [unused_cons_lt [] 0 ps (0 + 1) (by omega), unused_nil, ← Multiset.cons_coe, ← Multiset.singleton_add,
        add_comm]
      exact le_refl _
    · intro l hl hk i d hi hd
      rw [hne] at hd
      cases hd

end Edyn.Contact
