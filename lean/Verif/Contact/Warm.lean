import Verif.Contact.Props

/-!
# Which contact points keep their impulses (C33)

A contact point that is updated from the collision result keeps the impulses of the previous step, from
which the solver starts. This makes sense if the contact is near where it was.
-/

namespace Edyn.Contact

open Edyn.Math

variable {T : Type} [Field T] [LinearOrder T] [IsStrictOrderedRing T] {X : Type}

/-- The contact is near where it was, on one of the bodies. -/
def Near (t : T) (p q : Pt T X) : Prop := V3.distanceSqr p.pA q.pA ≤ t ∨ V3.distanceSqr p.pB q.pB ≤ t

theorem distanceSqr_comm (v w : V3 T) : V3.distanceSqr v w = V3.distanceSqr w v := by
  show (v.x - w.x) * (v.x - w.x) + (v.y - w.y) * (v.y - w.y) + (v.z - w.z) * (v.z - w.z) =
    (w.x - v.x) * (w.x - v.x) + (w.y - v.y) * (w.y - v.y) + (w.z - v.z) * (w.z - v.z)
  ring

/-- A point is taken to be similar to one that is closer than the threshold. -/
theorem insertion_similar {c : Consts T} {pts : List (V3 T)} {p : V3 T} {i : Nat}
    (h : insertionPoint c pts p = .similar i) :
    ∃ q, pts[i]? = some q ∧ V3.distanceSqr p q ≤ c.merging * c.merging := by
  match pts with
  | [] => simp [insertionPoint] at h
  | [p0] =>
    simp only [insertionPoint] at h
    by_cases h1 : V3.distanceSqr p p0 > c.merging * c.merging
    · rw [if_pos h1] at h; cases h
    · rw [if_neg h1] at h; cases h; exact ⟨p0, rfl, not_lt.1 h1⟩
  | [p0, p1] =>
    simp only [insertionPoint, insert2] at h
    by_cases h1 : V3.lengthSqr (V3.cross (p - p0) (p - p1)) > c.eps
    · rw [if_pos h1] at h; cases h
    · rw [if_neg h1] at h
      by_cases h2 : V3.distanceSqr p p0 > V3.distanceSqr p0 p1 ∧ V3.distanceSqr p p0 > V3.distanceSqr p p1
      · rw [if_pos h2] at h
        by_cases h3 : V3.distanceSqr p p1 < c.merging * c.merging
        · rw [if_pos h3] at h; cases h; exact ⟨p1, rfl, le_of_lt h3⟩
        · rw [if_neg h3] at h; cases h
      · rw [if_neg h2] at h
        by_cases h4 : V3.distanceSqr p p1 > V3.distanceSqr p0 p1 ∧ V3.distanceSqr p p1 > V3.distanceSqr p p0
        · rw [if_pos h4] at h
          by_cases h3 : V3.distanceSqr p p0 < c.merging * c.merging
          · rw [if_pos h3] at h; cases h; exact ⟨p0, rfl, le_of_lt h3⟩
          · rw [if_neg h3] at h; cases h
        · rw [if_neg h4] at h; cases h
  | [p0, p1, p2] =>
    simp only [insertionPoint, insert3] at h
    cases hn : tryNormalize c (V3.cross (p0 - p1) (p1 - p2)) with
    | some n =>
      rw [hn] at h
      simp only at h
      split at h <;> cases h
    | none =>
      rw [hn] at h
      simp only at h
      split at h
      · cases h
      · split at h
        · cases h
        · split at h <;> cases h
  | p0 :: p1 :: p2 :: p3 :: l =>
    simp only [insertionPoint, insert4] at h
    cases hp : pick (fun a b => decide (a > b))
      [score p p1 p2 p3, score p p0 p2 p3, score p p0 p1 p3, score p p0 p1 p2] 0
      (score p0 p1 p2 p3) none with
    | none => rw [hp] at h; cases h
    | some j =>
      rw [hp] at h
      simp only at h
      by_cases h3 : V3.distanceSqr ([p0, p1, p2, p3].getD j p0) p < c.merging * c.merging
      · rw [if_pos h3] at h
        cases h
        rcases pick_range _ _ _ _ _ _ hp with e | e
        · cases e
        · simp only [List.length_cons, List.length_nil] at e
          refine ⟨[p0, p1, p2, p3].getD i p0, ?_, by rw [distanceSqr_comm]; exact le_of_lt h3⟩
          have : i = 0 ∨ i = 1 ∨ i = 2 ∨ i = 3 := by omega
          rcases this with rfl | rfl | rfl | rfl <;> rfl
      · rw [if_neg h3] at h; cases h

/-- The first loop. -/
theorem plan1_near {e : Env T X} {res : List (Pt T X)} {thr : T} (hnear : ∀ p res, e.near p res = findNearest thr p res) :
    ∀ (l : List (Nat × Dat T X)) (mg : List Nat), (∀ i ∈ mg, i ∈ (plan1 e res l mg).2.1) ∧
    ∀ x ∈ (plan1 e res l mg).1, ∃ d, (x.1, d) ∈ l ∧
      (x.2.pt = d.pt ∨ Near (thr * thr) x.2.pt d.pt ∧ ∃ j ∈ (plan1 e res l mg).2.1, res[j]? = some x.2.pt) := by
  intro l
  induction l with
  | nil => intro mg; simp [plan1]
  | cons y l ih =>
    obtain ⟨id, d⟩ := y
    intro mg
    simp only [plan1]
    by_cases h : e.near d.pt res < res.length ∧ e.near d.pt res ∉ mg
    · rw [if_pos h, List.getElem?_eq_getElem h.1]
      simp only
      obtain ⟨i1, i2⟩ := ih (e.near d.pt res :: mg)
      refine ⟨fun i hi => i1 i (List.mem_cons_of_mem _ hi), ?_⟩
      intro x hx
      rcases List.mem_cons.1 hx with rfl | hx
      · refine ⟨d, by simp, Or.inr ⟨?_, e.near d.pt res, i1 _ (by simp), List.getElem?_eq_getElem h.1⟩⟩
        rcases nearest_point thr d.pt res with ⟨h1, -⟩ | ⟨q, h1, h2, -⟩
        · rw [hnear] at h; omega
        · rw [← hnear, List.getElem?_eq_getElem h.1] at h1
          simp only [Option.some.injEq] at h1
          show Near (thr * thr) res[e.near d.pt res] d.pt
          rw [h1]
          exact h2.imp le_of_lt le_of_lt
      · obtain ⟨d', h1, h2⟩ := i2 x hx
        exact ⟨d', List.mem_cons_of_mem _ h1, h2⟩
    · rw [if_neg h]
      obtain ⟨i1, i2⟩ := ih mg
      by_cases hb : e.breaks d.pt = true
      · rw [if_pos hb]
        refine ⟨i1, ?_⟩
        intro x hx
        rcases List.mem_cons.1 hx with rfl | hx
        · exact ⟨d, by simp, Or.inl rfl⟩
        · obtain ⟨d', h1, h2⟩ := i2 x hx
          exact ⟨d', List.mem_cons_of_mem _ h1, h2⟩
      · rw [if_neg hb]
        refine ⟨i1, ?_⟩
        intro x hx
        rcases List.mem_cons.1 hx with rfl | hx
        · exact ⟨d, by simp, Or.inl rfl⟩
        · obtain ⟨d', h1, h2⟩ := i2 x hx
          exact ⟨d', List.mem_cons_of_mem _ h1, h2⟩

/-- What is known of the local points before index `i`. -/
def LocalNear (t : T) (res : List (Pt T X)) (l₀ : List (Nat × Dat T X)) (mg : List Nat) (i : Nat) (l : Local T X) : Prop :=
  ((∃ j, (j ∈ mg ∨ j < i) ∧ res[j]? = some l.pt) ∨ ∀ k, l.id = some k → ∃ d, (k, d) ∈ l₀ ∧ l.pt = d.pt) ∧
  (l.kind = .similar → ∀ k, l.id = some k → ∃ d, (k, d) ∈ l₀ ∧ Near t l.pt d.pt)

theorem LocalNear.mono {t : T} {res : List (Pt T X)} {l₀ : List (Nat × Dat T X)} {mg : List Nat} {i : Nat} {l : Local T X}
    (h : LocalNear t res l₀ mg i l) : LocalNear t res l₀ mg (i + 1) l := by
  refine ⟨?_, h.2⟩
  rcases h.1 with ⟨j, hj, h1⟩ | h1
  · exact Or.inl ⟨j, hj.imp _root_.id (by omega), h1⟩
  · exact Or.inr h1

/-- The points of the result are apart from each other. -/
def Apart (t : T) (res : List (Pt T X)) : Prop :=
  ∀ (i j : Nat) (p q : Pt T X), i ≠ j → res[i]? = some p → res[j]? = some q → t < V3.distanceSqr p.pA q.pA ∧ t < V3.distanceSqr p.pB q.pB

theorem mem_modify_idx {α : Type} {g : α → α} : ∀ {l : List α} {i : Nat} {x : α}, x ∈ l.modify i g →
    x ∈ l ∨ ∃ y, l[i]? = some y ∧ x = g y := by
  intro l
  induction l with
  | nil => intro i x h; cases i <;> cases h
  | cons a l ih =>
    intro i x h
    cases i with
    | zero =>
      simp at h
      rcases h with h | h
      · right; exact ⟨a, rfl, h⟩
      · left; simp [h]
    | succ i =>
      simp at h
      rcases h with h | h
      · left; simp [h]
      · rcases ih h with h | ⟨y, hy, h⟩
        · left; simp [h]
        · right; exact ⟨y, by simpa using hy, h⟩

theorem place_near {c : Consts T} {t : T} {res : List (Pt T X)} {l₀ : List (Nat × Dat T X)} {mg : List Nat} {i : Nat}
    {ls ls' : List (Local T X)} {p : Pt T X} (ht : c.merging * c.merging ≤ t) (hap : Apart (c.merging * c.merging) res)
    (hp : res[i]? = some p) (hi : i ∉ mg) (h : ∀ l ∈ ls, LocalNear t res l₀ mg i l) (hl : place c ls p = some ls') :
    ∀ l ∈ ls', LocalNear t res l₀ mg (i + 1) l := by
  have hpi : ∃ j, (j ∈ mg ∨ j < i + 1) ∧ res[j]? = some p := ⟨i, Or.inr (by omega), hp⟩
  have happ : ∀ {ls'}, (if ls.length < 4 then some (ls ++ [({ pt := p, kind := .append } : Local T X)]) else none) =
      some ls' → ∀ l ∈ ls', LocalNear t res l₀ mg (i + 1) l := by
    intro ls' h' l hl
    by_cases hc : ls.length < 4
    · rw [if_pos hc] at h'
      simp only [Option.some.injEq] at h'
      subst h'
      rcases List.mem_append.1 hl with hl | hl
      · exact (h l hl).mono
      · simp at hl; subst hl
        exact ⟨Or.inl hpi, fun hk => by cases hk⟩
    · rw [if_neg hc] at h'; cases h'
  have hrep : ∀ {ls'} {j : Nat},
      (if j < ls.length then some (ls.modify j fun l => { l with pt := p, kind := .replace }) else none) =
      some ls' → ∀ l ∈ ls', LocalNear t res l₀ mg (i + 1) l := by
    intro ls' j h' l hl
    by_cases hc : j < ls.length
    · rw [if_pos hc] at h'
      simp only [Option.some.injEq] at h'
      subst h'
      rcases mem_modify_idx hl with hl | ⟨y, hy, rfl⟩
      · exact (h l hl).mono
      · exact ⟨Or.inl hpi, fun hk => by cases hk⟩
    · rw [if_neg hc] at h'; cases h'
  have hsim : ∀ {ls'} {j : Nat}, (∀ y, ls[j]? = some y → Near (c.merging * c.merging) p y.pt) →
      (if j < ls.length then some (ls.modify j fun l => { l with pt := p, kind := .similar }) else none) =
      some ls' → ∀ l ∈ ls', LocalNear t res l₀ mg (i + 1) l := by
    intro ls' j hy0 h' l hl
    by_cases hc : j < ls.length
    · rw [if_pos hc] at h'
      simp only [Option.some.injEq] at h'
      subst h'
      rcases mem_modify_idx hl with hl | ⟨y, hy, rfl⟩
      · exact (h l hl).mono
      · refine ⟨Or.inl hpi, ?_⟩
        intro _ k hk
        have hnear := hy0 y hy
        rcases (h y (List.mem_of_getElem? hy)).1 with ⟨j', hj', hr⟩ | h1
        · have hne : i ≠ j' := by
            rintro rfl
            rcases hj' with h | h
            · exact hi h
            · omega
          have ap := hap i j' p y.pt hne hp hr
          rcases hnear with h | h
          · exact absurd ap.1 (not_lt.2 h)
          · exact absurd ap.2 (not_lt.2 h)
        · obtain ⟨d, hd, he⟩ := h1 k hk
          refine ⟨d, hd, ?_⟩
          show Near t p d.pt
          rw [← he]
          exact hnear.imp (fun h => le_trans h ht) (fun h => le_trans h ht)
    · rw [if_neg hc] at h'; cases h'
  unfold place at hl
  cases ha : insertionPoint c (ls.map fun l => l.pt.pA) p.pA with
  | append => rw [ha] at hl; exact happ hl
  | similar j =>
    rw [ha] at hl
    refine hsim ?_ hl
    intro y hy
    obtain ⟨q, hq, hd⟩ := insertion_similar ha
    rw [List.getElem?_map, hy] at hq
    simp only [Option.map_some, Option.some.injEq] at hq
    left; rw [hq]; exact hd
  | replace j => rw [ha] at hl; exact hrep hl
  | none =>
    rw [ha] at hl
    simp only at hl
    cases hb : insertionPoint c (ls.map fun l => l.pt.pB) p.pB with
    | append => rw [hb] at hl; exact happ hl
    | similar j =>
      rw [hb] at hl
      refine hsim ?_ hl
      intro y hy
      obtain ⟨q, hq, hd⟩ := insertion_similar hb
      rw [List.getElem?_map, hy] at hq
      simp only [Option.map_some, Option.some.injEq] at hq
      right; rw [hq]; exact hd
    | replace j => rw [hb] at hl; exact hrep hl
    | none => rw [hb] at hl; cases hl; exact fun l hl => (h l hl).mono

theorem placeAll_near {c : Consts T} {t : T} {res : List (Pt T X)} {l₀ : List (Nat × Dat T X)} {mg : List Nat}
    (ht : c.merging * c.merging ≤ t) (hap : Apart (c.merging * c.merging) res) : ∀ (ps : List (Pt T X)) (i : Nat)
    (ls ls' : List (Local T X)), (∀ k, ps[k]? = res[i + k]?) → (∀ l ∈ ls, LocalNear t res l₀ mg i l) →
    placeAll c mg ps i ls = some ls' → ∀ l ∈ ls', LocalNear t res l₀ mg (i + ps.length) l := by
  intro ps
  induction ps with
  | nil => intro i ls ls' _ h hl; cases hl; exact h
  | cons p ps ih =>
    intro i ls ls' hr h hl
    have hr' : ∀ k, ps[k]? = res[i + 1 + k]? := by
      intro k
      have := hr (k + 1)
      rw [List.getElem?_cons_succ] at this
      rw [this]; congr 1; omega
    have hlen : i + (p :: ps).length = i + 1 + ps.length := by simp; omega
    rw [hlen]
    simp only [placeAll] at hl
    by_cases hm : i ∈ mg
    · rw [if_pos hm] at hl
      exact ih (i + 1) ls ls' hr' (fun l hl => (h l hl).mono) hl
    · rw [if_neg hm] at hl
      cases h1 : place c ls p with
      | none => rw [h1] at hl; cases hl
      | some l1 =>
        rw [h1] at hl
        exact ih (i + 1) l1 ls' hr' (place_near ht hap (hr 0).symm hm h h1) hl

theorem planLocals_near {t : T} {l₀ : List (Nat × Dat T X)} : ∀ (ls : List (Local T X)) (a : A T X),
    (∀ l ∈ ls, l.kind = .similar → ∀ k, l.id = some k → ∃ d, (k, d) ∈ l₀ ∧ Near t l.pt d.pt) →
    (∀ x ∈ a.live, ∃ d, (x.1, d) ∈ l₀ ∧ (x.2.pt = d.pt ∨ Near t x.2.pt d.pt)) →
    ∀ x ∈ (planLocals ls a).live, ∃ d, (x.1, d) ∈ l₀ ∧ (x.2.pt = d.pt ∨ Near t x.2.pt d.pt) := by
  intro ls
  induction ls with
  | nil => intro a _ h; exact h
  | cons l ls ih =>
    intro a hl h
    have hl' : ∀ x ∈ ls, x.kind = .similar → ∀ k, x.id = some k → ∃ d, (k, d) ∈ l₀ ∧ Near t x.pt d.pt :=
      fun x hx => hl x (by simp [hx])
    simp only [planLocals]
    cases hk : l.kind with
    | none => simp only [planLocal, hk]; exact ih a hl' h
    | append => simp only [planLocal, hk]; exact ih _ hl' h
    | similar =>
      cases hid : l.id with
      | none => simp only [planLocal, hk, hid]; exact ih _ hl' h
      | some i =>
        simp only [planLocal, hk, hid]
        refine ih _ hl' ?_
        intro x hx
        rw [live_modify] at hx
        obtain ⟨y, hy, rfl⟩ := List.mem_map.1 hx
        by_cases hi : y.1 = i
        · rw [if_pos hi]
          obtain ⟨d, hd, hn⟩ := hl l (by simp) hk i hid
          exact ⟨d, by simpa [hi] using hd, Or.inr hn⟩
        · rw [if_neg hi]; exact h y hy
    | replace =>
      cases hid : l.id with
      | none => simp only [planLocal, hk, hid]; exact ih _ hl' h
      | some i =>
        simp only [planLocal, hk, hid]
        refine ih _ hl' ?_
        intro x hx
        rw [live_gone] at hx
        exact h x (List.mem_of_mem_filter hx)

theorem Planned.near {e : Env T X} {res : List (Pt T X)} {l : List (Nat × Dat T X)} {a : A T X} {thr : T}
    (hnear : ∀ p res, e.near p res = findNearest thr p res) (hap : Apart (e.c.merging * e.c.merging) res)
    (h : Planned e res l a) : ∀ x ∈ a.live, ∃ d, (x.1, d) ∈ l ∧
      (x.2.pt = d.pt ∨ Near (max (thr * thr) (e.c.merging * e.c.merging)) x.2.pt d.pt) := by
  obtain ⟨-, hp1⟩ := plan1_near (res := res) hnear l []
  have h0 : ∀ x ∈ (⟨(plan1 e res l []).1, [], (plan1 e res l []).2.2⟩ : A T X).live, ∃ d, (x.1, d) ∈ l ∧
      (x.2.pt = d.pt ∨ Near (max (thr * thr) (e.c.merging * e.c.merging)) x.2.pt d.pt) := by
    intro x hx
    obtain ⟨d, h1, h2⟩ := hp1 x (A.mem_live.1 hx).1
    exact ⟨d, h1, h2.imp _root_.id fun h => h.1.imp (fun h => le_trans h (le_max_left _ _)) fun h => le_trans h (le_max_left _ _)⟩
  cases h with
  | early _ => exact h0
  | some ls _ _ hp =>
    refine planLocals_near ls _ ?_ h0
    have := placeAll_near (c := e.c) (l₀ := l) (le_max_right (thr * thr) _) hap res 0 _ ls (fun k => by rw [Nat.zero_add]) ?_ hp
    · exact fun x hx => (this x hx).2
    · intro x hx
      obtain ⟨y, hy, rfl⟩ := List.mem_map.1 hx
      refine ⟨?_, fun hk => by cases hk⟩
      obtain ⟨d, h1, h2⟩ := hp1 y (A.mem_live.1 hy).1
      rcases h2 with h2 | ⟨-, j, hj, hr⟩
      · right
        intro k hk
        simp only [Option.some.injEq] at hk
        subst hk
        exact ⟨d, h1, h2⟩
      · exact Or.inl ⟨j, Or.inl hj, hr⟩
  | none p ps ls _ _ hr hp =>
    refine planLocals_near ls _ ?_ h0
    have := placeAll_near (c := e.c) (l₀ := l) (le_max_right (thr * thr) _) hap res 0 _ ls (fun k => by rw [Nat.zero_add]) ?_ hp
    · exact fun x hx => (this x hx).2
    · intro x hx
      simp only [List.mem_singleton] at hx
      subst hx
      exact ⟨Or.inr fun k hk => (by cases hk), fun hk => by cases hk⟩

/-- The full claim: a contact point keeps its impulses only if it stays where it was or moves by no more
than the thresholds. -/
def ImpulsesStayFull (T X : Type) [Field T] [LinearOrder T] [IsStrictOrderedRing T] : Prop :=
  ∀ (r r' : Reg (Dat T X)) (f f' : Nat → List (Nat × Dat T X)) (e : Nat → Env T X) (res : Nat → List (Pt T X))
    (ms : List Nat) (thr : T), Reach r → Lists r f → ms.Nodup → (∀ m ∈ ms, r.man m ≠ none) →
    (∀ m p res, (e m).near p res = findNearest thr p res) → seqStep e res ms r = some r' → Lists r' f' →
    ∀ m ∈ ms, ∀ x ∈ f' m, ∀ d, (x.1, d) ∈ f m →
      x.2.pt = d.pt ∨ Near (max (thr * thr) ((e m).c.merging * (e m).c.merging)) x.2.pt d.pt

/-- Proved when the points of a collision result are farther apart than `contact_merging_threshold`, for
bodies that do not roll. -/
theorem impulses_stay_partial {r r' : Reg (Dat T X)} {f f' : Nat → List (Nat × Dat T X)} {e : Nat → Env T X}
    {res : Nat → List (Pt T X)} {ms : List Nat} {thr : T} (h : Reach r) (H : Lists r f) (hn : ms.Nodup)
    (hm : ∀ m ∈ ms, r.man m ≠ none) (hnear : ∀ m p res, (e m).near p res = findNearest thr p res)
    (hap : ∀ m ∈ ms, ∀ (i j : Nat) (p q : Pt T X), i ≠ j → (res m)[i]? = some p → (res m)[j]? = some q →
      (e m).c.merging * (e m).c.merging < V3.distanceSqr p.pA q.pA ∧
      (e m).c.merging * (e m).c.merging < V3.distanceSqr p.pB q.pB)
    (hs : seqStep e res ms r = some r') (H' : Lists r' f') :
    ∀ m ∈ ms, ∀ x ∈ f' m, ∀ d, (x.1, d) ∈ f m →
      x.2.pt = d.pt ∨ Near (max (thr * thr) ((e m).c.merging * (e m).c.merging)) x.2.pt d.pt := by
  obtain ⟨g, Hg, h4⟩ := contact_lists h
  rw [Hg.eq H] at h4
  obtain ⟨r1, f1, h1, h2, -, -, h5, h6⟩ := seqStep_spec e res ms r f H hn fun m hmm => ⟨hm m hmm, h4 m⟩
  rw [hs] at h1
  cases h1
  cases h2.eq H'
  intro m hmm x hx d hd
  obtain ⟨⟨a, k1, new, e1, -, k3⟩, -, -⟩ := h6 m hmm
  rw [e1] at hx
  rcases List.mem_append.1 hx with hx | hx
  · have := k3 x hx
    obtain ⟨nx, hc⟩ := H.cp hd
    simp only at hc
    rw [H.fresh x.1 this] at hc
    cases hc
  · obtain ⟨d', h1, h2⟩ := k1.near (hnear m) (hap m hmm) x hx
    have := (H.unique hd h1 rfl).2
    simp only [Prod.mk.injEq, true_and] at this
    rw [this]; exact h2

end Edyn.Contact
