import Verif.Broad.Inv

/-!
# Manifolds destroyed and made by the broadphase
-/

namespace Edyn.Broad

open Edyn.DynTree (upd upd_same upd_apply Params Live Good)

theorem foldlM_congr {α β : Type} {f g : α → β → Option α} : ∀ (l : List β) (a : α),
    (∀ a, ∀ x ∈ l, f a x = g a x) → l.foldlM f a = l.foldlM g a := by
  intro l
  induction l with
  | nil => intro a _; rfl
  | cons x l ih =>
    intro a h
    rw [List.foldlM_cons, List.foldlM_cons, h a x (by simp)]
    cases g a x with
    | none => rfl
    | some a' => exact ih a' fun a y hy => h a y (List.mem_cons_of_mem _ hy)

/-- Destroying the manifolds chosen by `G`, one by one. -/
theorem drop_spec (G : Nat × (Nat × Nat) → Bool) : ∀ (l : List (Nat × (Nat × Nat)))
    (m : ManifoldMap.State), ManifoldMap.Inv m → m.manifolds.WF →
    (l.map (·.1)).Nodup → (∀ x ∈ l, m.manifolds.get? x.1 = some x.2) →
    ∃ m', l.foldlM (fun m x => if G x then ManifoldMap.destroy m x.1 else some m) m = some m' ∧
      ManifoldMap.Inv m' ∧ m'.manifolds.WF ∧
      ∀ i p, m'.manifolds.get? i = some p ↔
        m.manifolds.get? i = some p ∧ ¬((i, p) ∈ l ∧ G (i, p) = true) := by
  intro l
  induction l with
  | nil => intro m h1 h2 _ _; exact ⟨m, rfl, h1, h2, by simp⟩
  | cons x l ih =>
    intro m h1 h2 h3 h4
    rw [List.map_cons, List.nodup_cons] at h3
    by_cases hG : G x = true
    · have hx := h4 x (by simp)
      have hd : ManifoldMap.destroy m x.1 = some ⟨m.manifolds.erase x.1,
          (m.pairMap.erase (x.2.1, x.2.2)).erase (x.2.2, x.2.1)⟩ := by
        simp [ManifoldMap.destroy, hx]
      have hI := ManifoldMap.inv_destroy h1 hd
      obtain ⟨m', h5, h6, h7, h8⟩ := ih _ hI (AMap.wf_erase h2 x.1) h3.2 (by
        intro y hy
        have hne : x.1 ≠ y.1 := fun he => h3.1 (by rw [he]; exact List.mem_map_of_mem hy)
        have := h4 y (List.mem_cons_of_mem _ hy)
        simp [AMap.get?_erase, this, Ne.symm hne])
      refine ⟨m', ?_, h6, h7, ?_⟩
      · rw [List.foldlM_cons, if_pos hG, hd]
        exact h5
      · intro i p
        rw [h8 i p]
        simp only [AMap.get?_erase]
        by_cases hi : i = x.1
        · subst hi
          simp only [if_true, reduceCtorEq, false_and, false_iff, not_and, not_not]
          intro hp
          rw [hx] at hp
          cases hp
          intro hh
          exact hh (by simp) hG
        · rw [if_neg hi]
          have : (i, p) ≠ x := by rintro rfl; exact hi rfl
          simp [this]
    · obtain ⟨m', h5, h6, h7, h8⟩ := ih m h1 h2 h3.2 fun y hy => h4 y (List.mem_cons_of_mem _ hy)
      refine ⟨m', ?_, h6, h7, ?_⟩
      · rw [List.foldlM_cons, if_neg hG]
        exact h5
      · intro i p
        rw [h8 i p]
        constructor
        · rintro ⟨h9, h10⟩
          refine ⟨h9, ?_⟩
          rintro ⟨h11, h12⟩
          rcases List.mem_cons.1 h11 with h13 | h13
          · rw [h13] at h12; exact hG h12
          · exact h10 ⟨h13, h12⟩
        · rintro ⟨h9, h10⟩
          exact ⟨h9, fun h11 => h10 ⟨List.mem_cons_of_mem _ h11.1, h11.2⟩⟩

/-- The same, over all the manifolds. -/
theorem drop_all (G : Nat × (Nat × Nat) → Bool) (m : ManifoldMap.State) (h1 : ManifoldMap.Inv m)
    (h2 : m.manifolds.WF) :
    ∃ m', m.manifolds.entries.foldlM
        (fun m x => if G x then ManifoldMap.destroy m x.1 else some m) m = some m' ∧
      ManifoldMap.Inv m' ∧ m'.manifolds.WF ∧
      ∀ i p, m'.manifolds.get? i = some p ↔ m.manifolds.get? i = some p ∧ G (i, p) = false := by
  obtain ⟨m', h3, h4, h5, h6⟩ := drop_spec G m.manifolds.entries m h1 h2 h2
    fun x hx => AMap.get?_of_mem h2 hx
  refine ⟨m', h3, h4, h5, fun i p => ?_⟩
  rw [h6 i p]
  constructor
  · rintro ⟨h7, h8⟩
    refine ⟨h7, ?_⟩
    by_contra hG
    exact h8 ⟨AMap.mem_of_get? h7, by simpa using hG⟩
  · rintro ⟨h7, h8⟩
    exact ⟨h7, fun h9 => by rw [h8] at h9; exact absurd h9.2 (by simp)⟩

variable {S : Type} [LinearOrder S] [AddCommGroup S]

/-- The boxes of two bodies are farther apart than `k` in some direction. -/
def Apart (w : World S) (k : S) (x y : Nat) : Prop :=
  ∃ a b, w.aabb x = some a ∧ w.aabb y = some b ∧ ¬(grow k a).Overlaps b

theorem dropSeparated_spec (C : Config S) (w : World S) (h : MapInv w.aabb (w.map, w.next)) :
    ∃ m, dropSeparated C w = some { w with map := m } ∧ MapInv w.aabb (m, w.next) ∧
      ∀ i x y, m.manifolds.get? i = some (x, y) ↔
        w.map.manifolds.get? i = some (x, y) ∧ ¬(w.idle i = false ∧ Apart w C.apart x y) := by
  classical
  let G : Nat × (Nat × Nat) → Bool :=
    fun x => decide (w.idle x.1 = false ∧ Apart w C.apart x.2.1 x.2.2)
  obtain ⟨m, h1, h2, h3, h4⟩ := drop_all G w.map h.map h.wf
  have hG : w.map.manifolds.entries.foldlM (dropOne C w) w.map = some m := by
    rw [← h1]
    apply foldlM_congr
    rintro a ⟨i, b0, b1⟩ hx
    have hm := AMap.get?_of_mem h.wf hx
    obtain ⟨h5, h6⟩ := h.boxes i b0 b1 hm
    obtain ⟨a0, ha0⟩ := Option.ne_none_iff_exists'.1 h5
    obtain ⟨a1, ha1⟩ := Option.ne_none_iff_exists'.1 h6
    simp only [dropOne, ha0, ha1]
    by_cases hi : w.idle i = true
    · simp [hi, G]
    · have hi' : w.idle i = false := by simpa using hi
      by_cases ho : (grow C.apart a0).Overlaps a1
      · have : G (i, b0, b1) = false := by
          simp only [G, hi', true_and, decide_eq_false_iff_not]
          rintro ⟨a, b, h7, h8, h9⟩
          simp only [ha0, ha1, Option.some.injEq] at h7 h8
          subst h7 h8
          exact h9 ho
        simp [hi', this, (Box.intersect_iff _ _).2 ho]
      · have : G (i, b0, b1) = true := by
          simp only [G, hi', true_and, decide_eq_true_eq]
          exact ⟨a0, a1, ha0, ha1, ho⟩
        have hn : (grow C.apart a0).intersect a1 = false := by
          rw [Bool.eq_false_iff]; exact fun hh => ho ((Box.intersect_iff _ _).1 hh)
        simp [hi', this, hn]
  refine ⟨m, by simp [dropSeparated, hG], ⟨h2, h3, ?_, ?_⟩, ?_⟩
  · intro i p hp
    exact h.lt i p ((h4 i p).1 hp).1
  · intro i b0 b1 hp
    exact h.boxes i b0 b1 ((h4 i _).1 hp).1
  · intro i x y
    rw [h4 i (x, y)]
    simp [G]

theorem dropInert_spec (w : World S) (e : Nat) (h : MapInv w.aabb (w.map, w.next)) :
    ∃ m, dropInert w e = some { w with map := m } ∧ MapInv w.aabb (m, w.next) ∧
      ∀ i x y, m.manifolds.get? i = some (x, y) ↔
        w.map.manifolds.get? i = some (x, y) ∧
        ¬((x = e ∨ y = e) ∧ (w.kind (if x = e then y else x)).procedural = false) := by
  classical
  let G : Nat × (Nat × Nat) → Bool := fun x => decide ((x.2.1 = e ∨ x.2.2 = e) ∧
    (w.kind (if x.2.1 = e then x.2.2 else x.2.1)).procedural = false)
  obtain ⟨m, h1, h2, h3, h4⟩ := drop_all G w.map h.map h.wf
  refine ⟨m, ?_, ⟨h2, h3, ?_, ?_⟩, ?_⟩
  · suffices hG : w.map.manifolds.entries.foldlM (fun m (i, (b0, b1)) =>
        if b0 = e ∨ b1 = e then
          if (w.kind (if b0 = e then b1 else b0)).procedural then some m
          else ManifoldMap.destroy m i
        else some m) w.map = some m by
      unfold dropInert
      rw [hG]
      rfl
    rw [← h1]
    apply foldlM_congr
    rintro a ⟨i, b0, b1⟩ _
    by_cases h5 : b0 = e ∨ b1 = e
    · cases h6 : (w.kind (if b0 = e then b1 else b0)).procedural <;> simp [G, h5, h6]
    · simp [G, h5]
  · intro i p hp
    exact h.lt i p ((h4 i p).1 hp).1
  · intro i b0 b1 hp
    exact h.boxes i b0 b1 ((h4 i _).1 hp).1
  · intro i x y
    rw [h4 i (x, y)]
    simp only [G, decide_eq_false_iff_not]

theorem contains_iff {m : ManifoldMap.State} (h : ManifoldMap.Inv m) (x y : Nat) :
    ManifoldMap.contains m x y = true ↔ ∃ i, ManifoldMap.Joins m i x y := by
  rw [ManifoldMap.contains, AMap.contains_iff]
  exact exists_congr fun i => h x y i

/-- Making manifolds for a list of pairs. -/
theorem finish_spec (w : World S) : ∀ (l : List (Nat × Nat)) (m : Made), MapInv w.aabb m →
    (∀ x ∈ l, w.kind x.1 = .dynamic ∧ w.aabb x.1 ≠ none ∧ w.aabb x.2 ≠ none) →
    ∃ m', l.foldlM (finishOne w) m = some m' ∧ MapInv w.aabb m' ∧
      (∀ i p, m.1.manifolds.get? i = some p → m'.1.manifolds.get? i = some p) ∧
      (∀ i p, m'.1.manifolds.get? i = some p → m.1.manifolds.get? i = some p ∨ p ∈ l ∧ m.2 ≤ i) ∧
      (∀ x ∈ l, ManifoldMap.contains m'.1 x.1 x.2 = true) := by
  intro l
  induction l with
  | nil => intro m h _; exact ⟨m, rfl, h, fun _ _ h => h, fun _ _ h => Or.inl h, by simp⟩
  | cons x l ih =>
    intro m h hl
    obtain ⟨hk, ha0, ha1⟩ := hl x (by simp)
    by_cases hc : ManifoldMap.contains m.1 x.1 x.2 = true
    · obtain ⟨m', h1, h2, h3, h4, h5⟩ := ih m h fun y hy => hl y (List.mem_cons_of_mem _ hy)
      refine ⟨m', ?_, h2, h3, ?_, ?_⟩
      · rw [List.foldlM_cons, finishOne, if_pos hc]; exact h1
      · intro i p hp
        exact (h4 i p hp).imp id fun hh => ⟨List.mem_cons_of_mem _ hh.1, hh.2⟩
      · intro y hy
        rcases List.mem_cons.1 hy with rfl | hy
        · obtain ⟨i, hi⟩ := (contains_iff h.map _ _).1 hc
          exact (contains_iff h2.map _ _).2 ⟨i, hi.imp (h3 i _) (h3 i _)⟩
        · exact h5 y hy
    · have hnone : m.1.manifolds.get? m.2 = none := by
        cases hg : m.1.manifolds.get? m.2 with
        | none => rfl
        | some p => exact absurd (h.lt _ _ hg) (lt_irrefl _)
      have hc1 : m.1.pairMap.contains (x.1, x.2) = false := by
        simpa [ManifoldMap.contains] using hc
      have hc2 : m.1.pairMap.contains (x.2, x.1) = false := by
        rw [Bool.eq_false_iff]
        intro hh
        apply hc
        obtain ⟨i, hi⟩ := (contains_iff h.map x.2 x.1).1 hh
        exact (contains_iff h.map x.1 x.2).2 ⟨i, hi.symm⟩
      have hcn : m.1.manifolds.contains m.2 = false := by
        rw [AMap.contains, hnone]; rfl
      have hcon : ManifoldMap.construct m.1 m.2 x.1 x.2 = some ⟨m.1.manifolds.set m.2 (x.1, x.2),
          (m.1.pairMap.set (x.1, x.2) m.2).set (x.2, x.1) m.2⟩ := by
        simp [ManifoldMap.construct, hcn, hc1, hc2]
      have hI := ManifoldMap.inv_construct h.map hcon
      have hM : MapInv w.aabb (⟨m.1.manifolds.set m.2 (x.1, x.2),
          (m.1.pairMap.set (x.1, x.2) m.2).set (x.2, x.1) m.2⟩, m.2 + 1) := by
        refine ⟨hI, AMap.wf_set h.wf _ _, ?_, ?_⟩
        · intro i p hp
          simp only [AMap.get?_set] at hp
          split at hp
          · rename_i hi
            rw [hi]
            exact Nat.lt_succ_self m.2
          · exact Nat.lt_succ_of_lt (h.lt i p hp)
        · intro i b0 b1 hp
          simp only [AMap.get?_set] at hp
          split at hp
          · cases hp; exact ⟨ha0, ha1⟩
          · exact h.boxes i b0 b1 hp
      obtain ⟨m', h1, h2, h3, h4, h5⟩ := ih _ hM fun y hy => hl y (List.mem_cons_of_mem _ hy)
      refine ⟨m', ?_, h2, ?_, ?_, ?_⟩
      · rw [List.foldlM_cons, finishOne, if_neg hc, make, if_pos (Or.inl hk), hcon]
        exact h1
      · intro i p hp
        apply h3
        have : i ≠ m.2 := by rintro rfl; rw [hnone] at hp; cases hp
        simpa [AMap.get?_set, this] using hp
      · intro i p hp
        rcases h4 i p hp with h6 | h6
        · simp only [AMap.get?_set] at h6
          split at h6
          · rename_i hi; cases h6; exact Or.inr ⟨by simp, hi ▸ le_refl _⟩
          · exact Or.inl h6
        · exact Or.inr ⟨List.mem_cons_of_mem _ h6.1, Nat.le_of_succ_le h6.2⟩
      · intro y hy
        rcases List.mem_cons.1 hy with rfl | hy
        · exact (contains_iff h2.map _ _).2 ⟨m.2, Or.inl (h3 _ _ (by simp [AMap.get?_set]))⟩
        · exact h5 y hy

/-- The pairs found for `e` in one tree. -/
def hits (C : Config S) (w : World S) (t : DynTree.State S) (e : Nat) (box : Box S)
    (ids : List Nat) : List (Nat × Nat) :=
  ids.filterMap fun id => (t.c2 id).bind fun o =>
    if C.collides e o && !w.off o && (w.aabb o).any (fun b => box.intersect b) then some (e, o)
    else none

theorem hitAsync_list (C : Config S) (w : World S) (t : DynTree.State S) (e : Nat) (box : Box S) :
    ∀ (ids : List Nat) (acc : List (Nat × Nat)),
    (∀ id ∈ ids, ∃ o b, t.c2 id = some o ∧ w.aabb o = some b) →
    ids.foldlM (hitAsync C w t e box) acc = some (acc ++ hits C w t e box ids) := by
  intro ids
  induction ids with
  | nil => intro acc _; simp [hits]
  | cons id ids ih =>
    intro acc h
    obtain ⟨o, b, h1, h2⟩ := h id (by simp)
    have ih' := fun acc => ih acc fun j hj => h j (List.mem_cons_of_mem _ hj)
    rw [List.foldlM_cons]
    have hh : hitAsync C w t e box acc id = some (acc ++ hits C w t e box [id]) := by
      simp only [hitAsync, h1, h2, hits, List.filterMap_cons, List.filterMap_nil, Option.bind_some,
        Option.any_some]
      cases C.collides e o <;> cases w.off o <;> cases box.intersect b <;> simp
    rw [hh]
    show ids.foldlM (hitAsync C w t e box) _ = _
    rw [ih', List.append_assoc]
    congr 2
    rw [hits, hits, hits, ← List.filterMap_append]
    rfl

theorem hit_list (C : Config S) (w : World S) (t : DynTree.State S) (e : Nat) (box : Box S) :
    ∀ (ids : List Nat) (m : Made),
    (∀ id ∈ ids, ∃ o b, t.c2 id = some o ∧ w.aabb o = some b) →
    ids.foldlM (hit C w t e box) m = (hits C w t e box ids).foldlM (finishOne w) m := by
  intro ids
  induction ids with
  | nil => intro m _; simp [hits]
  | cons id ids ih =>
    intro m h
    obtain ⟨o, b, h1, h2⟩ := h id (by simp)
    have ih' := fun m => ih m fun j hj => h j (List.mem_cons_of_mem _ hj)
    have hsplit : hits C w t e box (id :: ids) = hits C w t e box [id] ++ hits C w t e box ids := by
      rw [hits, hits, hits, ← List.filterMap_append]
      rfl
    rw [hsplit, List.foldlM_append, List.foldlM_cons]
    have hh : hit C w t e box m id = (hits C w t e box [id]).foldlM (finishOne w) m := by
      simp only [hit, h1, h2, hits, List.filterMap_cons, List.filterMap_nil, Option.bind_some,
        Option.any_some]
      cases C.collides e o <;> cases w.off o <;> cases box.intersect b <;>
        cases hc : ManifoldMap.contains m.1 e o <;> simp [finishOne, hc]
    rw [hh]
    congr 1
    funext m
    exact ih' m

/-- What a query of one of the trees finds. -/
theorem query_bodies {w : World S} {L : Bool → Live S} {seen : Nat → Option (Box S)}
    (h : TreeInv w L seen) (p : Bool) (q : Box S) :
    ∃ ids, DynTree.query (w.tree p) q = some ids ∧ ids.Nodup ∧
      (∀ id ∈ ids, ∃ o b, (w.tree p).c2 id = some o ∧ w.aabb o = some b ∧
        w.resident o = some (id, p)) ∧
      ∀ o id b, w.resident o = some (id, p) → seen o = some b → b.Overlaps q →
        id ∈ ids ∧ (w.tree p).c2 id = some o := by
  obtain ⟨ids, h1, h2, h3⟩ := query_good (h.good p) q
  obtain ⟨ot, fl, hI, hL, hB⟩ := h.good p
  refine ⟨ids, h1, h2, ?_, ?_⟩
  · intro id hid
    obtain ⟨x, hx⟩ := Option.ne_none_iff_exists'.1 ((h3 id).1 hid).1
    obtain ⟨e, he, hr⟩ := h.live p id x.1 x.2 hx
    obtain ⟨b, hb⟩ := Option.ne_none_iff_exists'.1 (h.has e id p hr).1
    exact ⟨e, b, by rw [(hB id x.1 x.2 hx).1, he], hb, hr⟩
  · intro o id b hr hs ho
    obtain ⟨c, hc, hsc⟩ := h.res o id p hr
    rw [hs] at hsc
    cases hsc
    obtain ⟨h4, h5⟩ := hB id _ b hc
    refine ⟨(h3 id).2 ⟨by rw [hc]; simp, ?_⟩, h4⟩
    simp only [Box.Encloses, Box.Overlaps] at h5 ho ⊢
    obtain ⟨⟨o1, o2⟩, ⟨o3, o4⟩, o5, o6⟩ := ho
    obtain ⟨e1, e2, e3, e4, e5, e6⟩ := h5
    exact ⟨⟨e1.trans o1, o2.trans e4⟩, ⟨e2.trans o3, o4.trans e5⟩, e3.trans o5, o6.trans e6⟩

end Edyn.Broad
