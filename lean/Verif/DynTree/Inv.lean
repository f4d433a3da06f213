import Verif.DynTree.Refit
import Mathlib.Data.List.Perm.Subperm

/-!
# The invariant of the node array and the effect of each member function
-/

namespace Edyn.DynTree

variable {S : Type} [LinearOrder S]

/-- All ids of a possibly empty tree. -/
def idsO : Option T → List Nat
  | none => []
  | some t => t.ids

/-- All leaves of a possibly empty tree. -/
def leavesO : Option T → List Nat
  | none => []
  | some t => t.leaves

/-- The array represents the tree `ot`, the free list `fl`, and nodes `ex` which are in neither.
Every slot of the array is in exactly one of the three. -/
structure Inv (s : State S) (ot : Option T) (fl ex : List Nat) : Prop where
  chain : FreeChain s s.freeList fl
  nodup : (idsO ot ++ (fl ++ ex)).Nodup
  cover : ∀ i, i < s.size ↔ i ∈ idsO ot ++ (fl ++ ex)
  root : s.root = ot.map T.id
  rep : ∀ t, ot = some t → s.up t.id = none ∧ Rep s t

theorem leavesO_sub {ot : Option T} {j : Nat} (h : j ∈ leavesO ot) : j ∈ idsO ot := by
  cases ot with
  | none => simp [leavesO] at h
  | some t => exact T.leaves_sub h

theorem allocate_spec {s : State S} {ot : Option T} {fl ex : List Nat} (h : Inv s ot fl ex) :
    ∃ id s' fl', allocate s = some (id, s') ∧ Inv s' ot fl' (id :: ex) ∧
      id ∉ idsO ot ∧ id ∉ ex ∧ s'.up id = none ∧ s'.c1 id = none ∧ s'.c2 id = none ∧
      s'.height id = 0 ∧ s'.root = s.root ∧ s'.box = s.box ∧ (∀ j, j ≠ id → Same s s' j) ∧
      s.size ≤ s'.size := by
  obtain ⟨hch, hnd, hcov, hroot, hrep⟩ := h
  cases fl with
  | nil =>
    have hfl : s.freeList = none := hch
    have hns : s.size ∉ idsO ot ++ ([] ++ ex) := fun hh => by
      have := (hcov s.size).2 hh; omega
    simp only [List.nil_append, List.mem_append, not_or] at hns
    have same : ∀ j, j ≠ s.size → Same s { s with
        size := s.size + 1, up := upd s.up s.size none, c1 := upd s.c1 s.size none,
        c2 := upd s.c2 s.size none, height := upd s.height s.size 0 } j := by
      intro j hj; simp [Same, upd_apply, hj]
    refine ⟨s.size, { s with
        size := s.size + 1, up := upd s.up s.size none, c1 := upd s.c1 s.size none,
        c2 := upd s.c2 s.size none, height := upd s.height s.size 0 }, [], by simp [allocate, hfl], ⟨?_, ?_, ?_, hroot, ?_⟩, hns.1, hns.2, by simp,
      by simp, by simp, by simp, rfl, rfl, same, by simp⟩
    · exact hfl
    · refine (List.Perm.nodup_iff (l₁ := s.size :: (idsO ot ++ ([] ++ ex))) ?_).1 ?_
      · rw [List.perm_iff_count]; intro z
        simp only [List.count_append, List.count_cons]; omega
      · simp only [List.nodup_cons]
        exact ⟨by simp [hns], hnd⟩
    · intro i
      have := hcov i
      simp only [List.nil_append, List.mem_append, List.mem_cons] at this ⊢
      constructor
      · intro hi
        by_cases e : i = s.size
        · exact Or.inr (Or.inl e)
        · rcases this.1 (by omega) with h | h
          · exact Or.inl h
          · exact Or.inr (Or.inr h)
      · rintro (h | h | h)
        · have := this.2 (Or.inl h); omega
        · omega
        · have := this.2 (Or.inr h); omega
    · intro t ht
      obtain ⟨h1, h2⟩ := hrep t ht
      subst ht
      have nt : ∀ j ∈ t.ids, j ≠ s.size := fun j hj e => hns.1 (e ▸ hj)
      refine ⟨?_, Rep.same (s := s) ?_ (by simp) (fun j hj => same j (nt j hj)) h2⟩
      · simp [upd_apply, nt _ t.id_mem, h1]
      · exact (List.nodup_append.1 hnd).1
  | cons a fl =>
    obtain ⟨hfl, ha, hch⟩ := hch
    simp only [List.cons_append, List.nodup_append, List.nodup_cons, List.mem_cons, List.mem_append,
      not_or] at hnd
    obtain ⟨n1, ⟨⟨n2, n3⟩, n4, n5, n6⟩, n7⟩ := hnd
    have hat : a ∉ idsO ot := fun hh => n7 a hh a (Or.inl rfl) rfl
    have same : ∀ j, j ≠ a → Same s { s with
        freeList := s.up a, up := upd s.up a none, c1 := upd s.c1 a none,
        c2 := upd s.c2 a none, height := upd s.height a 0 } j := by
      intro j hj; simp [Same, upd_apply, hj]
    refine ⟨a, { s with
        freeList := s.up a, up := upd s.up a none, c1 := upd s.c1 a none,
        c2 := upd s.c2 a none, height := upd s.height a 0 }, fl,
      by simp [allocate, hfl, chk_some ha], ⟨?_, ?_, ?_, hroot, ?_⟩, hat, n3,
      by simp, by simp, by simp, by simp, rfl, rfl, same, by simp⟩
    · refine FreeChain.congr hch (by simp) ?_
      intro j hj
      have : j ≠ a := by rintro rfl; exact n2 hj
      simp [upd_apply, this]
    · simp only [List.nodup_append, List.nodup_cons, List.mem_cons, List.mem_append]
      grind
    · intro i
      have := hcov i
      simp only [List.cons_append, List.mem_append, List.mem_cons] at this ⊢
      rw [this]; grind
    · intro t ht
      obtain ⟨h1, h2⟩ := hrep t ht
      subst ht
      have nt : ∀ j ∈ t.ids, j ≠ a := fun j hj e => hat (e ▸ hj)
      refine ⟨?_, Rep.same (s := s) n1 (by simp) (fun j hj => same j (nt j hj)) h2⟩
      simp [upd_apply, nt _ t.id_mem, h1]

theorem free_spec {s : State S} {ot : Option T} {fl ex : List Nat} {a : Nat}
    (h : Inv s ot fl (a :: ex)) : Inv (free s a) ot (a :: fl) ex := by
  obtain ⟨hch, hnd, hcov, hroot, hrep⟩ := h
  simp only [List.nodup_append, List.nodup_cons, List.mem_cons, List.mem_append] at hnd
  obtain ⟨n1, ⟨n2, ⟨n3, n4⟩, n5⟩, n6⟩ := hnd
  have hat : a ∉ idsO ot := fun hh => n6 a hh a (Or.inr (Or.inl rfl)) rfl
  refine ⟨⟨rfl, ?_, ?_⟩, ?_, ?_, hroot, ?_⟩
  · exact (hcov a).2 (by simp)
  · have : (free s a).up a = s.freeList := by simp [free]
    rw [this]
    refine FreeChain.congr hch (by simp [free]) ?_
    intro j hj
    have : j ≠ a := n5 j hj a (Or.inl rfl)
    simp [free, upd_apply, this]
  · simp only [List.cons_append, List.nodup_append, List.nodup_cons, List.mem_cons, List.mem_append]
    grind
  · intro i
    have := hcov i
    simp only [List.cons_append, List.mem_append, List.mem_cons] at this ⊢
    simp only [free]
    rw [this]; grind
  · intro t ht
    obtain ⟨h1, h2⟩ := hrep t ht
    subst ht
    have nt : ∀ j ∈ t.ids, j ≠ a := fun j hj e => hat (e ▸ hj)
    refine ⟨?_, Rep.same (s := s) n1 (by simp [free]) ?_ h2⟩
    · simp [free, upd_apply, nt _ t.id_mem, h1]
    · intro j hj
      simp [Same, free, upd_apply, nt j hj]

/-- Writing the user fields of a node which is not in the tree. -/
theorem Inv.write {s s' : State S} {ot : Option T} {fl ex : List Nat} {a : Nat}
    (h : Inv s ot fl (a :: ex)) (hs : ∀ j, j ≠ a → Same s s' j)
    (h1 : s'.size = s.size) (h2 : s'.root = s.root) (h3 : s'.freeList = s.freeList) :
    Inv s' ot fl (a :: ex) := by
  obtain ⟨hch, hnd, hcov, hroot, hrep⟩ := h
  have hnd0 := hnd
  simp only [List.nodup_append, List.nodup_cons, List.mem_cons, List.mem_append] at hnd
  obtain ⟨n1, ⟨n2, ⟨n3, n4⟩, n5⟩, n6⟩ := hnd
  have hat : a ∉ idsO ot := fun hh => n6 a hh a (Or.inr (Or.inl rfl)) rfl
  refine ⟨?_, hnd0, ?_, by rw [h2, hroot], ?_⟩
  · rw [h3]
    exact FreeChain.congr hch (by omega) (fun j hj => (hs j (n5 j hj a (Or.inl rfl))).1)
  · rw [h1]; exact hcov
  · intro t ht
    obtain ⟨k1, k2⟩ := hrep t ht
    subst ht
    have nt : ∀ j ∈ t.ids, j ≠ a := fun j hj e => hat (e ▸ hj)
    exact ⟨by rw [(hs _ (nt _ t.id_mem)).1, k1],
      Rep.same (s := s) n1 (by omega) (fun j hj => hs j (nt j hj)) k2⟩

/-- The length of a list without repetition of numbers below `n`. -/
theorem nodup_length_le {l : List Nat} (h : l.Nodup) {n : Nat} (hb : ∀ i ∈ l, i < n) :
    l.length ≤ n := by
  have : l.length ≤ (List.range n).length := by
    apply List.Subperm.length_le
    exact List.subperm_of_subset h (fun i hi => List.mem_range.2 (hb i hi))
  simpa using this

theorem Inv.ids_length {s : State S} {t : T} {fl ex : List Nat} (h : Inv s (some t) fl ex) :
    t.ids.length ≤ s.size :=
  nodup_length_le (List.nodup_append.1 h.nodup).1
    (fun i hi => (h.cover i).2 (List.mem_append_left _ hi))

theorem Ctx.length_le (c : Ctx) : c.length ≤ c.ids.length := by
  induction c with
  | nil => simp
  | cons f c ih => simp only [List.length_cons, Ctx.ids, List.length_append]; omega

/-- `best` stops at some node of the tree. -/
theorem bestLoop_spec (ch : Choice S) {s : State S} {b : Box S} : ∀ {u : T} {c : Ctx} {fuel : Nat},
    Rep s u → u.ids.length ≤ fuel →
    ∃ (c' : Ctx) (v : T), bestLoop ch s b (fuel + 1) (some u.id) = some v.id ∧
      c.plug u = c'.plug v := by
  intro u
  induction u with
  | leaf i =>
    intro c fuel h _
    exact ⟨c, .leaf i, by simp [bestLoop, chk_some h.1, isLeaf, h.2.1], rfl⟩
  | node i l r hl hr =>
    intro c fuel h hf
    obtain ⟨k1, k2, k3, k4, k5, k6, k7, k8, k9⟩ := h
    simp only [T.ids, List.length_cons, List.length_append] at hf
    obtain ⟨fuel, rfl⟩ : ∃ f, fuel = f + 1 := ⟨fuel - 1, by omega⟩
    have hnl : isLeaf s i = false := by simp [isLeaf, k2]
    rw [bestLoop]
    simp only [T.id_node, chk_some k1, Option.bind_some, hnl, k2, k3, chk_some k8.lt,
      chk_some k9.lt, Bool.false_eq_true, if_false]
    split
    · exact ⟨c, .node i l r, rfl, rfl⟩
    · exact hl (c := ⟨i, true, r⟩ :: c) k8 (by omega)
    · exact hr (c := ⟨i, false, l⟩ :: c) k9 (by omega)

end Edyn.DynTree
