import Mathlib.Data.List.Nodup
import Mathlib.Data.List.Perm.Subperm
import Mathlib.Logic.Function.Basic

/-!
# Lists of contact points (C33)

`contact_manifold_state`, `include/edyn/collision/contact_manifold.hpp` 19-22, and `contact_point_list`,
`include/edyn/collision/contact_point.hpp` 24-27, with the functions that change them:
`create_contact_point`, `destroy_contact_point` and `clear_contact_manifold`.  `D` stands for the other
components of a contact point.  Entities are numbers; the number of a destroyed contact point is not
used again (in the registry a recycled identifier gets a new version).  `none` as a result means a
failed assertion, a component that is not there or a loop without end.
-/

namespace Edyn.Contact

variable {D : Type}

/-- `contact_point_list` and the other components of a contact point. -/
structure CP (D : Type) where
  parent : Nat
  next : Option Nat
  data : D

/-- `contact_manifold_state`. -/
structure Man where
  num : Nat := 0
  head : Option Nat := none
deriving DecidableEq

/-- The registry. -/
structure Reg (D : Type) where
  man : Nat → Option Man := fun _ => none
  cp : Nat → Option (CP D) := fun _ => none
  nextId : Nat := 0

/-- `create_contact_point`, `src/edyn/util/collision_util.cpp` 319-395: the list is changed in lines
347-355 and 387. -/
def create (r : Reg D) (m : Nat) (d : D) : Option (Reg D) :=
  match r.man m with
  | none => none
  | some s =>
    if s.num ≤ 4 then
      some
        { man := Function.update r.man m (some ⟨s.num + 1, some r.nextId⟩)
          cp := Function.update r.cp r.nextId (some ⟨m, s.head, d⟩)
          nextId := r.nextId + 1 }
    else none

/-- The loop of `destroy_contact_point`, lines 423-431: `id` is unlinked from behind `curr`. -/
def unlink (id : Nat) (nx : Option Nat) : Nat → Nat → Reg D → Option (Reg D)
  | 0, _, _ => none
  | fuel + 1, curr, r =>
    match r.cp curr with
    | none => none
    | some k =>
      if k.next = some id then
        some { r with cp := Function.update r.cp curr (some { k with next := nx }) }
      else
        match k.next with
        | none => none
        | some n => unlink id nx fuel n r

/-- `destroy_contact_point`, lines 420-434: the list without `id`, whose components are `k`. -/
def relink (r : Reg D) (id : Nat) (k : CP D) (s : Man) : Option (Reg D) :=
  match s.head with
  | none => none
  | some h =>
    if h = id then some { r with man := Function.update r.man k.parent (some ⟨s.num - 1, k.next⟩) }
    else
      match unlink id k.next r.nextId h r with
      | none => none
      | some r1 => some { r1 with man := Function.update r1.man k.parent (some ⟨s.num - 1, some h⟩) }

/-- `destroy_contact_point`, `collision_util.cpp` 415-438; a count of zero would wrap around. -/
def destroy (r : Reg D) (id : Nat) : Option (Reg D) :=
  match r.cp id with
  | none => none
  | some k =>
    match r.man k.parent with
    | none => none
    | some s =>
      if s.num = 0 then none
      else
        match relink r id k s with
        | none => none
        | some r1 => some { r1 with cp := Function.update r1.cp id none }

/-- Assignment to components of a contact point. -/
def modify (r : Reg D) (id : Nat) (g : D → D) : Option (Reg D) :=
  match r.cp id with
  | none => none
  | some k => some { r with cp := Function.update r.cp id (some { k with data := g k.data }) }

/-- The loop of `clear_contact_manifold`, `src/edyn/util/contact_manifold_util.cpp` 34-38. -/
def clearLoop : Nat → Option Nat → Reg D → Option (Reg D)
  | _, none, r => some r
  | 0, some _, _ => none
  | fuel + 1, some id, r =>
    match r.cp id with
    | none => none
    | some k => clearLoop fuel k.next { r with cp := Function.update r.cp id none }

/-- `clear_contact_manifold`, `contact_manifold_util.cpp` 26-41. -/
def clear (r : Reg D) (m : Nat) : Option (Reg D) :=
  match r.man m with
  | none => none
  | some s => clearLoop r.nextId s.head { r with man := Function.update r.man m (some {}) }

/-- `make_contact_manifold`, `src/edyn/util/constraint_util.cpp` 67-102: a new manifold has no points. -/
def makeManifold (r : Reg D) (m : Nat) : Option (Reg D) :=
  match r.man m with
  | some _ => none
  | none => some { r with man := Function.update r.man m (some {}) }

/-- A manifold is destroyed after its points: `broadphase::destroy_separated_manifolds`,
`src/edyn/collision/broadphase.cpp` 129-132. -/
def destroyManifold (r : Reg D) (m : Nat) : Option (Reg D) :=
  match clear r m with
  | none => none
  | some r1 => some { r1 with man := Function.update r1.man m none }

/-! ### Specification -/

/-- Walking along `next` from `h` visits contact points with these identifiers and data, all of which
have `m` as parent, and ends. -/
inductive Walk (r : Reg D) (m : Nat) : Option Nat → List (Nat × D) → Prop
  | nil : Walk r m none []
  | cons {id d nx l} : r.cp id = some ⟨m, nx, d⟩ → Walk r m nx l → Walk r m (some id) ((id, d) :: l)

/-- The lists `f m` are what the registry holds: the list of each manifold has as many entries as it
counts, no contact point is in a list twice, and all contact points are in the list of their parent. -/
structure Lists (r : Reg D) (f : Nat → List (Nat × D)) : Prop where
  walk : ∀ m s, r.man m = some s → Walk r m s.head (f m)
  num : ∀ m s, r.man m = some s → s.num = (f m).length
  absent : ∀ m, r.man m = none → f m = []
  nodup : ∀ m, ((f m).map Prod.fst).Nodup
  listed : ∀ id k, r.cp id = some k → (id, k.data) ∈ f k.parent
  fresh : ∀ id, r.nextId ≤ id → r.cp id = none

/-! ### Proofs -/

def headOf (l : List (Nat × D)) : Option Nat := l.head?.map Prod.fst

theorem Walk.head {r : Reg D} {m : Nat} {h : Option Nat} {l : List (Nat × D)} (w : Walk r m h l) :
    h = headOf l := by
  cases w <;> rfl

theorem Walk.congr {r r' : Reg D} {m : Nat} {h : Option Nat} {l : List (Nat × D)} (w : Walk r m h l)
    (hc : ∀ x ∈ l, r'.cp x.1 = r.cp x.1) : Walk r' m h l := by
  induction w with
  | nil => exact .nil
  | @cons id d nx l hk _ ih =>
    exact .cons (by rw [hc (id, d) (by simp)]; exact hk) (ih fun x hx => hc x (by simp [hx]))

theorem Walk.suffix {r : Reg D} {m : Nat} : ∀ {pre : List (Nat × D)} {h : Option Nat} {l : List (Nat × D)},
    Walk r m h (pre ++ l) → Walk r m (headOf l) l := by
  intro pre
  induction pre with
  | nil => intro h l w; rw [List.nil_append] at w; rw [← w.head]; exact w
  | cons a pre ih =>
    intro h l w
    cases w with
    | cons _ w => exact ih w

theorem Walk.mem {r : Reg D} {m : Nat} {h : Option Nat} {l : List (Nat × D)} (w : Walk r m h l)
    {x : Nat × D} (hx : x ∈ l) : ∃ nx, r.cp x.1 = some ⟨m, nx, x.2⟩ := by
  induction w with
  | nil => cases hx
  | @cons id d nx l hk _ ih =>
    rcases List.mem_cons.1 hx with rfl | hx
    · exact ⟨nx, hk⟩
    · exact ih hx

theorem Lists.man_of_mem {r : Reg D} {f : Nat → List (Nat × D)} (H : Lists r f) {m : Nat} {x : Nat × D}
    (hx : x ∈ f m) : ∃ s, r.man m = some s := by
  cases hm : r.man m with
  | none => rw [H.absent m hm] at hx; cases hx
  | some s => exact ⟨s, rfl⟩

theorem Lists.cp {r : Reg D} {f : Nat → List (Nat × D)} (H : Lists r f) {m : Nat} {x : Nat × D}
    (hx : x ∈ f m) : ∃ nx, r.cp x.1 = some ⟨m, nx, x.2⟩ := by
  obtain ⟨s, hs⟩ := H.man_of_mem hx
  exact (H.walk m s hs).mem hx

/-- A contact point is in one list only. -/
theorem Lists.unique {r : Reg D} {f : Nat → List (Nat × D)} (H : Lists r f) {m m' : Nat} {x y : Nat × D}
    (hx : x ∈ f m) (hy : y ∈ f m') (e : x.1 = y.1) : m = m' ∧ x = y := by
  obtain ⟨n1, h1⟩ := H.cp hx
  obtain ⟨n2, h2⟩ := H.cp hy
  rw [e, h2] at h1
  simp only [Option.some.injEq, CP.mk.injEq] at h1
  exact ⟨h1.1.symm, Prod.ext e h1.2.2.symm⟩

theorem start_lists : Lists ({} : Reg D) fun _ => [] :=
  ⟨fun _ _ h => (by cases h), fun _ _ h => (by cases h), fun _ _ => rfl, fun _ => List.nodup_nil,
    fun _ _ h => (by cases h), fun _ _ => rfl⟩

/-- The number of points bounds the loops. -/
theorem Lists.length_le {r : Reg D} {f : Nat → List (Nat × D)} (H : Lists r f) (m : Nat) :
    (f m).length ≤ r.nextId := by
  have h1 : ∀ a ∈ (f m).map Prod.fst, a ∈ List.range r.nextId := by
    intro a ha
    obtain ⟨x, hx, rfl⟩ := List.mem_map.1 ha
    obtain ⟨nx, hc⟩ := H.cp hx
    rw [List.mem_range]
    by_contra hlt
    rw [H.fresh x.1 (by omega)] at hc
    cases hc
  have := (List.subperm_of_subset (H.nodup m) h1).length_le
  simpa using this

theorem makeManifold_lists {r r' : Reg D} {f : Nat → List (Nat × D)} {m : Nat} (H : Lists r f)
    (h : makeManifold r m = some r') : Lists r' f := by
  unfold makeManifold at h
  cases hm : r.man m with
  | some s => rw [hm] at h; cases h
  | none =>
    rw [hm] at h; simp only [Option.some.injEq] at h; subst h
    have h0 := H.absent m hm
    refine ⟨?_, ?_, ?_, H.nodup, H.listed, H.fresh⟩
    · intro m' s hs
      by_cases e : m' = m
      · subst e
        simp only [Function.update_self, Option.some.injEq] at hs
        subst hs; rw [h0]; exact .nil
      · simp only [Function.update_of_ne e] at hs
        exact (H.walk m' s hs).congr fun _ _ => rfl
    · intro m' s hs
      by_cases e : m' = m
      · subst e
        simp only [Function.update_self, Option.some.injEq] at hs
        subst hs; rw [h0]; rfl
      · simp only [Function.update_of_ne e] at hs
        exact H.num m' s hs
    · intro m' hs
      by_cases e : m' = m
      · subst e; simp only [Function.update_self] at hs; cases hs
      · simp only [Function.update_of_ne e] at hs
        exact H.absent m' hs

theorem create_lists {r r' : Reg D} {f : Nat → List (Nat × D)} {m : Nat} {d : D} (H : Lists r f)
    (h : create r m d = some r') :
    Lists r' (Function.update f m ((r.nextId, d) :: f m)) ∧ r'.nextId = r.nextId + 1 := by
  unfold create at h
  cases hm : r.man m with
  | none => rw [hm] at h; cases h
  | some s =>
    rw [hm] at h; simp only at h
    split at h
    · simp only [Option.some.injEq] at h; subst h
      have hnew : ∀ q, ∀ x ∈ f q, x.1 ≠ r.nextId := by
        intro q x hx e
        obtain ⟨nx, hc⟩ := H.cp hx
        rw [H.fresh x.1 (by omega)] at hc; cases hc
      refine ⟨⟨?_, ?_, ?_, ?_, ?_, ?_⟩, rfl⟩
      · intro m' s' hs
        by_cases e : m' = m
        · subst e
          simp only [Function.update_self, Option.some.injEq] at hs ⊢
          subst hs
          refine .cons (Function.update_self ..) ?_
          exact (H.walk m' s hm).congr fun x hx => by
            simp only [Function.update_of_ne (hnew m' x hx)]
        · simp only [Function.update_of_ne e] at hs ⊢
          exact (H.walk m' s' hs).congr fun x hx => by
            simp only [Function.update_of_ne (hnew m' x hx)]
      · intro m' s' hs
        by_cases e : m' = m
        · subst e
          simp only [Function.update_self, Option.some.injEq] at hs ⊢
          subst hs; simp [H.num m' s hm]
        · simp only [Function.update_of_ne e] at hs ⊢
          exact H.num m' s' hs
      · intro m' hs
        by_cases e : m' = m
        · subst e; simp only [Function.update_self] at hs; cases hs
        · simp only [Function.update_of_ne e] at hs ⊢
          exact H.absent m' hs
      · intro m'
        by_cases e : m' = m
        · subst e
          simp only [Function.update_self, List.map_cons, List.nodup_cons]
          refine ⟨?_, H.nodup m'⟩
          intro hx
          obtain ⟨x, hx, e⟩ := List.mem_map.1 hx
          exact hnew m' x hx e
        · simp only [Function.update_of_ne e]; exact H.nodup m'
      · intro id k hk
        by_cases e : id = r.nextId
        · subst e
          simp only [Function.update_self, Option.some.injEq] at hk
          subst hk
          simp
        · simp only [Function.update_of_ne e] at hk
          have := H.listed id k hk
          by_cases e' : k.parent = m
          · rw [e'] at this ⊢; simp [this]
          · simp only [Function.update_of_ne e']; exact this
      · intro id hid
        simp only [] at hid
        have e : id ≠ r.nextId := by omega
        simp only [Function.update_of_ne e]
        exact H.fresh id (by omega)
    · cases h

theorem create_some {r : Reg D} {f : Nat → List (Nat × D)} {m : Nat} {d : D} (H : Lists r f)
    (hm : r.man m ≠ none) (hl : (f m).length ≤ 4) : ∃ r', create r m d = some r' := by
  unfold create
  cases hs : r.man m with
  | none => exact absurd hs hm
  | some s => simp only [H.num m s hs, if_pos hl]; exact ⟨_, rfl⟩

theorem create_man {r r' : Reg D} {m : Nat} {d : D} (h : create r m d = some r') (q : Nat) :
    r'.man q = none ↔ r.man q = none := by
  unfold create at h
  cases hm : r.man m with
  | none => rw [hm] at h; cases h
  | some s =>
    rw [hm] at h; simp only at h
    split at h
    · simp only [Option.some.injEq] at h; subst h
      by_cases e : q = m
      · subst e; simp [hm]
      · simp only [Function.update_of_ne e]
    · cases h

/-- Effect of an assignment on a list. -/
def modList (id : Nat) (g : D → D) (l : List (Nat × D)) : List (Nat × D) :=
  l.map fun x => if x.1 = id then (x.1, g x.2) else x

theorem modList_ids (id : Nat) (g : D → D) (l : List (Nat × D)) :
    (modList id g l).map Prod.fst = l.map Prod.fst := by
  simp only [modList, List.map_map]
  apply List.map_congr_left
  intro x _
  simp only [Function.comp]
  split <;> rfl

theorem modList_of_not_mem {id : Nat} {g : D → D} {l : List (Nat × D)}
    (h : ∀ x ∈ l, x.1 ≠ id) : modList id g l = l := by
  unfold modList
  conv_rhs => rw [← List.map_id l]
  apply List.map_congr_left
  intro x hx
  rw [if_neg (h x hx)]; rfl

theorem modify_lists {r : Reg D} {f : Nat → List (Nat × D)} {m : Nat} {x : Nat × D} {g : D → D}
    (H : Lists r f) (hx : x ∈ f m) :
    ∃ r', modify r x.1 g = some r' ∧ Lists r' (Function.update f m (modList x.1 g (f m))) ∧
      r'.nextId = r.nextId ∧ ∀ q, r'.man q = r.man q := by
  obtain ⟨id, d⟩ := x
  obtain ⟨nx, hc⟩ := H.cp hx
  simp only at hc
  refine ⟨{ r with cp := Function.update r.cp id (some ⟨m, nx, g d⟩) }, ?_, ?_, rfl, fun _ => rfl⟩
  · simp only [modify, hc]
  · have walk : ∀ (l : List (Nat × D)) (q : Nat) (h : Option Nat), Walk r q h l →
        Walk { r with cp := Function.update r.cp id (some ⟨m, nx, g d⟩) } q h (modList id g l) := by
      intro l q h w
      induction w with
      | nil => exact .nil
      | @cons id' d' nx' l' hk _ ih =>
        by_cases e : id' = id
        · subst e
          rw [hc] at hk
          simp only [Option.some.injEq, CP.mk.injEq] at hk
          obtain ⟨rfl, rfl, rfl⟩ := hk
          simp only [modList, List.map_cons, if_pos] at ih ⊢
          exact .cons (Function.update_self ..) ih
        · simp only [modList, List.map_cons, if_neg e] at ih ⊢
          refine .cons ?_ ih
          simp only [Function.update_of_ne e]; exact hk
    have other : ∀ q, q ≠ m → modList id g (f q) = f q := by
      intro q hq
      apply modList_of_not_mem
      intro y hy e
      exact hq (H.unique hy hx e).1
    have upd : ∀ q, Function.update f m (modList id g (f m)) q = modList id g (f q) := by
      intro q
      by_cases e : q = m
      · subst e; rw [Function.update_self]
      · rw [Function.update_of_ne e, other q e]
    refine ⟨?_, ?_, ?_, ?_, ?_, ?_⟩
    · intro q s hs
      rw [upd]; exact walk _ _ _ (H.walk q s hs)
    · intro q s hs
      rw [upd]; simp only [modList, List.length_map]; exact H.num q s hs
    · intro q hs
      rw [upd, H.absent q hs]; rfl
    · intro q
      rw [upd, modList_ids]; exact H.nodup q
    · intro id' k hk
      rw [upd]
      by_cases e : id' = id
      · subst e
        simp only [Function.update_self, Option.some.injEq] at hk
        subst hk
        exact List.mem_map.2 ⟨(id', d), hx, by simp⟩
      · simp only [Function.update_of_ne e] at hk
        exact List.mem_map.2 ⟨(id', k.data), H.listed id' k hk, by simp [e]⟩
    · intro id' hid
      have : id' ≠ id := by
        rintro rfl
        rw [H.fresh id' hid] at hc; cases hc
      simp only [Function.update_of_ne this]
      exact H.fresh id' hid

/-- Effect of a removal on a list. -/
def rmList (id : Nat) (l : List (Nat × D)) : List (Nat × D) := l.filter fun x => decide (x.1 ≠ id)

theorem rmList_of_not_mem {id : Nat} {l : List (Nat × D)} (h : ∀ x ∈ l, x.1 ≠ id) : rmList id l = l := by
  apply List.filter_eq_self.2
  intro x hx
  simpa using h x hx

theorem rmList_length {id : Nat} {l : List (Nat × D)} (hn : (l.map Prod.fst).Nodup) {d : D}
    (h : (id, d) ∈ l) : (rmList id l).length + 1 = l.length := by
  induction l with
  | nil => cases h
  | cons x l ih =>
    simp only [List.map_cons, List.nodup_cons] at hn
    by_cases e : x.1 = id
    · have h0 : rmList id l = l := rmList_of_not_mem fun y hy e' =>
        hn.1 (List.mem_map.2 ⟨y, hy, e'.trans e.symm⟩)
      have : rmList id (x :: l) = rmList id l := by simp [rmList, e]
      rw [this, h0, List.length_cons]
    · have : rmList id (x :: l) = x :: rmList id l := by simp [rmList, e]
      rw [this, List.length_cons, List.length_cons]
      rcases List.mem_cons.1 h with rfl | h
      · exact absurd rfl e
      · rw [ih hn.2 h]

theorem unlink_spec {r : Reg D} {m id : Nat} {nx : Option Nat} {d : D} (hk : r.cp id = some ⟨m, nx, d⟩) :
    ∀ (l : List (Nat × D)) (curr : Nat) (fuel : Nat), Walk r m (some curr) l → (l.map Prod.fst).Nodup →
    (id, d) ∈ l → curr ≠ id → l.length ≤ fuel →
    ∃ r', unlink id nx fuel curr r = some r' ∧ r'.man = r.man ∧ r'.nextId = r.nextId ∧
      (∀ id', (∀ y ∈ l, y.1 ≠ id') → r'.cp id' = r.cp id') ∧ r'.cp id = r.cp id ∧
      (∀ id' k, r'.cp id' = some k → ∃ k', r.cp id' = some k' ∧ k'.parent = k.parent ∧ k'.data = k.data) ∧
      Walk r' m (some curr) (rmList id l) := by
  intro l
  induction l with
  | nil => intro curr fuel w; cases w
  | cons x l ih =>
    intro curr fuel w hn hmem hne hf
    cases w with
    | @cons _ d0 nx0 _ hc w =>
      cases fuel with
      | zero => simp at hf
      | succ fuel =>
        simp only [List.map_cons, List.nodup_cons] at hn
        have hmem' : (id, d) ∈ l := by
          rcases List.mem_cons.1 hmem with e | h
          · exact absurd (congrArg Prod.fst e).symm hne
          · exact h
        have hrm : rmList id ((curr, d0) :: l) = (curr, d0) :: rmList id l := by simp [rmList, hne]
        simp only [unlink, hc]
        by_cases e : nx0 = some id
        · rw [if_pos e]
          refine ⟨_, rfl, rfl, rfl, ?_, ?_, ?_, ?_⟩
          · intro id' hid'
            have : id' ≠ curr := fun e => hid' (curr, d0) (by simp) e.symm
            simp only [Function.update_of_ne this]
          · simp only [Function.update_of_ne (Ne.symm hne)]
          · intro id' k hk'
            by_cases e' : id' = curr
            · subst e'
              simp only [Function.update_self, Option.some.injEq] at hk'
              subst hk'
              exact ⟨_, hc, rfl, rfl⟩
            · simp only [Function.update_of_ne e'] at hk'
              exact ⟨k, hk', rfl, rfl⟩
          · rw [hrm]
            refine .cons (Function.update_self ..) ?_
            subst e
            cases w with
            | @cons _ d1 nx1 l1 hc1 w1 =>
              rw [hk] at hc1
              simp only [Option.some.injEq, CP.mk.injEq, true_and] at hc1
              obtain ⟨rfl, rfl⟩ := hc1
              simp only [List.map_cons, List.nodup_cons, List.mem_cons, not_or] at hn
              have h0 : rmList id ((id, d) :: l1) = l1 := by
                have : rmList id ((id, d) :: l1) = rmList id l1 := by simp [rmList]
                rw [this]
                exact rmList_of_not_mem fun y hy e' =>
                  hn.2.1 (List.mem_map.2 ⟨y, hy, e'⟩)
              rw [h0]
              refine w1.congr fun y hy => ?_
              have : y.1 ≠ curr := fun e' => hn.1.2 (List.mem_map.2 ⟨y, hy, e'⟩)
              simp only [Function.update_of_ne this]
        · rw [if_neg e]
          cases nx0 with
          | none => cases w; cases hmem'
          | some n =>
            simp only
            have hn' : n ≠ id := fun e' => e (by rw [e'])
            obtain ⟨r', h1, h2, h3, h4, h5, h6, h7⟩ := ih n fuel w hn.2 hmem' hn' (by
              simp at hf; exact hf)
            refine ⟨r', h1, h2, h3, ?_, h5, h6, ?_⟩
            · intro id' hid'
              exact h4 id' fun y hy => hid' y (by simp [hy])
            · rw [hrm]
              refine .cons ?_ h7
              rw [h4 curr fun y hy e' => hn.1 (List.mem_map.2 ⟨y, hy, e'⟩)]
              exact hc

theorem destroy_lists {r : Reg D} {f : Nat → List (Nat × D)} {m : Nat} {x : Nat × D} (H : Lists r f)
    (hx : x ∈ f m) :
    ∃ r', destroy r x.1 = some r' ∧ Lists r' (Function.update f m (rmList x.1 (f m))) ∧
      r'.nextId = r.nextId ∧ ∀ q, (r'.man q = none ↔ r.man q = none) := by
  obtain ⟨id, d⟩ := x
  obtain ⟨nx, hc⟩ := H.cp hx
  obtain ⟨s, hs⟩ := H.man_of_mem hx
  simp only at hc
  have w := H.walk m s hs
  have hnum := H.num m s hs
  have hnd := H.nodup m
  have hlen := rmList_length hnd hx
  have other : ∀ q, q ≠ m → ∀ y ∈ f q, y.1 ≠ id := by
    intro q hq y hy e
    exact hq (H.unique hy hx e).1
  -- what is needed of the registry before the contact point itself is destroyed
  have fin : ∀ (r1 : Reg D) (h1 : Option Nat), r1.man = Function.update r.man m (some ⟨s.num - 1, h1⟩) →
      r1.nextId = r.nextId → (∀ id', (∀ y ∈ f m, y.1 ≠ id') → r1.cp id' = r.cp id') →
      (∀ id' k, r1.cp id' = some k → ∃ k', r.cp id' = some k' ∧ k'.parent = k.parent ∧ k'.data = k.data) →
      Walk r1 m h1 (rmList id (f m)) →
      Lists { r1 with cp := Function.update r1.cp id none } (Function.update f m (rmList id (f m))) := by
    intro r1 h1 e1 e2 e3 e5 e4
    refine ⟨?_, ?_, ?_, ?_, ?_, ?_⟩
    · intro q s' hs'
      simp only [e1] at hs'
      by_cases e : q = m
      · subst e
        simp only [Function.update_self, Option.some.injEq] at hs' ⊢
        subst hs'
        refine e4.congr fun y hy => ?_
        have : y.1 ≠ id := by simpa using (List.mem_filter.1 hy).2
        simp only [Function.update_of_ne this]
      · simp only [Function.update_of_ne e] at hs' ⊢
        refine (H.walk q s' hs').congr fun y hy => ?_
        simp only [Function.update_of_ne (other q e y hy)]
        apply e3
        intro z hz e'
        exact e (H.unique hy hz e'.symm).1
    · intro q s' hs'
      simp only [e1] at hs'
      by_cases e : q = m
      · subst e
        simp only [Function.update_self, Option.some.injEq] at hs' ⊢
        subst hs'; simp only; omega
      · simp only [Function.update_of_ne e] at hs' ⊢
        exact H.num q s' hs'
    · intro q hs'
      simp only [e1] at hs'
      by_cases e : q = m
      · subst e; simp only [Function.update_self] at hs'; cases hs'
      · simp only [Function.update_of_ne e] at hs' ⊢
        exact H.absent q hs'
    · intro q
      by_cases e : q = m
      · subst e
        simp only [Function.update_self]
        exact hnd.sublist (List.filter_sublist.map _)
      · simp only [Function.update_of_ne e]; exact H.nodup q
    · intro id' k hk
      by_cases e : id' = id
      · subst e; simp only [Function.update_self] at hk; cases hk
      · simp only [Function.update_of_ne e] at hk
        obtain ⟨k', hk', ep, ed⟩ := e5 id' k hk
        have := H.listed id' k' hk'
        rw [ep, ed] at this
        by_cases e' : k.parent = m
        · rw [e'] at this ⊢
          simp only [Function.update_self]
          exact List.mem_filter.2 ⟨this, by simpa using e⟩
        · simp only [Function.update_of_ne e']; exact this
    · intro id' hid
      simp only [e2] at hid
      by_cases e : id' = id
      · subst e; simp only [Function.update_self]
      · simp only [Function.update_of_ne e]
        rw [e3 id' ?_]
        · exact H.fresh id' hid
        · intro y hy e'
          obtain ⟨nx', hc'⟩ := H.cp hy
          rw [e', H.fresh id' hid] at hc'; cases hc'
  have hpos : s.num ≠ 0 := by omega
  cases hh : s.head with
  | none =>
    rw [hh] at w
    cases hfm : f m with
    | nil => rw [hfm] at hx; cases hx
    | cons a b => rw [hfm] at w; cases w
  | some h =>
    rw [hh] at w
    by_cases e : h = id
    · subst e
      refine ⟨{ r with man := Function.update r.man m (some ⟨s.num - 1, nx⟩),
                       cp := Function.update r.cp h none },
        by simp only [destroy, relink, hc, hs, if_neg hpos, hh, if_pos], ?_, rfl, ?_⟩
      · apply fin { r with man := Function.update r.man m (some ⟨s.num - 1, nx⟩) } nx rfl rfl (fun _ _ => rfl) (fun id' k hk => ⟨k, hk, rfl, rfl⟩)
        refine Walk.congr (r := r) ?_ fun _ _ => rfl
        cases hfm : f m with
        | nil => rw [hfm] at hx; cases hx
        | cons a l =>
          rw [hfm] at w hnd
          cases w with
          | @cons _ d0 nx0 _ hc0 w0 =>
            rw [hc] at hc0
            simp only [Option.some.injEq, CP.mk.injEq, true_and] at hc0
            obtain ⟨rfl, rfl⟩ := hc0
            have : rmList h ((h, d) :: l) = l := by
              have h1 : rmList h ((h, d) :: l) = rmList h l := by simp [rmList]
              rw [h1]
              simp only [List.map_cons, List.nodup_cons] at hnd
              exact rmList_of_not_mem fun y hy e' => hnd.1 (List.mem_map.2 ⟨y, hy, e'⟩)
            rw [this]; exact w0
      · intro q
        by_cases e : q = m
        · subst e; simp [hs]
        · simp only [Function.update_of_ne e]
    · obtain ⟨r', u1, u2, u3, u4, u5, u7, u6⟩ := unlink_spec hc (f m) h r.nextId w hnd hx e (H.length_le m)
      refine ⟨{ r' with man := Function.update r'.man m (some ⟨s.num - 1, some h⟩),
                        cp := Function.update r'.cp id none },
        by simp only [destroy, relink, hc, hs, if_neg hpos, hh, if_neg e, u1], ?_, u3, ?_⟩
      · exact fin { r' with man := Function.update r'.man m (some ⟨s.num - 1, some h⟩) } (some h)
          (by simp only [u2]) u3 u4 u7 (u6.congr fun _ _ => rfl)
      · intro q
        by_cases e : q = m
        · subst e; simp [hs]
        · simp only [Function.update_of_ne e, u2]

theorem clearLoop_spec {m : Nat} : ∀ (l : List (Nat × D)) (h : Option Nat) (fuel : Nat) (r : Reg D),
    Walk r m h l → (l.map Prod.fst).Nodup → l.length ≤ fuel →
    ∃ r', clearLoop fuel h r = some r' ∧ r'.man = r.man ∧ r'.nextId = r.nextId ∧
      ∀ id, r'.cp id = if id ∈ l.map Prod.fst then none else r.cp id := by
  intro l
  induction l with
  | nil =>
    intro h fuel r w _ _
    cases w
    exact ⟨r, by cases fuel <;> rfl, rfl, rfl, by simp⟩
  | cons x l ih =>
    intro h fuel r w hn hf
    cases w with
    | @cons id d nx _ hc w =>
      cases fuel with
      | zero => simp at hf
      | succ fuel =>
        simp only [List.map_cons, List.nodup_cons] at hn
        obtain ⟨r', h1, h2, h3, h4⟩ := ih nx fuel { r with cp := Function.update r.cp id none }
          (w.congr fun y hy => by
            have : y.1 ≠ id := fun e' => hn.1 (List.mem_map.2 ⟨y, hy, e'⟩)
            simp only [Function.update_of_ne this]) hn.2 (by simpa using hf)
        refine ⟨r', by simp only [clearLoop, hc]; exact h1, h2, h3, ?_⟩
        intro id'
        rw [h4 id']
        by_cases e : id' = id
        · subst e; simp
        · simp only [Function.update_of_ne e, List.map_cons, List.mem_cons, e, false_or]

theorem clear_lists {r : Reg D} {f : Nat → List (Nat × D)} {m : Nat} (H : Lists r f)
    (hm : r.man m ≠ none) :
    ∃ r', clear r m = some r' ∧ Lists r' (Function.update f m []) ∧
      r'.nextId = r.nextId ∧ ∀ q, (r'.man q = none ↔ r.man q = none) := by
  cases hs : r.man m with
  | none => exact absurd hs hm
  | some s =>
    obtain ⟨r', h1, h2, h3, h4⟩ := clearLoop_spec (m := m) (f m) s.head r.nextId
      { r with man := Function.update r.man m (some {}) } ((H.walk m s hs).congr fun _ _ => rfl)
      (H.nodup m) (H.length_le m)
    have hcp : ∀ q, q ≠ m → ∀ y ∈ f q, r'.cp y.1 = r.cp y.1 := by
      intro q hq y hy
      rw [h4, if_neg]
      intro hmem
      obtain ⟨z, hz, e⟩ := List.mem_map.1 hmem
      exact hq (H.unique hy hz e.symm).1
    refine ⟨r', by simp only [clear, hs]; exact h1, ?_, h3, ?_⟩
    · refine ⟨?_, ?_, ?_, ?_, ?_, ?_⟩
      · intro q s' hs'
        rw [h2] at hs'
        by_cases e : q = m
        · subst e
          simp only [Function.update_self, Option.some.injEq] at hs' ⊢
          subst hs'; exact .nil
        · simp only [Function.update_of_ne e] at hs' ⊢
          exact (H.walk q s' hs').congr (hcp q e)
      · intro q s' hs'
        rw [h2] at hs'
        by_cases e : q = m
        · subst e
          simp only [Function.update_self, Option.some.injEq] at hs' ⊢
          subst hs'; rfl
        · simp only [Function.update_of_ne e] at hs' ⊢
          exact H.num q s' hs'
      · intro q hs'
        rw [h2] at hs'
        by_cases e : q = m
        · subst e; rw [Function.update_self]
        · simp only [Function.update_of_ne e] at hs' ⊢
          exact H.absent q hs'
      · intro q
        by_cases e : q = m
        · subst e; simp
        · simp only [Function.update_of_ne e]; exact H.nodup q
      · intro id k hk
        rw [h4] at hk
        split at hk
        · cases hk
        · rename_i hnot
          have := H.listed id k hk
          by_cases e : k.parent = m
          · rw [e] at this
            exact absurd (List.mem_map.2 ⟨_, this, rfl⟩) hnot
          · rw [Function.update_of_ne e]; exact this
      · intro id hid
        rw [h3] at hid
        rw [h4]
        split
        · rfl
        · exact H.fresh id hid
    · intro q
      rw [h2]
      by_cases e : q = m
      · subst e; simp [hs]
      · simp only [Function.update_of_ne e]

theorem destroyManifold_lists {r : Reg D} {f : Nat → List (Nat × D)} {m : Nat} (H : Lists r f)
    (hm : r.man m ≠ none) :
    ∃ r', destroyManifold r m = some r' ∧ Lists r' (Function.update f m []) ∧ r'.man m = none := by
  obtain ⟨r1, h1, h2, h3, h4⟩ := clear_lists H hm
  refine ⟨{ r1 with man := Function.update r1.man m none }, by simp only [destroyManifold, h1], ?_,
    Function.update_self ..⟩
  refine ⟨?_, ?_, ?_, h2.nodup, h2.listed, h2.fresh⟩
  · intro q s hs
    by_cases e : q = m
    · subst e; simp only [Function.update_self] at hs; cases hs
    · simp only [Function.update_of_ne e] at hs
      exact (h2.walk q s hs).congr fun _ _ => rfl
  · intro q s hs
    by_cases e : q = m
    · subst e; simp only [Function.update_self] at hs; cases hs
    · simp only [Function.update_of_ne e] at hs
      exact h2.num q s hs
  · intro q hs
    by_cases e : q = m
    · subst e; rw [Function.update_self]
    · simp only [Function.update_of_ne e] at hs
      exact h2.absent q hs

end Edyn.Contact
