import Mathlib.Data.List.Nodup
import Mathlib.Logic.Function.Basic

/-!
# Lists of children (C49)

`add_child` and `remove_child`, `src/edyn/replication/register_external.cpp` 55-82, on the components
`parent_comp` and `child_list`, `include/edyn/comp/child_list.hpp` 9-16.
-/

namespace Edyn.ChildList

/-- `child_list`. -/
structure Child where
  parent : Nat
  next : Option Nat
deriving DecidableEq

/-- The components: `head p`: `parent_comp::child` of `p`, if it has a `parent_comp`; `comp c`: the
`child_list` of `c`.  `count` is the number of calls of `add_child`, only used to bound the loop. -/
structure R where
  head : Nat → Option (Option Nat) := fun _ => none
  comp : Nat → Option Child := fun _ => none
  count : Nat := 0

/-- `add_child`, lines 55-60; `emplace` of a component that is present is undefined. -/
def add (r : R) (p c : Nat) : Option R :=
  match r.comp c with
  | some _ => none
  | none => some
      { head := Function.update r.head p (some (some c))
        comp := Function.update r.comp c (some ⟨p, (r.head p).getD none⟩)
        count := r.count + 1 }

/-- The loop of `remove_child`, lines 70-80; `none`: `get` of an absent component, or no end. -/
def unlink (c : Nat) (nx : Option Nat) : Nat → Option Nat → R → Option R
  | _, none, r => some r
  | 0, some _, _ => none
  | fuel + 1, some curr, r =>
    match r.comp curr with
    | none => none
    | some k =>
      if k.next = some c then
        some { r with comp := Function.update r.comp curr (some { k with next := nx }) }
      else unlink c nx fuel k.next r

/-- `remove_child`, lines 62-82. -/
def remove (r : R) (p c : Nat) : Option R :=
  match r.head p, r.comp c with
  | some h, some k =>
    if h = some c then some { r with head := Function.update r.head p (some k.next) }
    else unlink c k.next r.count h r
  | _, _ => none

inductive Op where
  | add (p c : Nat)
  | remove (p c : Nat)

def step (r : R) : Op → Option R
  | .add p c => add r p c
  | .remove p c => remove r p c

def run : R → List Op → Option R
  | r, [] => some r
  | r, o :: os =>
    match step r o with
    | none => none
    | some r => run r os

/-! ### Specification -/

/-- The children of parent `p`, latest first, according to the history. -/
def children (p : Nat) : List Op → List Nat → List Nat
  | [], l => l
  | .add q c :: os, l => children p os (if q = p then c :: l else l)
  | .remove q c :: os, l => children p os (if q = p then l.filter (fun x => decide (x ≠ c)) else l)

/-- Walking along `next` from `h` visits exactly the elements of a list. -/
inductive Walk (r : R) : Option Nat → List Nat → Prop
  | nil : Walk r none []
  | cons {c l} (k : Child) : r.comp c = some k → Walk r k.next l → Walk r (some c) (c :: l)

/-! ### Proofs -/

/-- Invariant, for the lists `f p` of children. -/
structure Inv (r : R) (f : Nat → List Nat) : Prop where
  walk : ∀ p, Walk r ((r.head p).getD none) (f p)
  nd : ∀ p, (f p).Nodup
  par : ∀ p c, c ∈ f p → ∃ k, r.comp c = some k ∧ k.parent = p
  len : ∀ p, (f p).length ≤ r.count

theorem Walk.congr {r r' : R} {h : Option Nat} {l : List Nat} (w : Walk r h l)
    (hc : ∀ c ∈ l, r'.comp c = r.comp c) : Walk r' h l := by
  induction w with
  | nil => exact .nil
  | @cons c l k hk _ ih =>
    exact .cons k (by rw [hc c (by simp)]; exact hk) (ih fun x hx => hc x (by simp [hx]))

theorem filter_ne_of_not_mem {l : List Nat} {c : Nat} (h : c ∉ l) :
    l.filter (fun x => decide (x ≠ c)) = l := by
  apply List.filter_eq_self.2
  intro x hx; simp; rintro rfl; exact h hx

theorem add_inv {r r' : R} {f : Nat → List Nat} {p c : Nat} (H : Inv r f) (h : add r p c = some r') :
    Inv r' (Function.update f p (c :: f p)) := by
  unfold add at h
  cases hc : r.comp c with
  | some k => rw [hc] at h; cases h
  | none =>
    rw [hc] at h; simp only [Option.some.injEq] at h; subst h
    have hnew : ∀ q, c ∉ f q := by
      intro q hq
      obtain ⟨k, hk, _⟩ := H.par q c hq
      rw [hc] at hk; cases hk
    refine ⟨?_, ?_, ?_, ?_⟩
    · intro q
      by_cases hq : q = p
      · subst hq
        simp only [Function.update_self, Option.getD_some]
        refine .cons _ (Function.update_self ..) ?_
        refine (H.walk q).congr fun x hx => ?_
        have : x ≠ c := by rintro rfl; exact hnew q hx
        simp only [Function.update_of_ne this]
      · simp only [Function.update_of_ne hq]
        refine (H.walk q).congr fun x hx => ?_
        have : x ≠ c := by rintro rfl; exact hnew q hx
        simp only [Function.update_of_ne this]
    · intro q
      by_cases hq : q = p
      · subst hq; simp only [Function.update_self]
        exact List.nodup_cons.2 ⟨hnew q, H.nd q⟩
      · simp only [Function.update_of_ne hq]; exact H.nd q
    · intro q x hx
      by_cases hxc : x = c
      · subst hxc
        refine ⟨_, Function.update_self .., ?_⟩
        by_cases hq : q = p
        · exact hq.symm
        · simp only [Function.update_of_ne hq] at hx; exact absurd hx (hnew q)
      · simp only [Function.update_of_ne hxc]
        by_cases hq : q = p
        · subst hq; simp only [Function.update_self, List.mem_cons, hxc, false_or] at hx
          exact H.par q x hx
        · simp only [Function.update_of_ne hq] at hx; exact H.par q x hx
    · intro q
      by_cases hq : q = p
      · subst hq; simp only [Function.update_self, List.length_cons]; have := H.len q; omega
      · simp only [Function.update_of_ne hq]; have := H.len q; omega

/-- The loop: on a list that contains `c` after its first element. -/
theorem unlink_spec (c : Nat) (nx : Option Nat) (r : R) (k : Child) (hk : r.comp c = some k)
    (hnx : nx = k.next) : ∀ (l : List Nat) (h : Option Nat) (fuel : Nat), Walk r h l → l.Nodup →
    l.length ≤ fuel → h ≠ some c →
    ∃ r', unlink c nx fuel h r = some r' ∧ r'.head = r.head ∧ r'.count = r.count ∧
      Walk r' h (l.filter fun x => decide (x ≠ c)) ∧
      (∀ x, x ∉ l → r'.comp x = r.comp x) ∧
      ∀ x k, r.comp x = some k → ∃ k', r'.comp x = some k' ∧ k'.parent = k.parent := by
  intro l
  induction l with
  | nil =>
    intro h fuel w _ _ _
    cases w
    exact ⟨r, by simp [unlink], rfl, rfl, by simpa using Walk.nil, fun _ _ => rfl, fun x k hx => ⟨k, hx, rfl⟩⟩
  | cons a l ih =>
    intro h fuel w hnd hf hne
    cases w with
    | cons ka hka w =>
      cases fuel with
      | zero => simp at hf
      | succ fuel =>
        have hac : a ≠ c := by rintro rfl; exact hne rfl
        have ha : a ∉ l := (List.nodup_cons.1 hnd).1
        by_cases hn : ka.next = some c
        · have hu : unlink c nx (fuel + 1) (some a) r =
              some { r with comp := Function.update r.comp a (some { ka with next := nx }) } := by
            simp [unlink, hka, hn]
          refine ⟨_, hu, rfl, rfl, ?_, ?_, ?_⟩
          · rw [hn] at w
            cases w with
            | @cons _ l' k' hk' w' =>
              rw [hk] at hk'; cases hk'
              have hcl : c ∉ l' := (List.nodup_cons.1 (List.nodup_cons.1 hnd).2).1
              have : (a :: c :: l').filter (fun x => decide (x ≠ c)) = a :: l' := by
                simp only [List.filter_cons, ne_eq, hac, not_false_eq_true, decide_true, if_true,
                  not_true_eq_false, decide_false, Bool.false_eq_true, if_false]
                rw [show (l'.filter fun x => decide (¬x = c)) = l' from filter_ne_of_not_mem hcl]
              rw [this]
              refine .cons _ (Function.update_self ..) ?_
              simp only [hnx]
              refine w'.congr fun x hx => ?_
              have : x ≠ a := by rintro rfl; exact ha (by simp [hx])
              simp only [Function.update_of_ne this]
          · intro x hx
            have : x ≠ a := by rintro rfl; exact hx (by simp)
            simp only [Function.update_of_ne this]
          · intro x k' hx
            by_cases hxa : x = a
            · subst hxa; rw [hka] at hx; cases hx
              exact ⟨_, Function.update_self .., rfl⟩
            · exact ⟨k', by simp only [Function.update_of_ne hxa]; exact hx, rfl⟩
        · obtain ⟨r', h1, h2, h3, h4, h5, h6⟩ := ih ka.next fuel w (List.nodup_cons.1 hnd).2
            (by simp at hf; omega) hn
          refine ⟨r', by simp only [unlink, hka, if_neg hn]; exact h1, h2, h3, ?_, ?_, h6⟩
          · have : (a :: l).filter (fun x => decide (x ≠ c)) =
                a :: l.filter (fun x => decide (x ≠ c)) := by simp [hac]
            rw [this]
            exact .cons ka (by rw [h5 a ha]; exact hka) h4
          · intro x hx; exact h5 x (by intro hc; exact hx (by simp [hc]))

theorem walk_head {r : R} {h : Option Nat} {l : List Nat} {c : Nat} (w : Walk r h l) (hh : h = some c) :
    ∃ l' k, l = c :: l' ∧ r.comp c = some k ∧ Walk r k.next l' := by
  cases w with
  | nil => cases hh
  | cons k hk w => cases hh; exact ⟨_, k, rfl, hk, w⟩

/-- If parent and child have been used in `add_child`, `remove_child` is defined. -/
theorem remove_spec {r : R} {f : Nat → List Nat} {p c : Nat} (H : Inv r f) (h0 : r.head p ≠ none)
    (c0 : r.comp c ≠ none) :
    ∃ r', remove r p c = some r' ∧ Inv r' (Function.update f p ((f p).filter fun x => decide (x ≠ c))) ∧
      (∀ q, r'.head q = none ↔ r.head q = none) ∧ ∀ x, r'.comp x = none ↔ r.comp x = none := by
  obtain ⟨h, hh⟩ := Option.ne_none_iff_exists'.1 h0
  obtain ⟨k, hk⟩ := Option.ne_none_iff_exists'.1 c0
  have hw := H.walk p
  rw [hh] at hw; simp only [Option.getD_some] at hw
  have hlen : ∀ q, (Function.update f p ((f p).filter fun x => decide (x ≠ c)) q).length ≤ r.count := by
    intro q
    by_cases hq : q = p
    · subst hq; simp only [Function.update_self]; exact Nat.le_trans (List.length_filter_le _ _) (H.len q)
    · simp only [Function.update_of_ne hq]; exact H.len q
  have hnd : ∀ q, (Function.update f p ((f p).filter fun x => decide (x ≠ c)) q).Nodup := by
    intro q
    by_cases hq : q = p
    · subst hq; simp only [Function.update_self]; exact (H.nd q).filter _
    · simp only [Function.update_of_ne hq]; exact H.nd q
  have hsub : ∀ q x, x ∈ Function.update f p ((f p).filter fun x => decide (x ≠ c)) q → x ∈ f q := by
    intro q x hx
    by_cases hq : q = p
    · subst hq; simp only [Function.update_self] at hx; exact List.mem_of_mem_filter hx
    · simp only [Function.update_of_ne hq] at hx; exact hx
  by_cases hc : h = some c
  · have hu : remove r p c = some { r with head := Function.update r.head p (some k.next) } := by
      simp [remove, hh, hk, hc]
    refine ⟨_, hu, ⟨?_, hnd, fun q x hx => H.par q x (hsub q x hx), hlen⟩, ?_, fun _ => Iff.rfl⟩
    · intro q
      by_cases hq : q = p
      · subst hq
        simp only [Function.update_self, Option.getD_some]
        obtain ⟨l', k', h1, h2, h3⟩ := walk_head hw hc
        rw [hk] at h2; cases h2
        have hcl : c ∉ l' := by have := H.nd q; rw [h1] at this; exact (List.nodup_cons.1 this).1
        rw [h1, List.filter_cons, if_neg (by simp), filter_ne_of_not_mem hcl]
        exact h3.congr fun x _ => rfl
      · simp only [Function.update_of_ne hq]
        exact (H.walk q).congr fun x _ => rfl
    · intro q
      by_cases hq : q = p
      · subst hq; simp [hh]
      · simp only [Function.update_of_ne hq]
  · obtain ⟨r', h1, h2, h3, h4, h5, h6⟩ := unlink_spec c k.next r k hk rfl (f p) h r.count hw (H.nd p)
      (H.len p) hc
    have h7 : ∀ x, r'.comp x = none ↔ r.comp x = none := by
      intro x
      constructor
      · intro hx
        cases hr : r.comp x with
        | none => rfl
        | some k => obtain ⟨k', hk', _⟩ := h6 x k hr; rw [hx] at hk'; cases hk'
      · intro hx
        by_cases hxm : x ∈ f p
        · obtain ⟨k, hk, _⟩ := H.par p x hxm; rw [hx] at hk; cases hk
        · rw [h5 x hxm]; exact hx
    refine ⟨r', by simp [remove, hh, hk, hc, h1], ⟨?_, hnd, ?_, by rw [h3]; exact hlen⟩, by rw [h2]; simp,
      h7⟩
    · intro q
      rw [h2]
      by_cases hq : q = p
      · subst hq; simp only [Function.update_self, hh, Option.getD_some]; exact h4
      · simp only [Function.update_of_ne hq]
        refine (H.walk q).congr fun x hx => h5 x ?_
        intro hxp
        obtain ⟨a, ha, ha'⟩ := H.par q x hx
        obtain ⟨b, hb, hb'⟩ := H.par p x hxp
        rw [ha] at hb; cases hb
        exact hq (ha'.symm.trans hb')
    · intro q x hx
      obtain ⟨a, ha, ha'⟩ := H.par q x (hsub q x hx)
      obtain ⟨b, hb, hb'⟩ := h6 x a ha
      exact ⟨b, hb, hb'.trans ha'⟩

theorem remove_inv {r r' : R} {f : Nat → List Nat} {p c : Nat} (H : Inv r f)
    (h : remove r p c = some r') :
    Inv r' (Function.update f p ((f p).filter fun x => decide (x ≠ c))) := by
  have h0 : r.head p ≠ none := by intro hc; simp [remove, hc] at h
  have c0 : r.comp c ≠ none := by
    intro hc; unfold remove at h; rw [hc] at h
    cases hh : r.head p <;> rw [hh] at h <;> simp at h
  obtain ⟨r1, h1, h2, _⟩ := remove_spec H h0 c0
  rw [h] at h1; cases h1; exact h2

theorem run_inv (os : List Op) : ∀ (r r' : R) (f : Nat → List Nat), Inv r f → run r os = some r' →
    Inv r' fun p => children p os (f p) := by
  induction os with
  | nil => intro r r' f H h; simp [run] at h; subst h; exact H
  | cons o os ih =>
    intro r r' f H h
    simp only [run] at h
    cases h1 : step r o with
    | none => rw [h1] at h; cases h
    | some r1 =>
      rw [h1] at h; simp only at h
      cases o with
      | add p c =>
        have := ih r1 r' _ (add_inv H h1) h
        convert this using 2 with q
        simp only [children, Function.update_apply]
        by_cases hq : q = p
        · subst hq; simp
        · simp [hq, Ne.symm hq]
      | remove p c =>
        have := ih r1 r' _ (remove_inv H h1) h
        convert this using 2 with q
        simp only [children, Function.update_apply]
        by_cases hq : q = p
        · subst hq; simp
        · simp [hq, Ne.symm hq]

theorem start_inv : Inv ({} : R) fun _ => [] :=
  ⟨fun _ => .nil, fun _ => List.nodup_nil, fun _ _ h => by simp at h, fun _ => by simp⟩

/-! ### C49 -/

/-- C49 in full: besides the theorem below, a child that is in no list can be added to one. -/
def FullStatement : Prop := ∀ (os : List Op) (r : R), run {} os = some r →
  (∀ p, Walk r ((r.head p).getD none) (children p os [])) ∧
  ∀ p c, (∀ q, c ∉ children q os []) → (add r p c).isSome

/-- **C49**: after any sequence of calls, the list of a parent consists of the children that have been
added to it and not been removed since, each once. -/
theorem list_mirrors_history_partial (os : List Op) (r : R) (h : run {} os = some r) (p : Nat) :
    Walk r ((r.head p).getD none) (children p os []) ∧ (children p os []).Nodup ∧
    ∀ c ∈ children p os [], ∃ k, r.comp c = some k ∧ k.parent = p := by
  have H := run_inv os _ _ _ start_inv h
  exact ⟨H.walk p, H.nd p, H.par p⟩

/-- `add_child` is defined for a child that was never added before, and `remove_child` for any parent
and child that were used in `add_child` before (also if the child is not in the list). -/
theorem calls_defined (os : List Op) (r : R) (h : run {} os = some r) (p c : Nat) :
    ((∀ q, .add q c ∉ os) → (add r p c).isSome) ∧
    ((∃ x, .add p x ∈ os) → (∃ q, .add q c ∈ os) → (remove r p c).isSome) := by
  have key : ∀ (os : List Op) (r r' : R) (f : Nat → List Nat), Inv r f → run r os = some r' →
      (∀ x, r'.comp x = none ↔ r.comp x = none ∧ ∀ q, Op.add q x ∉ os) ∧
      (∀ q, r'.head q = none ↔ r.head q = none ∧ ∀ x, Op.add q x ∉ os) := by
    intro os
    induction os with
    | nil => intro r r' f _ h; simp [run] at h; subst h; simp
    | cons o os ih =>
      intro r r' f H h
      simp only [run] at h
      cases h1 : step r o with
      | none => rw [h1] at h; cases h
      | some r1 =>
        rw [h1] at h; simp only at h
        cases o with
        | add p c =>
          obtain ⟨i1, i2⟩ := ih r1 r' _ (add_inv H h1) h
          have h1' := h1
          simp only [step, add] at h1'
          cases hc : r.comp c with
          | some k => rw [hc] at h1'; cases h1'
          | none =>
            rw [hc] at h1'; simp only [Option.some.injEq] at h1'; subst h1'
            refine ⟨fun x => ?_, fun q => ?_⟩
            · rw [i1]; simp only [Function.update_apply]
              by_cases hx : x = c
              · subst hx; simp; intro _; exact ⟨p, fun h => absurd rfl h⟩
              · simp [hx]
            · rw [i2]; simp only [Function.update_apply]
              by_cases hx : q = p
              · subst hx; simp; intro _; exact ⟨c, fun h => absurd rfl h⟩
              · simp [hx]
        | remove p c =>
          have h0 : r.head p ≠ none := by intro hc; simp [step, remove, hc] at h1
          have c0 : r.comp c ≠ none := by
            intro hc; simp only [step, remove] at h1; rw [hc] at h1
            cases hh : r.head p <;> rw [hh] at h1 <;> simp at h1
          obtain ⟨r2, h2, h3, h4, h5⟩ := remove_spec H h0 c0
          have h1' : remove r p c = some r1 := h1
          rw [h2] at h1'; cases h1'
          obtain ⟨i1, i2⟩ := ih _ r' _ h3 h
          exact ⟨fun x => by rw [i1, h5]; simp, fun q => by rw [i2, h4]; simp⟩
  obtain ⟨k1, k2⟩ := key os _ _ _ start_inv h
  constructor
  · intro hc
    have : r.comp c = none := (k1 c).2 ⟨rfl, hc⟩
    simp [add, this]
  · rintro ⟨x, hx⟩ ⟨q, hq⟩
    have H := run_inv os _ _ _ start_inv h
    obtain ⟨r', hr, _⟩ := remove_spec (p := p) (c := c) H
      (fun hc => ((k2 p).1 hc).2 x hx) (fun hc => ((k1 c).1 hc).2 q hq)
    rw [hr]; rfl

/-- `remove_child` leaves the `child_list` of the child, so that it cannot be added again. -/
theorem readding_child_fails : ¬ FullStatement := by
  intro h
  obtain ⟨r, hr⟩ : ∃ r, run {} [.add 0 1, .remove 0 1] = some r := ⟨_, rfl⟩
  have h2 := (h _ r hr).2 0 1 (by intro q; simp [children]; split <;> simp)
  have : ((run {} [.add 0 1, .remove 0 1]).bind fun r => (add r 0 1)).isSome = false := by decide +kernel
  rw [hr] at this
  simp only [Option.bind_some] at this
  rw [this] at h2; cases h2

/-- Two parents; children are removed from the front, the middle and the end. -/
example : (run {} [.add 0 1, .add 0 2, .add 5 3, .add 0 4, .add 0 6, .remove 0 2, .remove 0 6,
      .remove 0 1]).isSome = true ∧
    children 0 [.add 0 1, .add 0 2, .add 5 3, .add 0 4, .add 0 6, .remove 0 2, .remove 0 6,
      .remove 0 1] [] = [4] := by decide +kernel

end Edyn.ChildList
