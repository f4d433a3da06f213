import Verif.Broad.Model
import Verif.DynTree.Props
import Verif.Collision.ManifoldMapProps

/-!
# The invariant of the broadphase, operation by operation

`seen e` is the box that the tree was last given for the body `e`.
-/

namespace Edyn.Broad

open Edyn.DynTree (upd upd_same upd_apply Params Live Good)

variable {S : Type} [LinearOrder S]

/-- The trees and the residents. -/
structure TreeInv (w : World S) (L : Bool → Live S) (seen : Nat → Option (Box S)) : Prop where
  good : ∀ p, Good (w.tree p) (L p)
  res : ∀ e id p, w.resident e = some (id, p) →
    ∃ b, L p id = some (some e, b) ∧ seen e = some b
  live : ∀ p id o b, L p id = some (o, b) → ∃ e, o = some e ∧ w.resident e = some (id, p)
  has : ∀ e id p, w.resident e = some (id, p) → w.aabb e ≠ none ∧ p = (w.kind e).procedural
  enrolled : ∀ e, w.aabb e ≠ none → w.resident e ≠ none ∨ e ∈ w.fresh
  fresh : ∀ e ∈ w.fresh, w.resident e = none
  nodup : w.fresh.Nodup
  unseen : ∀ e, w.resident e = none → seen e = none

/-- The manifolds. -/
structure MapInv (aabb : Nat → Option (Box S)) (m : Made) : Prop where
  map : ManifoldMap.Inv m.1
  wf : m.1.manifolds.WF
  lt : ∀ i p, m.1.manifolds.get? i = some p → i < m.2
  boxes : ∀ i b0 b1, m.1.manifolds.get? i = some (b0, b1) → aabb b0 ≠ none ∧ aabb b1 ≠ none

/-- `Good` is enough for `query_exact`. -/
theorem query_good {s : DynTree.State S} {L : Live S} (h : Good s L) (q : Box S) :
    ∃ ids, DynTree.query s q = some ids ∧ ids.Nodup ∧
      ∀ id, id ∈ ids ↔ L id ≠ none ∧ (s.box id).Overlaps q := by
  obtain ⟨ot, fl, hI, hL, _⟩ := h
  have hm : DynTree.Monotone (fun b : Box S => b.intersect q) :=
    fun a b hab hb => hab.intersect hb
  refine ⟨_, DynTree.traverse_spec hI, ?_, ?_⟩
  · cases ot with
    | none => simp
    | some t =>
      apply DynTree.visit_nodup
      have := (List.nodup_append.1 hI.nodup).1
      have := (DynTree.T.ids_perm t).nodup_iff.1 this
      exact (List.nodup_append.1 this).1
  · intro id
    cases ot with
    | none =>
      have := hL id
      simp only [DynTree.leavesO, List.not_mem_nil, false_iff] at this ⊢
      exact fun hh => this hh.1
    | some t =>
      rw [DynTree.mem_visit hm (hI.rep t rfl).2, ← Box.intersect_iff]
      have := hL id
      simp only [DynTree.leavesO] at this
      rw [this]

theorem treeInv_init [AddCommGroup S] (b : Box S) :
    TreeInv (init b) (fun _ _ => none) (fun _ => none) := by
  refine ⟨fun _ => DynTree.good_init b, ?_, ?_, ?_, ?_, ?_, ?_, ?_⟩ <;> simp [init]

theorem mapInv_init [AddCommGroup S] (b : Box S) :
    MapInv (init b).aabb ((init b).map, (init b).next) := by
  refine ⟨ManifoldMap.inv_init, AMap.wf_empty, ?_, ?_⟩ <;> simp [init, ManifoldMap.init]

/-- A body gets a node. -/
theorem create_inv (P : Params S) {w : World S} {L : Bool → Live S} {seen : Nat → Option (Box S)}
    (hg : ∀ p, Good (w.tree p) (L p))
    (hres : ∀ e id p, w.resident e = some (id, p) →
      ∃ b, L p id = some (some e, b) ∧ seen e = some b)
    (hlive : ∀ p id o b, L p id = some (o, b) → ∃ e, o = some e ∧ w.resident e = some (id, p))
    {e : Nat} (he : w.resident e = none) (b : Box S) (p : Bool) :
    ∃ (id : Nat) (t : DynTree.State S) (L' : Bool → Live S),
      DynTree.create P (w.tree p) b (some e) = some (id, t) ∧
      (∀ q, Good (Function.update w.tree p t q) (L' q)) ∧
      (∀ f id' q, upd w.resident e (some (id, p)) f = some (id', q) →
        ∃ c, L' q id' = some (some f, c) ∧ upd seen e (some b) f = some c) ∧
      (∀ q id' o c, L' q id' = some (o, c) →
        ∃ f, o = some f ∧ upd w.resident e (some (id, p)) f = some (id', q)) := by
  obtain ⟨id, t, hc, hn, hgood, -, -⟩ := DynTree.create_good P (hg p) b (some e)
  refine ⟨id, t, Function.update L p (upd (L p) id (some (some e, b))), hc, ?_, ?_, ?_⟩
  · intro q
    by_cases hq : q = p
    · subst hq; simpa using hgood
    · simpa [Function.update_of_ne hq] using hg q
  · intro f id' q hf
    by_cases hfe : f = e
    · subst hfe
      simp only [upd_same, Option.some.injEq, Prod.mk.injEq] at hf
      obtain ⟨rfl, rfl⟩ := hf
      exact ⟨b, by simp, by simp⟩
    · simp only [upd_apply, hfe, if_false] at hf ⊢
      obtain ⟨c, h1, h2⟩ := hres f id' q hf
      refine ⟨c, ?_, h2⟩
      by_cases hq : q = p
      · subst hq
        have : id' ≠ id := by rintro rfl; rw [hn] at h1; cases h1
        simp [upd_apply, this, h1]
      · rwa [Function.update_of_ne hq]
  · intro q id' o c hl
    by_cases hq : q = p
    · subst hq
      rw [Function.update_self, upd_apply] at hl
      split at hl
      · rename_i hid
        subst hid
        simp only [Option.some.injEq, Prod.mk.injEq] at hl
        exact ⟨e, hl.1.symm, by simp⟩
      · obtain ⟨f, h1, h2⟩ := hlive q id' o c hl
        refine ⟨f, h1, ?_⟩
        have : f ≠ e := by rintro rfl; rw [he] at h2; cases h2
        simp [upd_apply, this, h2]
    · rw [Function.update_of_ne hq] at hl
      obtain ⟨f, h1, h2⟩ := hlive q id' o c hl
      refine ⟨f, h1, ?_⟩
      have : f ≠ e := by rintro rfl; rw [he] at h2; cases h2
      simp [upd_apply, this, h2]

/-- A body loses its node. -/
theorem destroy_inv {w : World S} {L : Bool → Live S} {seen : Nat → Option (Box S)}
    (hg : ∀ p, Good (w.tree p) (L p))
    (hres : ∀ e id p, w.resident e = some (id, p) →
      ∃ b, L p id = some (some e, b) ∧ seen e = some b)
    (hlive : ∀ p id o b, L p id = some (o, b) → ∃ e, o = some e ∧ w.resident e = some (id, p))
    {e id : Nat} {p : Bool} (he : w.resident e = some (id, p)) :
    ∃ (t : DynTree.State S) (L' : Bool → Live S), DynTree.destroy (w.tree p) id = some t ∧
      (∀ q, Good (Function.update w.tree p t q) (L' q)) ∧
      (∀ f id' q, upd w.resident e none f = some (id', q) →
        ∃ c, L' q id' = some (some f, c) ∧ upd seen e none f = some c) ∧
      (∀ q id' o c, L' q id' = some (o, c) →
        ∃ f, o = some f ∧ upd w.resident e none f = some (id', q)) := by
  obtain ⟨b0, hb0, -⟩ := hres e id p he
  obtain ⟨t, hc, hgood, -⟩ := DynTree.destroy_good (hg p) (id := id) (by rw [hb0]; simp)
  refine ⟨t, Function.update L p (upd (L p) id none), hc, ?_, ?_, ?_⟩
  · intro q
    by_cases hq : q = p
    · subst hq; simpa using hgood
    · simpa [Function.update_of_ne hq] using hg q
  · intro f id' q hf
    by_cases hfe : f = e
    · subst hfe; simp at hf
    · simp only [upd_apply, hfe, if_false] at hf ⊢
      obtain ⟨c, h1, h2⟩ := hres f id' q hf
      refine ⟨c, ?_, h2⟩
      by_cases hq : q = p
      · subst hq
        have : id' ≠ id := by
          rintro rfl
          rw [hb0] at h1
          simp only [Option.some.injEq, Prod.mk.injEq] at h1
          exact hfe h1.1.symm
        simp [upd_apply, this, h1]
      · rwa [Function.update_of_ne hq]
  · intro q id' o c hl
    have key : ∀ f, w.resident f = some (id', q) → (q ≠ p ∨ id' ≠ id) →
        upd w.resident e none f = some (id', q) := by
      intro f hf hne
      have : f ≠ e := by
        rintro rfl
        rw [he] at hf
        simp only [Option.some.injEq, Prod.mk.injEq] at hf
        rcases hne with h | h
        · exact h hf.2.symm
        · exact h hf.1.symm
      simp [upd_apply, this, hf]
    by_cases hq : q = p
    · subst hq
      rw [Function.update_self, upd_apply] at hl
      split at hl
      · cases hl
      · rename_i hid
        obtain ⟨f, h1, h2⟩ := hlive q id' o c hl
        exact ⟨f, h1, key f h2 (Or.inr hid)⟩
    · rw [Function.update_of_ne hq] at hl
      obtain ⟨f, h1, h2⟩ := hlive q id' o c hl
      exact ⟨f, h1, key f h2 (Or.inl hq)⟩

/-- `enroll`, as a step of the loop over the rest of the list. -/
theorem enroll_inv (P : Params S) {w : World S} {L : Bool → Live S}
    {seen : Nat → Option (Box S)} {e : Nat} {l : List Nat}
    (h : TreeInv { w with fresh := e :: l } L seen) :
    ∃ t r L', enroll P w e = some { w with tree := t, resident := r } ∧
      TreeInv { w with tree := t, resident := r, fresh := l } L' (upd seen e (w.aabb e)) := by
  have he : w.resident e = none := h.fresh e (by simp)
  have hnd := List.nodup_cons.1 h.nodup
  cases ha : w.aabb e with
  | none =>
    have hse : upd seen e none = seen := by
      funext f
      rw [upd_apply]
      split
      · rename_i hf; rw [hf]; exact (h.unseen e he).symm
      · rfl
    refine ⟨w.tree, w.resident, L, by simp [enroll, ha], ?_⟩
    rw [hse]
    refine ⟨h.good, h.res, h.live, h.has, ?_, ?_, hnd.2, h.unseen⟩
    · intro f hf
      rcases h.enrolled f hf with h1 | h1
      · exact Or.inl h1
      · rcases List.mem_cons.1 h1 with h2 | h2
        · exact absurd ha (by rw [← h2]; exact hf)
        · exact Or.inr h2
    · intro f hf
      exact h.fresh f (List.mem_cons_of_mem _ hf)
  | some b =>
    obtain ⟨id, t, L', hc, h1, h2, h3⟩ :=
      create_inv P (w := w) h.good h.res h.live he b (w.kind e).procedural
    refine ⟨Function.update w.tree (w.kind e).procedural t,
      upd w.resident e (some (id, (w.kind e).procedural)), L', by simp [enroll, ha, hc, he], ?_⟩
    refine ⟨h1, h2, h3, ?_, ?_, ?_, hnd.2, ?_⟩
    · intro f id' q hf
      by_cases hfe : f = e
      · subst hfe
        simp only [upd_same, Option.some.injEq, Prod.mk.injEq] at hf
        exact ⟨by simp [ha], hf.2.symm⟩
      · simp only [upd_apply, hfe, if_false] at hf
        exact h.has f id' q hf
    · intro f hf
      by_cases hfe : f = e
      · subst hfe; exact Or.inl (by simp)
      · rcases h.enrolled f hf with h4 | h4
        · exact Or.inl (by simpa [upd_apply, hfe] using h4)
        · exact Or.inr ((List.mem_cons.1 h4).resolve_left hfe)
    · intro f hf
      have hfe : f ≠ e := by rintro rfl; exact hnd.1 hf
      simpa [upd_apply, hfe] using h.fresh f (List.mem_cons_of_mem _ hf)
    · intro f hf
      by_cases hfe : f = e
      · subst hfe; simp at hf
      · simp only [upd_apply, hfe, if_false] at hf ⊢
        exact h.unseen f hf

theorem enrollList_inv (P : Params S) : ∀ (l : List Nat) {w : World S} {L : Bool → Live S}
    {seen : Nat → Option (Box S)}, TreeInv { w with fresh := l } L seen →
    ∃ t r L', l.foldlM (enroll P) w = some { w with tree := t, resident := r } ∧
      TreeInv { w with tree := t, resident := r, fresh := [] } L'
        (fun e => if e ∈ l then w.aabb e else seen e) := by
  intro l
  induction l with
  | nil =>
    intro w L seen h
    exact ⟨w.tree, w.resident, L, by simp, by simpa using h⟩
  | cons e l ih =>
    intro w L seen h
    obtain ⟨t, r, L', h1, h2⟩ := enroll_inv P h
    obtain ⟨t', r', L'', h3, h4⟩ := ih (w := { w with tree := t, resident := r }) h2
    refine ⟨t', r', L'', ?_, ?_⟩
    · rw [List.foldlM_cons, h1]
      exact h3
    · have : (fun f => if f ∈ e :: l then w.aabb f else seen f) =
          fun f => if f ∈ l then w.aabb f else upd seen e (w.aabb e) f := by
        funext f
        simp only [List.mem_cons, upd_apply]
        split_ifs <;> simp_all
      rw [this]
      exact h4

/-- The bookkeeping of `init_new_aabb_entities`. -/
def noteNew (w : World S) (seen : Nat → Option (Box S)) : Nat → Option (Box S) :=
  fun e => if seen e = none then w.aabb e else seen e

theorem enrollNew_inv (P : Params S) {w : World S} {L : Bool → Live S}
    {seen : Nat → Option (Box S)} (h : TreeInv w L seen) :
    ∃ t r L', enrollNew P w = some { w with tree := t, resident := r, fresh := [] } ∧
      TreeInv { w with tree := t, resident := r, fresh := [] } L' (noteNew w seen) := by
  obtain ⟨t, r, L', h1, h2⟩ := enrollList_inv P w.fresh (w := w) h
  refine ⟨t, r, L', by simp [enrollNew, h1], ?_⟩
  have : (fun e => if e ∈ w.fresh then w.aabb e else seen e) = noteNew w seen := by
    funext e
    simp only [noteNew]
    by_cases he : e ∈ w.fresh
    · simp [he, h.unseen e (h.fresh e he)]
    · rw [if_neg he]
      by_cases hs : seen e = none
      · rw [if_pos hs, hs]
        by_contra hne
        rcases h.enrolled e (Ne.symm hne) with h3 | h3
        · cases hr : w.resident e with
          | none => exact h3 hr
          | some x =>
            obtain ⟨b, -, hb⟩ := h.res e x.1 x.2 hr
            rw [hs] at hb; cases hb
        · exact he h3
      · rw [if_neg hs]
  rwa [this] at h2

/-- Is the node of `e` moved by the loop for the kind `k`? -/
theorem moveOne_inv (P : Params S) {w : World S} {L : Bool → Live S}
    {seen : Nat → Option (Box S)} (h : TreeInv w L seen) (k : Kind) (e : Nat)
    (hw : w.fresh = []) :
    ∃ t L', moveOne P k.procedural k w e = some { w with tree := t } ∧
      TreeInv { w with tree := t } L'
        (if w.kind e = k ∧ awake w e then upd seen e (w.aabb e) else seen) := by
  by_cases hk : w.kind e = k ∧ awake w e
  · rw [if_pos hk]
    cases ha : w.aabb e with
    | none =>
      have hr : w.resident e = none := by
        cases hr : w.resident e with
        | none => rfl
        | some x => exact absurd ha (h.has e x.1 x.2 hr).1
      have hse : upd seen e none = seen := by
        funext f
        rw [upd_apply]
        split
        · rename_i hf; rw [hf]; exact (h.unseen e hr).symm
        · rfl
      exact ⟨w.tree, L, by simp [moveOne, ha], by rw [hse]; exact h⟩
    | some b =>
      have hr : ∃ id, w.resident e = some (id, k.procedural) := by
        cases hr : w.resident e with
        | none =>
          rcases h.enrolled e (by simp [ha]) with h1 | h1
          · exact absurd hr h1
          · rw [hw] at h1; simp at h1
        | some x =>
          have := (h.has e x.1 x.2 hr).2
          rw [hk.1] at this
          exact ⟨x.1, by rw [← this]⟩
      obtain ⟨id, hr⟩ := hr
      obtain ⟨b0, hb0, hs0⟩ := h.res e id _ hr
      obtain ⟨mv, t, hm, hgood, -, -, -⟩ := DynTree.move_good P (h.good k.procedural) hb0 b
      refine ⟨Function.update w.tree k.procedural t,
        Function.update L k.procedural (upd (L k.procedural) id (some (some e, b))),
        by simp [moveOne, ha, hr, hk, hm], ?_⟩
      refine ⟨?_, ?_, ?_, h.has, h.enrolled, h.fresh, h.nodup, ?_⟩
      · intro q
        by_cases hq : q = k.procedural
        · subst hq; simpa using hgood
        · simpa [Function.update_of_ne hq] using h.good q
      · intro f id' q hf
        obtain ⟨c, h1, h2⟩ := h.res f id' q hf
        by_cases hfe : f = e
        · subst hfe
          have hf' : w.resident f = some (id', q) := hf
          rw [hr] at hf'
          simp only [Option.some.injEq, Prod.mk.injEq] at hf'
          obtain ⟨rfl, rfl⟩ := hf'
          exact ⟨b, by simp, by simp⟩
        · refine ⟨c, ?_, by simp [upd_apply, hfe, h2]⟩
          by_cases hq : q = k.procedural
          · subst hq
            have : id' ≠ id := by
              rintro rfl
              rw [hb0] at h1
              simp only [Option.some.injEq, Prod.mk.injEq] at h1
              exact hfe h1.1.symm
            simp [upd_apply, this, h1]
          · rwa [Function.update_of_ne hq]
      · intro q id' o c hl
        by_cases hq : q = k.procedural
        · subst hq
          rw [Function.update_self, upd_apply] at hl
          split at hl
          · rename_i hid
            subst hid
            simp only [Option.some.injEq, Prod.mk.injEq] at hl
            exact ⟨e, hl.1.symm, hr⟩
          · exact h.live _ id' o c hl
        · rw [Function.update_of_ne hq] at hl
          exact h.live q id' o c hl
      · intro f hf
        have : f ≠ e := by
          rintro rfl
          have hf' : w.resident f = none := hf
          rw [hr] at hf'; cases hf'
        simpa [upd_apply, this] using h.unseen f hf
  · rw [if_neg hk]
    refine ⟨w.tree, L, ?_, h⟩
    simp only [moveOne]
    cases w.aabb e with
    | none => rfl
    | some b =>
      cases w.resident e with
      | none => rfl
      | some x => simp [hk]

theorem moveList_inv (P : Params S) (k : Kind) : ∀ (l : List Nat) {w : World S}
    {L : Bool → Live S} {seen : Nat → Option (Box S)}, TreeInv w L seen → w.fresh = [] →
    ∃ t L', l.foldlM (moveOne P k.procedural k) w = some { w with tree := t } ∧
      TreeInv { w with tree := t } L'
        (fun e => if e ∈ l ∧ w.kind e = k ∧ awake w e then w.aabb e else seen e) := by
  intro l
  induction l with
  | nil =>
    intro w L seen h _
    exact ⟨w.tree, L, by simp, by simpa using h⟩
  | cons e l ih =>
    intro w L seen h hw
    obtain ⟨t, L', h1, h2⟩ := moveOne_inv P h k e hw
    obtain ⟨t', L'', h3, h4⟩ := ih (w := { w with tree := t }) h2 hw
    refine ⟨t', L'', ?_, ?_⟩
    · rw [List.foldlM_cons, h1]
      exact h3
    · have : (fun f => if f ∈ e :: l ∧ w.kind f = k ∧ awake w f then w.aabb f else seen f) =
          fun f => if f ∈ l ∧ w.kind f = k ∧ awake w f then w.aabb f else
            (if w.kind e = k ∧ awake w e then upd seen e (w.aabb e) else seen) f := by
        funext f
        by_cases hfe : f = e
        · subst hfe
          by_cases hk : w.kind f = k ∧ awake w f
          · simp [hk]
          · simp [hk]
        · have : (if w.kind e = k ∧ awake w e then upd seen e (w.aabb e) else seen) f = seen f := by
            split_ifs
            · simp [upd_apply, hfe]
            · rfl
          rw [this]
          simp [hfe]
      rw [this]
      exact h4

/-- The bookkeeping of `move_aabbs`. -/
def noteMoved (w : World S) (seen : Nat → Option (Box S)) : Nat → Option (Box S) :=
  fun e => if w.kind e ≠ .static ∧ awake w e then w.aabb e else seen e

theorem moveAabbs_inv (P : Params S) {w : World S} {L : Bool → Live S}
    {seen : Nat → Option (Box S)} (h : TreeInv w L seen) (hw : w.fresh = []) (o1 o2 : List Nat)
    (h1 : ∀ e, w.aabb e ≠ none → e ∈ o1) (h2 : ∀ e, w.aabb e ≠ none → e ∈ o2) :
    ∃ t L', moveAabbs P w o1 o2 = some { w with tree := t } ∧
      TreeInv { w with tree := t } L' (noteMoved w seen) := by
  obtain ⟨t, L', h3, h4⟩ := moveList_inv P .dynamic o1 h hw
  obtain ⟨t', L'', h5, h6⟩ := moveList_inv P .kinematic o2 h4 hw
  refine ⟨t', L'', ?_, ?_⟩
  · unfold moveAabbs
    rw [show (true : Bool) = Kind.dynamic.procedural from rfl, h3]
    exact h5
  · have : (fun e => if e ∈ o2 ∧ w.kind e = .kinematic ∧ awake w e then w.aabb e else
        if e ∈ o1 ∧ w.kind e = .dynamic ∧ awake w e then w.aabb e else seen e) =
        noteMoved w seen := by
      funext e
      have hs : w.aabb e = none → seen e = none := by
        intro ha
        apply h.unseen
        cases hr : w.resident e with
        | none => rfl
        | some x => exact absurd ha (h.has e x.1 x.2 hr).1
      by_cases ha : w.aabb e = none
      · simp only [noteMoved, ha, hs ha]
        split_ifs <;> rfl
      · simp only [noteMoved, h1 e ha, h2 e ha, true_and]
        by_cases haw : awake w e
        · cases hk : w.kind e <;> simp [haw]
        · simp [haw]
    rw [← this]
    exact h6

end Edyn.Broad
