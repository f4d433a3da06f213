import Mathlib.Data.List.Perm.Subperm
import Mathlib.Data.List.Nodup

/-!
# The window in which modified components are exported (C28)

Models `exporter_modified_components`
(`include/edyn/networking/comp/exporter_modified_components.hpp`) and the part of
`server_snapshot_exporter::update` / `client_snapshot_exporter::update` that feeds it
(`include/edyn/networking/util/server_snapshot_exporter.hpp` 277-296,
`client_snapshot_exporter.hpp` 325-335).

Simplification: the first `count` elements of the `entry` array are a list; the elements beyond
`count` are never read.
-/

namespace Edyn.Net.ModifiedComps

/-- `comp_index_time`, lines 12-15. -/
structure Slot where
  index : Nat
  remaining : Nat
deriving DecidableEq, Repr

/-- `duration`, line 19. -/
def duration : Nat := 400

/-- `bump_index`, lines 30-44; `none` is the failed assertion on line 31. -/
def bump (numComponents : Nat) (s : List Slot) (index : Nat) : Option (List Slot) :=
  if s.length < numComponents then
    let found := s.any fun e => e.index == index
    let s := s.map fun e => if e.index == index then { e with remaining := duration } else e
    some (if found then s else s ++ [⟨index, duration⟩])
  else none

/-- The loop of `decay`, lines 46-57.  `pre` are the slots before position `i`, `rest` those from
`i` to `count`: a slot whose time is over is replaced by the last one, which is looked at next. -/
def decayGo (elapsed : Nat) (pre : List Slot) : List Slot → List Slot
  | [] => pre
  | x :: xs =>
    if elapsed > x.remaining then
      match h : xs.getLast? with
      | none => pre
      | some l => decayGo elapsed pre (l :: xs.dropLast)
    else decayGo elapsed (pre ++ [{ x with remaining := x.remaining - elapsed }]) xs
termination_by l => l.length
decreasing_by
  · have : xs ≠ [] := by rintro rfl; simp at h
    have := List.length_pos_of_ne_nil this
    simp only [List.length_cons, List.length_dropLast]
    omega
  · simp

/-- `decay`, lines 46-57. -/
def decay (elapsed : Nat) (s : List Slot) : List Slot := decayGo elapsed [] s

/-- `empty`, lines 21-28. -/
def isEmpty (s : List Slot) : Bool := s.all fun e => !decide (e.remaining > 0)

/-! ## Executions and specification -/

/-- A component is marked as modified, or some time passes. -/
inductive Op
  | modify (index : Nat)
  | elapse (ms : Nat)

def step (n : Nat) (s : List Slot) : Op → Option (List Slot)
  | .modify i => bump n s i
  | .elapse ms => some (decay ms s)

def run (n : Nat) : List Slot → List Op → Option (List Slot)
  | s, [] => some s
  | s, o :: os => (step n s o).bind fun s' => run n s' os

/-- Time since the last modification of component `i`, starting from `a` (`none`: never). -/
def age (i : Nat) : Option Nat → List Op → Option Nat
  | a, [] => a
  | a, .modify j :: os => age i (if j = i then some 0 else a) os
  | a, .elapse ms :: os => age i (a.map (· + ms)) os

/-! ## Lemmas -/

theorem decayGo_perm (ms : Nat) (pre rest : List Slot) :
    (decayGo ms pre rest).Perm (pre ++
      (rest.filter fun e => decide (ms ≤ e.remaining)).map
        fun e => { e with remaining := e.remaining - ms }) := by
  induction hn : rest.length using Nat.strongRecOn generalizing pre rest with
  | _ n ih =>
    cases rest with
    | nil => simp [decayGo]
    | cons x xs =>
      unfold decayGo
      by_cases hx : ms > x.remaining
      · rw [if_pos hx]
        have hx' : ¬ ms ≤ x.remaining := by omega
        rcases List.eq_nil_or_concat xs with h0 | ⟨l, y, h0⟩
        · subst h0
          simp [hx']
        · rw [List.concat_eq_append] at h0
          subst h0
          have h1 : (l ++ [y]).getLast? = some y := by simp
          split
          · rename_i h2; rw [h1] at h2; cases h2
          · rename_i z h2
            rw [h1] at h2
            injection h2 with h2
            subst h2
            rw [List.dropLast_concat]
            refine (ih _ ?_ pre (y :: l) rfl).trans ?_
            · subst hn; simp
            · refine List.Perm.append_left pre ?_
              refine List.Perm.map _ ?_
              have hfx : (x :: (l ++ [y])).filter (fun e => decide (ms ≤ e.remaining)) =
                  (l ++ [y]).filter fun e => decide (ms ≤ e.remaining) :=
                List.filter_cons_of_neg (by simpa using hx')
              rw [hfx]
              exact (List.perm_append_singleton y l).symm.filter _
      · rw [if_neg hx]
        have hx' : ms ≤ x.remaining := by omega
        refine (ih _ ?_ _ xs rfl).trans ?_
        · subst hn; simp
        · simp [hx']

theorem decay_perm (ms : Nat) (s : List Slot) :
    (decay ms s).Perm ((s.filter fun e => decide (ms ≤ e.remaining)).map
        fun e => { e with remaining := e.remaining - ms }) := by
  have := decayGo_perm ms [] s
  rwa [List.nil_append] at this

/-- The state represents exactly the given ages. -/
structure Inv (ages : Nat → Option Nat) (s : List Slot) : Prop where
  nodup : (s.map (·.index)).Nodup
  mem : ∀ i r, (⟨i, r⟩ : Slot) ∈ s ↔ ∃ a, ages i = some a ∧ a ≤ duration ∧ r = duration - a

theorem bump_inv {ages : Nat → Option Nat} {n i : Nat} {s s' : List Slot} (h : Inv ages s)
    (hb : bump n s i = some s') :
    Inv (fun j => if i = j then some 0 else ages j) s' := by
  unfold bump at hb
  split at hb
  · injection hb with hb
    subst hb
    set f : Slot → Slot := fun e => if e.index == i then { e with remaining := duration } else e
      with hf
    have hfi : ∀ e, (f e).index = e.index := by
      intro e; rw [hf]; simp only; split <;> rfl
    have hmapi : (s.map f).map (·.index) = s.map (·.index) := by
      rw [List.map_map]
      apply List.map_congr_left
      intro e _
      exact hfi e
    have hother : ∀ j r, j ≠ i → ((⟨j, r⟩ : Slot) ∈ s.map f ↔ (⟨j, r⟩ : Slot) ∈ s) := by
      intro j r hj
      rw [List.mem_map]
      constructor
      · rintro ⟨e, he, hfe⟩
        have : e.index = j := by rw [← hfi e, hfe]
        have hne : e.index ≠ i := by rw [this]; exact hj
        rw [hf] at hfe
        simp only [beq_iff_eq, hne, if_false] at hfe
        rw [← hfe]; exact he
      · intro hm
        exact ⟨_, hm, by simp [hf, hj]⟩
    have hsame : ∀ r, ((⟨i, r⟩ : Slot) ∈ s.map f ↔
        (i ∈ s.map (·.index)) ∧ r = duration) := by
      intro r
      rw [List.mem_map, List.mem_map]
      constructor
      · rintro ⟨e, he, hfe⟩
        have h1 : e.index = i := by rw [← hfi e, hfe]
        refine ⟨⟨e, he, h1⟩, ?_⟩
        rw [hf] at hfe
        simp only [beq_iff_eq, h1, if_true] at hfe
        exact (congrArg Slot.remaining hfe).symm
      · rintro ⟨⟨e, he, h1⟩, h2⟩
        refine ⟨e, he, ?_⟩
        rw [hf]
        simp only [beq_iff_eq, h1, if_true, h2]
    have hfound : (s.any fun e => e.index == i) = true ↔ i ∈ s.map (·.index) := by
      rw [List.any_eq_true, List.mem_map]
      simp
    by_cases hin : i ∈ s.map (·.index)
    · have := hfound.2 hin
      rw [if_pos this]
      refine ⟨by rw [hmapi]; exact h.nodup, ?_⟩
      intro j r
      by_cases hj : j = i
      · subst hj
        rw [hsame]
        simp [hin]
      · rw [hother j r hj, h.mem]
        have : ¬ i = j := fun h => hj h.symm
        simp [this]
    · have hnf : ¬ (s.any fun e => e.index == i) = true := fun hc => hin (hfound.1 hc)
      rw [if_neg hnf]
      refine ⟨?_, ?_⟩
      · rw [List.map_append, hmapi]
        simp only [List.map_cons, List.map_nil]
        exact List.Nodup.append h.nodup (List.nodup_singleton _) (by simpa using hin)
      · intro j r
        rw [List.mem_append, List.mem_singleton]
        by_cases hj : j = i
        · subst hj
          rw [hsame]
          simp [hin]
        · rw [hother j r hj, h.mem]
          have h1 : ¬ i = j := fun h => hj h.symm
          simp [h1, hj]
  · cases hb

theorem decay_inv {ages : Nat → Option Nat} {ms : Nat} {s : List Slot} (h : Inv ages s) :
    Inv (fun j => (ages j).map (· + ms)) (decay ms s) := by
  have hp := decay_perm ms s
  refine ⟨?_, ?_⟩
  · rw [(hp.map (·.index)).nodup_iff, List.map_map]
    have : ((s.filter fun e => decide (ms ≤ e.remaining)).map
        ((·.index) ∘ fun e : Slot => { e with remaining := e.remaining - ms })) =
        (s.filter fun e => decide (ms ≤ e.remaining)).map (·.index) := rfl
    rw [this]
    exact h.nodup.sublist (List.filter_sublist.map _)
  · intro i r
    rw [hp.mem_iff, List.mem_map]
    constructor
    · rintro ⟨e, he, hee⟩
      rw [List.mem_filter] at he
      obtain ⟨he, hle⟩ := he
      simp only [decide_eq_true_eq] at hle
      have hi : e.index = i := congrArg Slot.index hee
      have hr : e.remaining - ms = r := congrArg Slot.remaining hee
      obtain ⟨a, ha, hal, har⟩ := (h.mem e.index e.remaining).1 he
      refine ⟨a + ms, ?_, ?_, ?_⟩
      · rw [← hi, ha]; rfl
      · omega
      · omega
    · rintro ⟨a, ha, hal, har⟩
      simp only [Option.map_eq_some_iff] at ha
      obtain ⟨b, hb, rfl⟩ := ha
      refine ⟨⟨i, duration - b⟩, ?_, ?_⟩
      · rw [List.mem_filter]
        refine ⟨(h.mem _ _).2 ⟨b, hb, by omega, rfl⟩, ?_⟩
        simp only [decide_eq_true_eq]
        omega
      · simp only [Slot.mk.injEq, true_and]
        omega

theorem run_inv {n : Nat} {ages : Nat → Option Nat} {s s' : List Slot} (ops : List Op)
    (h : Inv ages s) (hr : run n s ops = some s') : Inv (fun i => age i (ages i) ops) s' := by
  induction ops generalizing ages s with
  | nil =>
    simp only [run, Option.some.injEq] at hr
    subst hr
    exact h
  | cons o os ih =>
    simp only [run, Option.bind_eq_some_iff] at hr
    obtain ⟨s1, h1, h2⟩ := hr
    cases o with
    | modify i =>
      have := ih (bump_inv h h1) h2
      exact this
    | elapse ms =>
      simp only [step, Option.some.injEq] at h1
      subst h1
      exact ih (decay_inv h) h2

theorem init_inv : Inv (fun _ => none) [] := ⟨by simp, by simp⟩

/-! ## C28 -/

/-- **C28.** After any history of modifications and elapsed times, a component is in the exported
set if and only if it has been modified and no more than 400 ms have passed since its last
modification; other components play no role. -/
theorem modified_window_exact {n : Nat} (ops : List Op) {s : List Slot}
    (h : run n [] ops = some s) (i : Nat) :
    i ∈ s.map (·.index) ↔ ∃ a, age i none ops = some a ∧ a ≤ 400 := by
  have hi := run_inv ops init_inv h
  rw [List.mem_map]
  constructor
  · rintro ⟨e, he, rfl⟩
    obtain ⟨a, h1, h2, _⟩ := (hi.mem e.index e.remaining).1 he
    exact ⟨a, h1, h2⟩
  · rintro ⟨a, h1, h2⟩
    exact ⟨⟨i, duration - a⟩, (hi.mem _ _).2 ⟨a, h1, h2, rfl⟩, rfl⟩

/-- **C28, each once.** No component is listed twice. -/
theorem modified_once {n : Nat} (ops : List Op) {s : List Slot} (h : run n [] ops = some s) :
    (s.map (·.index)).Nodup :=
  (run_inv ops init_inv h).nodup

/-- `empty` says that no component was modified less than 400 ms ago. -/
theorem isEmpty_exact {n : Nat} (ops : List Op) {s : List Slot} (h : run n [] ops = some s) :
    isEmpty s = true ↔ ∀ i a, age i none ops = some a → 400 ≤ a := by
  have hi := run_inv ops init_inv h
  unfold isEmpty
  rw [List.all_eq_true]
  constructor
  · intro hall i a ha
    by_contra hc
    have := hall ⟨i, duration - a⟩ ((hi.mem _ _).2 ⟨a, ha, by unfold duration; omega, rfl⟩)
    simp only [gt_iff_lt, Bool.not_eq_true', decide_eq_false_iff_not, duration] at this
    omega
  · intro hall e he
    obtain ⟨a, h1, h2, h3⟩ := (hi.mem e.index e.remaining).1 he
    have := hall e.index a h1
    simp only [gt_iff_lt, Bool.not_eq_true', decide_eq_false_iff_not, h3, duration]
    omega

/-- **C28, definedness.** The assertion in `bump_index` holds as long as fewer components than
`NumComponents` are ever modified. -/
theorem run_defined {n : Nat} (ops : List Op) (comps : List Nat) (hlen : comps.length < n)
    (hall : ∀ o ∈ ops, ∀ i, o = .modify i → i ∈ comps) : ∃ s, run n [] ops = some s := by
  have gen : ∀ (ops : List Op) (s : List Slot) (ages : Nat → Option Nat), Inv ages s →
      (∀ e ∈ s, e.index ∈ comps) → (∀ o ∈ ops, ∀ i, o = .modify i → i ∈ comps) →
      ∃ s', run n s ops = some s' := by
    intro ops
    induction ops with
    | nil => intro s _ _ _ _; exact ⟨s, rfl⟩
    | cons o os ih =>
      intro s ages hs hc ho
      have hlt : s.length < n := by
        have := (List.subperm_of_subset hs.nodup (l₂ := comps) (by
          intro x hx
          obtain ⟨e, he, rfl⟩ := List.mem_map.1 hx
          exact hc e he)).length_le
        rw [List.length_map] at this
        omega
      cases o with
      | modify i =>
        have hi := ho (.modify i) (by simp) i rfl
        obtain ⟨s1, h1⟩ : ∃ s1, bump n s i = some s1 := by
          unfold bump; rw [if_pos hlt]; exact ⟨_, rfl⟩
        have hinv := bump_inv hs h1
        obtain ⟨s', h'⟩ := ih s1 _ hinv (by
          intro e he
          obtain ⟨a, ha, hb, hr⟩ := (hinv.mem e.index e.remaining).1 he
          by_cases hie : i = e.index
          · rw [← hie]; exact hi
          · simp only [hie, if_false] at ha
            have : (⟨e.index, e.remaining⟩ : Slot) ∈ s := (hs.mem _ _).2 ⟨a, ha, hb, hr⟩
            exact hc _ this) (fun o ho' => ho o (List.mem_cons_of_mem _ ho'))
        exact ⟨s', by simp only [run, step, h1, Option.bind_some]; exact h'⟩
      | elapse ms =>
        obtain ⟨s', h'⟩ := ih (decay ms s) _ (decay_inv hs) (by
          intro e he
          have := (decay_perm ms s).mem_iff.1 he
          obtain ⟨f, hf, rfl⟩ := List.mem_map.1 this
          exact hc f (List.mem_filter.1 hf).1) (fun o ho' => ho o (List.mem_cons_of_mem _ ho'))
        exact ⟨s', by simp only [run, step, Option.bind_some]; exact h'⟩
  exact gen ops [] _ init_inv (by simp) hall

/-- The assertion does fail if all components were modified within the window and one of them is
modified again, although there is a slot for it already. -/
theorem all_modified_asserts (n : Nat) (hn : 0 < n) :
    run n [] ((List.range n).map Op.modify ++ [.modify 0]) = none := by
  have gen : ∀ (k : Nat) (s : List Slot), (∀ e ∈ s, e.index < k) → s.length = k →
      ∀ m, k + m = n →
        run n s ((List.range' k m).map Op.modify ++ [.modify 0]) = none := by
    intro k s hs hk m
    induction m generalizing k s with
    | zero =>
      intro hm
      have : ¬ s.length < n := by omega
      simp [run, step, bump, this]
    | succ m ih =>
      intro hm
      have hlt : s.length < n := by omega
      have hnf : (s.any fun e => e.index == k) = false := by
        rw [List.any_eq_false]
        intro e he
        have := hs e he
        simp only [beq_iff_eq]
        omega
      have hmap : (s.map fun e => if e.index == k then { e with remaining := duration } else e)
          = s := by
        conv => rhs; rw [← List.map_id s]
        apply List.map_congr_left
        intro e he
        have := hs e he
        have h2 : ¬ e.index = k := by omega
        simp [h2]
      rw [List.range'_succ, List.map_cons, List.cons_append]
      have hb : bump n s k = some (s ++ [⟨k, duration⟩]) := by
        unfold bump
        rw [if_pos hlt, hmap, hnf]
        rfl
      simp only [run, step, hb, Option.bind_some]
      refine ih (k + 1) _ ?_ (by simp [hk]) (by omega)
      intro e he
      rcases List.mem_append.1 he with he | he
      · have := hs e he; omega
      · rw [List.mem_singleton.1 he]; simp
  have := gen 0 [] (by simp) rfl n (by omega)
  rwa [← List.range_eq_range'] at this

/-- Non-vacuity: two components modified at different times; the first leaves the window. -/
example : (run 5 [] [.modify 1, .elapse 300, .modify 3, .modify 2, .elapse 100, .modify 4,
    .elapse 50, .elapse 100]).map (·.map (·.index)) = some [4, 3, 2] := by
  decide +kernel

/-! ## The exporter's clock -/

/-- `update` of the exporters: the time since the last update in whole milliseconds
(`static_cast<unsigned>((time - m_last_time) * 1000)`), with times in microseconds, for one
entity.  The state is the set of modified components and `m_last_time`. -/
def exporterUpdate (time : Nat) (st : List Slot × Nat) : List Slot × Nat :=
  (decay ((time - st.2) / 1000) st.1, time)

def exporterUpdates (st : List Slot × Nat) : List Nat → List Slot × Nat
  | [] => st
  | t :: ts => exporterUpdates (exporterUpdate t st) ts

/-- **Finding.** Updates that are less than a millisecond apart never end the window: the
truncated remainder is discarded each time, so the component is exported for ever. -/
theorem fast_updates_never_drop (s : List Slot) (t : Nat) (n : Nat) :
    (exporterUpdates (s, t) ((List.range n).map fun k => t + 999 * (k + 1))).1.Perm s := by
  have gen : ∀ (n k : Nat) (s' : List Slot), s'.Perm s →
      (exporterUpdates (s', t + 999 * k)
        ((List.range' k n).map fun j => t + 999 * (j + 1))).1.Perm s := by
    intro n
    induction n with
    | zero => intro k s' h; exact h
    | succ n ih =>
      intro k s' h
      rw [List.range'_succ, List.map_cons]
      simp only [exporterUpdates, exporterUpdate]
      have h0 : (t + 999 * (k + 1) - (t + 999 * k)) / 1000 = 0 := by omega
      rw [h0]
      refine ih (k + 1) _ ?_
      refine (decay_perm 0 s').trans ?_
      have : (s'.filter fun e => decide (0 ≤ e.remaining)).map
          (fun e => ({ e with remaining := e.remaining - 0 } : Slot)) = s' := by
        rw [List.filter_eq_self.2 (by simp)]
        conv => rhs; rw [← List.map_id s']
        rfl
      rw [this]
      exact h
  have := gen n 0 s (List.Perm.refl _)
  rw [← List.range_eq_range'] at this
  simpa using this

/-- **Finding.** A component modified just before an update that comes more than 400 ms after the
previous one is dropped by that update, before it could be exported even once, although its age
is zero. -/
theorem slow_update_drops_fresh (n i t₀ t₁ : Nat) (hn : 0 < n) (ht : 401000 ≤ t₁ - t₀) :
    ∃ s, bump n [] i = some s ∧ (exporterUpdate t₁ (s, t₀)).1 = [] := by
  refine ⟨[⟨i, duration⟩], by simp [bump, hn], ?_⟩
  have hp := decay_perm ((t₁ - t₀) / 1000) [⟨i, duration⟩]
  have : ¬ (t₁ - t₀) / 1000 ≤ duration := by unfold duration; omega
  simp only [List.filter_cons, this, decide_false, Bool.false_eq_true, if_false,
    List.filter_nil, List.map_nil] at hp
  exact hp.eq_nil

end Edyn.Net.ModifiedComps
