import Mathlib.Algebra.Order.Group.Defs
import Mathlib.Algebra.Order.Group.Int
import Mathlib.Algebra.Order.Sub.Basic
import Mathlib.Data.List.Perm.Subperm
import Mathlib.Data.List.Sort
import Mathlib.Data.List.Count
import Mathlib.Data.List.TakeWhile
import Mathlib.Tactic.Linarith

/-!
# Action histories sent over an unreliable channel (C24)

Models `action_history` (`include/edyn/networking/comp/action_history.hpp`), the recording of
actions on the client (`trim_and_insert_actions` in `src/edyn/networking/sys/client_side.cpp`,
`append_actions` in `include/edyn/networking/util/client_snapshot_exporter.hpp`) and their
merging on the server (`merge_action_history` in
`include/edyn/networking/util/server_snapshot_importer.hpp`).

Simplifications: `double` is an arbitrary linearly ordered additive group (no rounding, no
NaN); the action index and the serialized action list of an entry are one value of type `D`.
-/

set_option linter.unusedSectionVars false

namespace Edyn.Net.ActionHistory

variable {T : Type*} [AddCommGroup T] [LinearOrder T] [IsOrderedAddMonoid T] {D : Type*}

/-- `action_history::entry`, `action_history.hpp` 18-29. -/
structure Entry (T D : Type*) where
  timestamp : T
  data : D
deriving DecidableEq

/-- `action_history`, `action_history.hpp` 15-32; `last_timestamp` starts at zero. -/
structure History (T D : Type*) [Zero T] where
  entries : List (Entry T D) := []
  last : T := 0

/-- `erase_until`, `action_history.hpp` 38-42: erase everything before the first entry that
is not older than `timestamp`. -/
def eraseUntil (timestamp : T) (entries : List (Entry T D)) : List (Entry T D) :=
  entries.dropWhile fun e => !decide (e.timestamp ≥ timestamp)

/-- `merge`, `action_history.hpp` 44-56.  `none` is the failed assertion on line 45. -/
def merge (h : History T D) (other : List (Entry T D)) : Option (History T D) :=
  if other.isEmpty then none
  else
    let entries := h.entries ++ other.dropWhile fun e => !decide (e.timestamp > h.last)
    some { entries, last := match entries.getLast? with
      | some e => e.timestamp
      | none => h.last }

/-- `append_current_actions` after the trimming of `trim_and_insert_actions`,
`client_side.cpp` 349-361, `client_snapshot_exporter.hpp` 73-104: old entries are erased, then
every action type with pending actions appends one entry stamped with the current time. -/
def clientRecord (time maxAge : T) (acts : List D) (entries : List (Entry T D)) :
    List (Entry T D) :=
  eraseUntil (time - maxAge) entries ++ acts.map fun d => ⟨time, d⟩

/-- The shift of `merge_action_history`, `server_snapshot_importer.hpp` 341-343. -/
def shift (δ : T) (l : List (Entry T D)) : List (Entry T D) :=
  l.map fun e => { e with timestamp := e.timestamp + δ }

/-- What `std::sort` (`action_history::sort`, `action_history.hpp` 58-62) may return: any
permutation ordered by timestamp (entries with equal timestamps in any order). -/
def SortResult (l l' : List (Entry T D)) : Prop :=
  l'.Perm l ∧ l'.Pairwise fun a b => a.timestamp ≤ b.timestamp

/-! ## The whole system: one entity's history at the client, the channel, the server -/

/-- State of the system.  `emitted`, `clock` and `appended` only record what happened: all
actions the client ever recorded, the time of its last update and everything the server ever
added to its history (in the order in which it was added). -/
structure Sys (T D : Type*) [Zero T] where
  client : List (Entry T D) := []
  sent : List (List (Entry T D)) := []
  server : History T D := {}
  emitted : List (Entry T D) := []
  clock : T
  appended : List (Entry T D) := []

/-- The executions.  Packets can be lost (never delivered), duplicated (delivered several
times) and reordered (delivered in any order); `G` restricts the deliveries considered.
The clock difference `δ` is constant. -/
inductive Reach (δ maxAge : T) (G : Sys T D → List (Entry T D) → Prop) : Sys T D → Prop
  /-- The client has not recorded anything and its clock is after the server's time zero. -/
  | init (t₀ : T) (h0 : 0 ≤ t₀ + δ) : Reach δ maxAge G { clock := t₀ }
  /-- An update of the client at a later time, with any pending actions. -/
  | record {s : Sys T D} (time : T) (acts : List D) (hs : Reach δ maxAge G s)
      (ht : s.clock < time) :
      Reach δ maxAge G
        { s with
          client := clientRecord time maxAge acts s.client
          emitted := s.emitted ++ acts.map fun d => ⟨time, d⟩
          clock := time }
  /-- The client sends its history; `serialize` (`action_history.hpp` 65-78) keeps the first
  255 entries, the packet is only sent if there is something in it. -/
  | send {s : Sys T D} (hs : Reach δ maxAge G s) (hn : s.client ≠ []) :
      Reach δ maxAge G { s with sent := s.sent ++ [s.client.take 255] }
  /-- Some packet sent earlier arrives: it is sorted, shifted and merged. -/
  | deliver {s : Sys T D} {h' : History T D} {sorted : List (Entry T D)}
      (p : List (Entry T D)) (hs : Reach δ maxAge G s) (hp : p ∈ s.sent) (hg : G s p)
      (hsort : SortResult p sorted) (hm : merge s.server (shift δ sorted) = some h') :
      Reach δ maxAge G
        { s with
          server := h'
          appended := s.appended ++ h'.entries.drop s.server.entries.length }
  /-- The server consumes a prefix of its history (`dispatch_actions`). -/
  | consume {s : Sys T D} (n : Nat) (hs : Reach δ maxAge G s) :
      Reach δ maxAge G
        { s with server := { s.server with entries := s.server.entries.drop n } }

/-! ## Specification -/

/-- The packet contains all the actions that are newer than the newest one already received, up
to its own newest one: the histories overlap. -/
def Overlaps [DecidableEq D] (δ : T) (s : Sys T D) (p : List (Entry T D)) : Prop :=
  ∀ e ∈ s.emitted, s.server.last < e.timestamp + δ →
    (∃ f ∈ p, e.timestamp ≤ f.timestamp) → p.count e = s.emitted.count e

/-! ## Lemmas -/

theorem dropWhile_sorted_eq_filter {l : List (Entry T D)} (t : T)
    (hs : l.Pairwise fun a b => a.timestamp ≤ b.timestamp) :
    (l.dropWhile fun e => !decide (e.timestamp > t)) =
      l.filter fun e => decide (e.timestamp > t) := by
  induction l with
  | nil => rfl
  | cons x xs ih =>
    rw [List.pairwise_cons] at hs
    by_cases h : x.timestamp > t
    · have h2 : ∀ y ∈ xs, y.timestamp > t := fun y hy => lt_of_lt_of_le h (hs.1 y hy)
      rw [List.dropWhile_cons, List.filter_cons]
      simp only [h, decide_true, Bool.not_true, Bool.false_eq_true, if_false, if_true]
      congr 1
      symm
      rw [List.filter_eq_self]
      intro y hy
      simpa using h2 y hy
    · simp [h, ih hs.2]

theorem eraseUntil_sorted_eq_filter {l : List (Entry T D)} (t : T)
    (hs : l.Pairwise fun a b => a.timestamp ≤ b.timestamp) :
    eraseUntil t l = l.filter fun e => decide (t ≤ e.timestamp) := by
  induction l with
  | nil => rfl
  | cons x xs ih =>
    unfold eraseUntil at ih ⊢
    rw [List.pairwise_cons] at hs
    by_cases h : t ≤ x.timestamp
    · have h2 : ∀ y ∈ xs, t ≤ y.timestamp := fun y hy => le_trans h (hs.1 y hy)
      rw [List.dropWhile_cons, List.filter_cons]
      simp only [ge_iff_le, h, decide_true, Bool.not_true, Bool.false_eq_true, if_false, if_true]
      congr 1
      symm
      rw [List.filter_eq_self]
      intro y hy
      simpa using h2 y hy
    · simp [h, ih hs.2]

/-- Ordered by timestamp. -/
abbrev TSorted (l : List (Entry T D)) : Prop :=
  l.Pairwise fun a b => a.timestamp ≤ b.timestamp

theorem shift_sorted {δ : T} {l : List (Entry T D)} (h : TSorted l) : TSorted (shift δ l) := by
  unfold shift TSorted
  rw [List.pairwise_map]
  exact h.imp fun hab => add_le_add_left hab δ

/-- What is known about the client and the packets. -/
structure ClientInv (δ : T) (s : Sys T D) : Prop where
  pos : 0 ≤ s.clock + δ
  emittedSorted : TSorted s.emitted
  emittedLe : ∀ e ∈ s.emitted, e.timestamp ≤ s.clock
  client : s.client.Sublist s.emitted
  packets : ∀ p ∈ s.sent, p ≠ [] ∧ p.Sublist s.emitted

theorem clientInv {δ maxAge : T} {G : Sys T D → List (Entry T D) → Prop} {s : Sys T D}
    (h : Reach δ maxAge G s) : ClientInv δ s := by
  induction h with
  | init t₀ h0 =>
    exact ⟨h0, List.Pairwise.nil, by simp, List.Sublist.refl _, by simp⟩
  | @record s time acts _ ht ih =>
    have hpos : 0 < time + δ := lt_of_le_of_lt ih.pos (add_lt_add_left ht δ)
    have hnew : ∀ e ∈ acts.map (fun d => (⟨time, d⟩ : Entry T D)), e.timestamp = time := by
      intro e he
      obtain ⟨d, _, rfl⟩ := List.mem_map.1 he
      rfl
    refine ⟨hpos.le, ?_, ?_, ?_, ?_⟩
    · show TSorted (_ ++ _)
      unfold TSorted
      rw [List.pairwise_append]
      refine ⟨ih.emittedSorted, ?_, ?_⟩
      · rw [List.pairwise_map]
        exact List.pairwise_of_forall (fun _ _ => le_refl _)
      · intro a ha b hb
        rw [hnew b hb]
        exact le_trans (ih.emittedLe a ha) ht.le
    · intro e he
      rcases List.mem_append.1 he with he | he
      · exact le_trans (ih.emittedLe e he) ht.le
      · exact (hnew e he).le
    · exact ((List.dropWhile_sublist _).trans ih.client).append (List.Sublist.refl _)
    · intro p hp
      obtain ⟨h1, h2⟩ := ih.packets p hp
      exact ⟨h1, h2.trans (List.sublist_append_left _ _)⟩
  | @send s _ hn ih =>
    refine ⟨ih.pos, ih.emittedSorted, ih.emittedLe, ih.client, ?_⟩
    intro p hp
    rcases List.mem_append.1 hp with hp | hp
    · exact ih.packets p hp
    · obtain rfl := List.mem_singleton.1 hp
      refine ⟨?_, (List.take_sublist _ _).trans ih.client⟩
      intro h
      rw [List.take_eq_nil_iff] at h
      rcases h with h | h
      · omega
      · exact hn h
  | deliver p _ _ _ _ _ ih =>
    exact ⟨ih.pos, ih.emittedSorted, ih.emittedLe, ih.client, ih.packets⟩
  | consume n _ ih =>
    exact ⟨ih.pos, ih.emittedSorted, ih.emittedLe, ih.client, ih.packets⟩

theorem merge_defined {h : History T D} {o : List (Entry T D)} (ho : o ≠ []) :
    ∃ h', merge h o = some h' := by
  unfold merge
  simp [ho]

/-- The content of one merge, for a history whose last timestamp bounds its entries. -/
theorem merge_spec {h h' : History T D} {o : List (Entry T D)} (hm : merge h o = some h')
    (hs : TSorted o) (hb : ∀ e ∈ h.entries.getLast?, e.timestamp = h.last) :
    h'.entries = h.entries ++ (o.filter fun e => decide (e.timestamp > h.last)) ∧
    h.last ≤ h'.last ∧
    (∀ e ∈ o, e.timestamp ≤ h'.last) ∧
    (∀ e ∈ h'.entries.getLast?, e.timestamp = h'.last) ∧
    (h'.last = h.last ∨ ∃ e ∈ o, e.timestamp = h'.last ∧ h.last < e.timestamp) := by
  unfold merge at hm
  split at hm
  · cases hm
  · rename_i hne
    rw [dropWhile_sorted_eq_filter _ hs] at hm
    set new := o.filter fun e => decide (e.timestamp > h.last) with hnew
    simp only [Option.some.injEq] at hm
    have hnewmem : ∀ e, e ∈ new ↔ e ∈ o ∧ h.last < e.timestamp := by
      intro e; rw [hnew, List.mem_filter]; simp
    have hnewsorted : TSorted new := hs.filter _
    by_cases hn : new = []
    · have e1 : h'.entries = h.entries ++ new := by rw [← hm]
      have e2 : h'.last = h.last := by
        rw [← hm]
        simp only [hn, List.append_nil]
        cases hl : h.entries.getLast? with
        | none => rfl
        | some e => exact hb e (by rw [hl]; rfl)
      refine ⟨e1, e2.ge, ?_, ?_, Or.inl e2⟩
      · intro e he
        rw [e2]
        by_contra hcon
        have : e ∈ new := (hnewmem e).2 ⟨he, not_le.1 hcon⟩
        rw [hn] at this
        cases this
      · rw [e1, e2, hn, List.append_nil]
        exact hb
    · obtain ⟨l, last, hl⟩ : ∃ l x, new = l ++ [x] :=
        ⟨new.dropLast, new.getLast hn, (List.dropLast_append_getLast hn).symm⟩
      have e1 : h'.entries = h.entries ++ new := by rw [← hm]
      have elast : h'.entries.getLast? = some last := by
        rw [e1, hl, ← List.append_assoc, List.getLast?_append]
        simp
      have e2 : h'.last = last.timestamp := by
        rw [← hm]
        rw [← hm] at elast
        simp only at elast ⊢
        rw [elast]
      have hlastmem : last ∈ new := by rw [hl]; simp
      have hmax : ∀ e ∈ new, e.timestamp ≤ last.timestamp := by
        intro e he
        rw [hl] at he
        rcases List.mem_append.1 he with he | he
        · have hp := hnewsorted
          unfold TSorted at hp
          rw [hl, List.pairwise_append] at hp
          exact hp.2.2 e he last (by simp)
        · rw [List.mem_singleton.1 he]
      have hlt := ((hnewmem last).1 hlastmem).2
      refine ⟨e1, ?_, ?_, ?_, Or.inr ⟨last, ((hnewmem last).1 hlastmem).1, e2.symm, hlt⟩⟩
      · rw [e2]; exact hlt.le
      · intro e he
        by_cases hc : h.last < e.timestamp
        · rw [e2]; exact hmax e ((hnewmem e).2 ⟨he, hc⟩)
        · rw [e2]; exact le_trans (not_lt.1 hc) hlt.le
      · rw [elast, e2]
        intro e he
        rw [Option.mem_def] at he
        injection he with he
        rw [he]

theorem mem_shift {δ : T} {l : List (Entry T D)} {e : Entry T D} :
    e ∈ shift δ l ↔ ∃ f ∈ l, (⟨f.timestamp + δ, f.data⟩ : Entry T D) = e := by
  unfold shift
  rw [List.mem_map]

theorem shift_perm {δ : T} {l l' : List (Entry T D)} (h : l.Perm l') :
    (shift δ l).Perm (shift δ l') := h.map _

theorem count_shift [DecidableEq D] {δ : T} (l : List (Entry T D)) (e : Entry T D) :
    (shift δ l).count ⟨e.timestamp + δ, e.data⟩ = l.count e := by
  have hinj : Function.Injective
      (fun e : Entry T D => ({ e with timestamp := e.timestamp + δ } : Entry T D)) := by
    intro a b hab
    cases a; cases b
    simp only [Entry.mk.injEq, add_left_inj] at hab
    simp [hab.1, hab.2]
  exact List.count_map_of_injective l _ hinj e

/-- What is known about the server. -/
structure ServerInv [DecidableEq D] (δ : T) (s : Sys T D) : Prop where
  lastOk : ∀ e ∈ s.server.entries.getLast?, e.timestamp = s.server.last
  sorted : TSorted s.appended
  le : ∀ e ∈ s.appended, e.timestamp ≤ s.server.last
  suffix : s.server.entries <:+ s.appended
  counts : ∀ e : Entry T D, s.appended.count ⟨e.timestamp + δ, e.data⟩ ≤ s.emitted.count e
  lastSrc : s.server.last = 0 ∨ ∃ e ∈ s.emitted, s.server.last = e.timestamp + δ

/-- The number of copies of an action added by one delivery. -/
theorem delivered_count [DecidableEq D] {δ t : T} {p sorted : List (Entry T D)}
    (hsort : SortResult p sorted) (e : Entry T D) :
    ((shift δ sorted).filter fun f => decide (f.timestamp > t)).count
      ⟨e.timestamp + δ, e.data⟩ = if t < e.timestamp + δ then p.count e else 0 := by
  split
  · rename_i h
    rw [List.count_filter (by simpa using h), count_shift, hsort.1.count_eq]
  · rename_i h
    rw [List.count_eq_zero]
    intro hm
    have := (List.mem_filter.1 hm).2
    simp only [gt_iff_lt, decide_eq_true_eq] at this
    exact h this

theorem serverInv [DecidableEq D] {δ maxAge : T} {G : Sys T D → List (Entry T D) → Prop}
    {s : Sys T D} (h : Reach δ maxAge G s) : ServerInv δ s := by
  induction h with
  | init t₀ h0 =>
    exact ⟨by simp, List.Pairwise.nil, by simp, List.suffix_refl _, by simp, Or.inl rfl⟩
  | @record s time acts hr ht ih =>
    refine ⟨ih.lastOk, ih.sorted, ih.le, ih.suffix, ?_, ?_⟩
    · intro e
      refine le_trans (ih.counts e) ?_
      exact (List.sublist_append_left _ _).count_le e
    · rcases ih.lastSrc with h | ⟨e, he, h⟩
      · exact Or.inl h
      · exact Or.inr ⟨e, List.mem_append_left _ he, h⟩
  | @send s _ hn ih =>
    exact ⟨ih.lastOk, ih.sorted, ih.le, ih.suffix, ih.counts, ih.lastSrc⟩
  | @deliver s h' sorted p hr hp hg hsort hm ih =>
    have hc := clientInv hr
    obtain ⟨hpne, hpsub⟩ := hc.packets p hp
    obtain ⟨e1, e2, e3, e4, e5⟩ := merge_spec hm (shift_sorted hsort.2) ih.lastOk
    have edrop : h'.entries.drop s.server.entries.length =
        (shift δ sorted).filter fun e => decide (e.timestamp > s.server.last) := by
      rw [e1, List.drop_left]
    have hmemnew : ∀ e ∈ (shift δ sorted).filter fun e => decide (e.timestamp > s.server.last),
        s.server.last < e.timestamp := by
      intro e he
      have := (List.mem_filter.1 he).2
      simpa using this
    refine ⟨e4, ?_, ?_, ?_, ?_, ?_⟩
    · show TSorted (_ ++ _)
      unfold TSorted
      rw [edrop, List.pairwise_append]
      refine ⟨ih.sorted, (shift_sorted hsort.2).filter _, ?_⟩
      intro a ha b hb
      exact le_trans (ih.le a ha) (hmemnew b hb).le
    · intro e he
      rcases List.mem_append.1 he with he | he
      · exact le_trans (ih.le e he) e2
      · rw [edrop] at he
        exact e3 e (List.mem_filter.1 he).1
    · show h'.entries <:+ s.appended ++ _
      rw [edrop, e1]
      obtain ⟨pre, hpre⟩ := ih.suffix
      exact ⟨pre, by rw [← List.append_assoc, hpre]⟩
    · intro e
      show (s.appended ++ _).count _ ≤ _
      rw [edrop, List.count_append, delivered_count hsort]
      split
      · rename_i hlt
        have h0 : s.appended.count ⟨e.timestamp + δ, e.data⟩ = 0 := by
          rw [List.count_eq_zero]
          intro hmem
          exact absurd (ih.le _ hmem) (not_le.2 hlt)
        rw [h0, Nat.zero_add]
        exact hpsub.count_le e
      · exact ih.counts e
    · rcases e5 with h | ⟨e, he, h, _⟩
      · show h'.last = 0 ∨ _
        rw [h]
        exact ih.lastSrc
      · obtain ⟨f, hf, rfl⟩ := mem_shift.1 he
        exact Or.inr ⟨f, hpsub.subset (hsort.1.mem_iff.1 hf), h.symm⟩
  | @consume s n _ ih =>
    refine ⟨?_, ih.sorted, ih.le, ?_, ih.counts, ih.lastSrc⟩
    · intro e he
      simp only [List.getLast?_drop] at he
      split at he
      · cases he
      · exact ih.lastOk e he
    · exact (List.drop_suffix _ _).trans ih.suffix

/-! ## C24 -/

/-- **C24, at most once and in order.** Whatever packets are lost, repeated, reordered or cut,
the actions added to the server's history are in timestamp order, and no action is added more
often than it was recorded by the client. -/
theorem actions_at_most_once [DecidableEq D] {δ maxAge : T}
    {G : Sys T D → List (Entry T D) → Prop} {s : Sys T D} (h : Reach δ maxAge G s) :
    (s.appended.Pairwise fun a b => a.timestamp ≤ b.timestamp) ∧
    ∀ e : Entry T D, s.appended.count ⟨e.timestamp + δ, e.data⟩ ≤ s.emitted.count e :=
  ⟨(serverInv h).sorted, (serverInv h).counts⟩

/-- **C24, exactly once.** If the delivered histories overlap, every action up to the newest
timestamp received has been added exactly as often as it was recorded: none is lost and none
is repeated, whatever was lost, repeated or reordered in between. -/
theorem actions_exactly_once [DecidableEq D] {δ maxAge : T} {s : Sys T D}
    (h : Reach δ maxAge (Overlaps δ) s) (e : Entry T D) (he : e ∈ s.emitted)
    (hle : e.timestamp + δ ≤ s.server.last) :
    s.appended.count ⟨e.timestamp + δ, e.data⟩ = s.emitted.count e := by
  induction h with
  | init t₀ h0 => cases he
  | @record s time acts hr ht ih =>
    have hc := clientInv hr
    have hv := serverInv hr
    have hlast : s.server.last ≤ s.clock + δ := by
      rcases hv.lastSrc with h0 | ⟨e, he, h0⟩
      · rw [h0]; exact hc.pos
      · rw [h0]; exact add_le_add_left (hc.emittedLe e he) δ
    have hold : e.timestamp ≤ s.clock := le_of_add_le_add_right (le_trans hle hlast)
    have hnot : e ∉ acts.map fun d => (⟨time, d⟩ : Entry T D) := by
      intro hm
      obtain ⟨d, _, rfl⟩ := List.mem_map.1 hm
      exact absurd hold (not_le.2 ht)
    rcases List.mem_append.1 he with he | he
    · show s.appended.count _ = (s.emitted ++ _).count e
      rw [List.count_append, List.count_eq_zero.2 hnot, Nat.add_zero]
      exact ih he hle
    · exact absurd he hnot
  | @send s _ hn ih => exact ih he hle
  | @deliver s h' sorted p hr hp hg hsort hm ih =>
    have hv := serverInv hr
    obtain ⟨e1, e2, e3, e4, e5⟩ := merge_spec hm (shift_sorted hsort.2) hv.lastOk
    have edrop : h'.entries.drop s.server.entries.length =
        (shift δ sorted).filter fun e => decide (e.timestamp > s.server.last) := by
      rw [e1, List.drop_left]
    show (s.appended ++ _).count _ = _
    rw [edrop, List.count_append, delivered_count hsort]
    split
    · rename_i hlt
      have h0 : s.appended.count ⟨e.timestamp + δ, e.data⟩ = 0 := by
        rw [List.count_eq_zero]
        intro hmem
        exact absurd (hv.le _ hmem) (not_le.2 hlt)
      rw [h0, Nat.zero_add]
      refine hg e he hlt ?_
      rcases e5 with h5 | ⟨f, hf', h5, _⟩
      · exact absurd (lt_of_lt_of_le hlt (h5 ▸ hle)) (lt_irrefl _)
      · obtain ⟨g, hgm, rfl⟩ := mem_shift.1 hf'
        refine ⟨g, hsort.1.mem_iff.1 hgm, ?_⟩
        have : e.timestamp + δ ≤ g.timestamp + δ := le_trans hle (le_of_eq h5.symm)
        exact le_of_add_le_add_right this
    · rename_i hlt
      exact ih he (not_lt.1 hlt)
  | @consume s n _ ih => exact ih he hle

/-- **C24, what has been received.** After a delivery the newest timestamp received is at least
that of every action in the packet, so with `actions_exactly_once` all of them are present. -/
theorem delivered_received {δ maxAge : T} {G : Sys T D → List (Entry T D) → Prop}
    {s : Sys T D} {p sorted : List (Entry T D)} {h' : History T D}
    [DecidableEq D] (h : Reach δ maxAge G s) (hsort : SortResult p sorted)
    (hm : merge s.server (shift δ sorted) = some h') :
    s.server.last ≤ h'.last ∧ ∀ e ∈ p, e.timestamp + δ ≤ h'.last := by
  have hv := serverInv h
  obtain ⟨_, e2, e3, _, _⟩ := merge_spec hm (shift_sorted hsort.2) hv.lastOk
  refine ⟨e2, fun e he => ?_⟩
  exact e3 ⟨e.timestamp + δ, e.data⟩ (mem_shift.2 ⟨e, hsort.1.mem_iff.2 he, rfl⟩)

/-- Every delivery is defined: the assertion in `merge` cannot fail, because only non-empty
histories are sent. -/
theorem deliver_defined {δ maxAge : T} {G : Sys T D → List (Entry T D) → Prop}
    {s : Sys T D} {p sorted : List (Entry T D)}
    (h : Reach δ maxAge G s) (hp : p ∈ s.sent) (hsort : SortResult p sorted) :
    ∃ h', merge s.server (shift δ sorted) = some h' := by
  apply merge_defined
  intro hnil
  have : sorted = [] := by simpa [shift] using hnil
  have h2 := hsort.1
  rw [this] at h2
  exact ((clientInv h).packets p hp).1 h2.symm.eq_nil

/-- The client keeps exactly the actions that are not older than the maximum age. -/
theorem client_keeps_recent {δ maxAge : T} {G : Sys T D → List (Entry T D) → Prop}
    {s : Sys T D} (h : Reach δ maxAge G s) (hm : 0 ≤ maxAge) :
    s.client = s.emitted.filter fun e => decide (s.clock - maxAge ≤ e.timestamp) := by
  induction h with
  | init t₀ h0 => rfl
  | @record s time acts hr ht ih =>
    have hc := clientInv hr
    show clientRecord time maxAge acts s.client = _
    unfold clientRecord
    have hsort : TSorted s.client := by
      rw [ih]; exact hc.emittedSorted.filter _
    rw [eraseUntil_sorted_eq_filter _ hsort, ih, List.filter_filter, List.filter_append]
    congr 1
    · apply List.filter_congr
      intro e he
      rw [Bool.eq_iff_iff]
      simp only [Bool.and_eq_true, decide_eq_true_eq]
      constructor
      · exact fun h => h.1
      · exact fun h => ⟨h, le_trans (sub_le_sub_right ht.le maxAge) h⟩
    · symm
      rw [List.filter_eq_self]
      intro e he
      obtain ⟨d, _, rfl⟩ := List.mem_map.1 he
      simpa using hm
  | send _ _ ih => exact ih
  | deliver _ _ _ _ _ _ ih => exact ih
  | consume _ _ ih => exact ih

/-- **C24, when the histories overlap.** A packet of up to 255 entries sent at most the maximum
age after the newest action received so far overlaps with what has been received. -/
theorem recent_packet_overlaps [DecidableEq D] {δ maxAge : T}
    {G : Sys T D → List (Entry T D) → Prop}
    {s : Sys T D} (h : Reach δ maxAge G s) (hm : 0 ≤ maxAge) (hlen : s.client.length ≤ 255)
    (hlast : s.clock - maxAge + δ ≤ s.server.last) : Overlaps δ s (s.client.take 255) := by
  intro e he hlt _
  rw [List.take_of_length_le hlen, client_keeps_recent h hm, List.count_filter]
  have : s.clock - maxAge + δ < e.timestamp + δ := lt_of_le_of_lt hlast hlt
  simpa using (lt_of_add_lt_add_right this).le

/-! ### Non-vacuity: a lossy, duplicating, reordering run -/

private def mergeD (h : History ℤ Nat) (o : List (Entry ℤ Nat)) : History ℤ Nat :=
  (merge h o).getD {}

/-- Two updates, three packets, the second delivered first and again at the end. -/
example : ∃ s : Sys ℤ Nat, Reach 100 50 (Overlaps 100) s ∧
    s.emitted = [⟨1, 7⟩, ⟨1, 8⟩, ⟨3, 9⟩] ∧
    s.appended = [⟨101, 7⟩, ⟨101, 8⟩, ⟨103, 9⟩] ∧ s.sent.length = 2 := by
  have r0 : Reach (100 : ℤ) 50 (Overlaps 100) ({ clock := 0 } : Sys ℤ Nat) :=
    .init 0 (by decide)
  have r1 := Reach.record 1 [7, 8] r0 (by decide)
  have r2 := Reach.send r1 (by decide)
  have r3 := Reach.record 3 [9] r2 (by decide)
  have r4 := Reach.send r3 (by decide)
  have r5 := Reach.deliver (sorted := [⟨1, 7⟩, ⟨1, 8⟩, ⟨3, 9⟩])
    (h' := ⟨[⟨101, 7⟩, ⟨101, 8⟩, ⟨103, 9⟩], 103⟩)
    [⟨1, 7⟩, ⟨1, 8⟩, ⟨3, 9⟩] r4 (by decide +kernel)
    (by intro e he _ _; revert e; decide +kernel) ⟨List.Perm.refl _, by decide +kernel⟩ rfl
  have r6 := Reach.consume 1 r5
  have r7 := Reach.deliver (sorted := [⟨1, 7⟩, ⟨1, 8⟩])
    (h' := ⟨[⟨101, 8⟩, ⟨103, 9⟩], 103⟩)
    [⟨1, 7⟩, ⟨1, 8⟩] r6 (by decide +kernel)
    (by intro e he h1 _; exfalso; revert e; decide +kernel)
    ⟨List.Perm.refl _, by decide +kernel⟩ rfl
  exact ⟨_, r7, rfl, rfl, rfl⟩

/-! ### Where the hypotheses are needed: shown on the code -/

/-- With a varying clock difference (which is what `enqueue_packet`, `server_side.cpp` 648-652,
uses until the clocks are synchronised) the same action is added twice. -/
theorem jitter_repeats_action :
    ∃ (p : List (Entry ℤ Nat)) (δ₁ δ₂ : ℤ) (h₁ h₂ : History ℤ Nat),
      merge {} (shift δ₁ p) = some h₁ ∧ merge h₁ (shift δ₂ p) = some h₂ ∧
      p.length = 1 ∧ h₂.entries.map (·.data) = p.map (·.data) ++ p.map (·.data) :=
  ⟨[⟨1, 7⟩], 100, 101, _, _, rfl, rfl, rfl, rfl⟩

/-- An action with the timestamp of one that has been received already is never added. -/
theorem late_tie_lost (h h' : History ℤ Nat) (p : List (Entry ℤ Nat)) (d : Nat)
    (hm : merge h (p ++ [⟨h.last, d⟩]) = some h') (hp : ∀ e ∈ p, e.timestamp ≤ h.last) :
    h'.entries = h.entries := by
  unfold merge at hm
  split at hm
  · cases hm
  · have : ((p ++ [(⟨h.last, d⟩ : Entry ℤ Nat)]).dropWhile fun e : Entry ℤ Nat =>
        !decide (e.timestamp > h.last)) = [] := by
      rw [List.dropWhile_eq_nil_iff]
      intro e he
      rcases List.mem_append.1 he with he | he
      · simpa using hp e he
      · rw [List.mem_singleton.1 he]; simp
    simp only [this, List.append_nil, Option.some.injEq] at hm
    rw [← hm]

/-- Actions whose server time is not positive are dropped by a fresh history, because the
last timestamp starts at zero. -/
theorem nonpositive_lost (p : List (Entry ℤ Nat)) (h' : History ℤ Nat)
    (hp : ∀ e ∈ p, e.timestamp ≤ 0) (hm : merge {} p = some h') : h'.entries = [] := by
  unfold merge at hm
  split at hm
  · cases hm
  · have : (p.dropWhile fun e : Entry ℤ Nat => !decide (e.timestamp > 0)) = [] := by
      rw [List.dropWhile_eq_nil_iff]
      intro e he
      simpa using hp e he
    simp only [this, List.append_nil, Option.some.injEq] at hm
    rw [← hm]

/-- Without overlap an action is lost for good: the packet that carried it arrives after a
later one that no longer does. -/
theorem gap_loses_action :
    ∃ s : Sys ℤ Nat, Reach 0 1 (fun _ _ => True) s ∧
      (∃ e ∈ s.emitted, e.timestamp ≤ s.server.last ∧ e ∉ s.appended) ∧
      s.sent.length = 2 := by
  have r0 : Reach (0 : ℤ) 1 (fun _ _ => True) ({ clock := 0 } : Sys ℤ Nat) :=
    .init 0 (by decide)
  have r1 := Reach.record 1 [7] r0 (by decide)
  have r2 := Reach.send r1 (by decide)
  have r3 := Reach.record 5 [9] r2 (by decide)
  have r4 := Reach.send r3 (by decide)
  have r5 := Reach.deliver (sorted := [⟨5, 9⟩]) (h' := ⟨[⟨5, 9⟩], 5⟩) [⟨5, 9⟩] r4
    (by decide +kernel) trivial ⟨List.Perm.refl _, by decide +kernel⟩ rfl
  have r6 := Reach.deliver (sorted := [⟨1, 7⟩]) (h' := ⟨[⟨5, 9⟩], 5⟩) [⟨1, 7⟩] r5
    (by decide +kernel) trivial ⟨List.Perm.refl _, by decide +kernel⟩ rfl
  exact ⟨_, r6, ⟨⟨1, 7⟩, by decide +kernel⟩, rfl⟩

end Edyn.Net.ActionHistory
