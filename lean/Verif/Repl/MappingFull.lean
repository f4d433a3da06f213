import Verif.Repl.MappingSafe

/-!
# Invariants of the mapping protocol: life and death
-/

namespace Edyn.Repl.Mapping

open Edyn.EntityMap (Entity EMap)

/-- The sender's entity introduced by an operation. -/
def Op.subj : Op → Option Entity
  | .create e _ => some e
  | .mapEnt e _ => some e
  | .destroy _ => none

/-- The part of the invariant which makes the maps inverse once the queues are empty. -/
structure Full (s r : Side) (K : Same) : Prop where
  liveLt : ∀ m, s.valid m = true → m < s.next
  shared : ∀ x ∈ s.live, x.shared = true
  mapLive : ∀ w m, s.map.map.get? w = some m → s.valid m = true
  bornAway : ∀ m w, K m w false → s.valid m = true → s.map.map.get? w = some m
  bornHere : ∀ m w, K m w true → s.valid m = true →
    s.map.map.get? w = some m ∨ Op.mapEnt w m ∈ r.out
  deadSignal : ∀ m w b, K m w b → s.valid m = false → r.valid w = true → Op.destroy m ∈ s.out
  unpaired : ∀ m, s.valid m = true → (∃ w b, K m w b) ∨ ∃ bs, Op.create m bs ∈ s.out
  createSignal : ∀ m bs, Op.create m bs ∈ s.out → s.valid m = true ∨ Op.destroy m ∈ s.out
  destroyLt : ∀ m, Op.destroy m ∈ s.out → m < s.next
  deadOut : ∀ m, Op.destroy m ∈ s.out → s.valid m = false
  order : s.out.Pairwise fun a b => ∀ m, a = Op.destroy m → b.subj ≠ some m

theorem valid_iff {s : Side} {m : Entity} : s.valid m = true ↔ ∃ x ∈ s.live, x.ent = m := by
  simp [Side.valid]

theorem valid_filter {l : List Entry} {e m : Entity} :
    ((l.filter fun x => decide (x.ent ≠ e)).any fun x => decide (x.ent = m)) =
      ((l.any fun x => decide (x.ent = m)) && decide (m ≠ e)) := by
  rw [Bool.eq_iff_iff]
  simp only [List.any_eq_true, List.mem_filter, decide_eq_true_eq, Bool.and_eq_true]
  constructor
  · rintro ⟨x, ⟨h1, h2⟩, rfl⟩; exact ⟨⟨x, h1, rfl⟩, h2⟩
  · rintro ⟨⟨x, h1, rfl⟩, h2⟩; exact ⟨x, ⟨h1, h2⟩, rfl⟩

/-- Destroying an entity, with a record. -/
theorem Full.retire {s r : Side} {K : Same} (hs : Safe s K) (h : Full s r K) (h' : Full r s (flip K))
    {e : Entity} (he : e < s.next) :
    ∃ t, s.retire e = some t ∧ Safe t K ∧ Full t r K ∧ Full r t (flip K) ∧ t.next = s.next := by
  obtain ⟨m, h1, h2, h3⟩ := retire_spec hs.good e
  obtain ⟨t, ht1, ht2⟩ := hs.retire e
  rw [h1] at ht1
  have ht1 := Option.some.inj ht1
  subst ht1
  have hval : ∀ x, Side.valid { s with
        map := m, live := s.live.filter (fun x => decide (x.ent ≠ e)),
        out := s.out ++ [.destroy e] } x = (s.valid x && decide (x ≠ e)) := fun x => valid_filter
  refine ⟨_, h1, ht2, ⟨?_, ?_, ?_, ?_, ?_, ?_, ?_, ?_, ?_, ?_, ?_⟩,
    ⟨h'.liveLt, h'.shared, h'.mapLive, h'.bornAway, ?_, ?_, h'.unpaired, h'.createSignal,
      h'.destroyLt, h'.deadOut, h'.order⟩, rfl⟩
  · intro x hx
    rw [hval] at hx
    exact h.liveLt x (by simp_all)
  · intro x hx
    exact h.shared x (List.mem_filter.1 hx).1
  · intro w x hw
    obtain ⟨hw1, hw2⟩ := (h3 w x).1 hw
    rw [hval]
    simp [h.mapLive w x hw1, hw2]
  · intro x w hk hx
    rw [hval] at hx
    simp only [ne_eq, decide_not, Bool.and_eq_true, Bool.not_eq_true', decide_eq_false_iff_not] at hx
    exact (h3 w x).2 ⟨h.bornAway x w hk hx.1, hx.2⟩
  · intro x w hk hx
    rw [hval] at hx
    simp only [ne_eq, decide_not, Bool.and_eq_true, Bool.not_eq_true', decide_eq_false_iff_not] at hx
    rcases h.bornHere x w hk hx.1 with h4 | h4
    · exact Or.inl ((h3 w x).2 ⟨h4, hx.2⟩)
    · exact Or.inr h4
  · intro x w b hk hx hw
    rw [hval] at hx
    by_cases hxe : x = e
    · subst hxe; simp
    · have : s.valid x = false := by simpa [hxe] using hx
      exact List.mem_append_left _ (h.deadSignal x w b hk this hw)
  · intro x hx
    rw [hval] at hx
    rcases h.unpaired x (by simp_all) with h4 | ⟨bs, h4⟩
    · exact Or.inl h4
    · exact Or.inr ⟨bs, List.mem_append_left _ h4⟩
  · intro x bs hx
    simp only [List.mem_append, List.mem_singleton, reduceCtorEq, or_false] at hx
    rw [hval]
    by_cases hxe : x = e
    · subst hxe; right; simp
    · rcases h.createSignal x bs hx with h4 | h4
      · left; simp [h4, hxe]
      · right; exact List.mem_append_left _ h4
  · intro x hx
    simp only [List.mem_append, List.mem_singleton, Op.destroy.injEq] at hx
    rcases hx with hx | rfl
    · exact h.destroyLt x hx
    · exact he
  · intro x hx
    simp only [List.mem_append, List.mem_singleton, Op.destroy.injEq] at hx
    rw [hval]
    rcases hx with hx | rfl
    · simp [h.deadOut x hx]
    · simp
  · refine List.pairwise_append.2 ⟨h.order, by simp, ?_⟩
    intro a _ b hb
    rw [List.mem_singleton.1 hb]
    intro _ _; simp [Op.subj]
  · intro x w hk hx
    rcases h'.bornHere x w hk hx with h4 | h4
    · exact Or.inl h4
    · exact Or.inr (List.mem_append_left _ h4)
  · intro x w b hk hx hw
    rw [hval] at hw
    exact h'.deadSignal x w b hk hx (by simp_all)

theorem Full.retireAll {r : Side} {K : Same} (es : List Entity) : ∀ {s : Side}, Safe s K →
    Full s r K → Full r s (flip K) → (∀ e ∈ es, e < s.next) →
    ∃ t, s.retireAll es = some t ∧ Safe t K ∧ Full t r K ∧ Full r t (flip K) ∧
      t.next = s.next := by
  induction es with
  | nil => intro s hs h h' _; exact ⟨s, rfl, hs, h, h', rfl⟩
  | cons e es ih =>
    intro s hs h h' he
    obtain ⟨t, h1, h2, h3, h4, h5⟩ := h.retire hs h' (he e List.mem_cons_self)
    obtain ⟨u, h6, h7, h8, h9, h10⟩ := ih h2 h3 h4
      (fun x hx => by rw [h5]; exact he x (List.mem_cons_of_mem _ hx))
    exact ⟨u, by simp only [Side.retireAll, h1, Option.bind_some, h6], h7, h8, h9, h10.trans h5⟩

theorem watched_of_valid {s r : Side} {K : Same} (h : Full s r K) {e : Entity}
    (hv : s.valid e = true) : s.watched e = true := by
  obtain ⟨x, hx, rfl⟩ := valid_iff.1 hv
  simp only [Side.watched, List.any_eq_true, Bool.and_eq_true, decide_eq_true_eq]
  exact ⟨x, hx, rfl, h.shared x hx⟩

theorem Full.del {s r t : Side} {K : Same} (hs : Safe s K) (h : Full s r K) (h' : Full r s (flip K))
    {e : Entity} (ht : s.del e = some t) : Full t r K ∧ Full r t (flip K) := by
  unfold Side.del at ht
  by_cases hw : s.watched e = true
  · have hv : s.valid e = true := by
      simp only [Side.watched, List.any_eq_true, Bool.and_eq_true, decide_eq_true_eq] at hw
      obtain ⟨x, hx, h1, _⟩ := hw
      exact valid_iff.2 ⟨x, hx, h1⟩
    obtain ⟨u, h1, h2, h3, h4, h5⟩ := Full.retireAll (s.edgesOf e) hs h h' (fun x hx => by
      simp only [Side.edgesOf, List.mem_map, List.mem_filter] at hx
      obtain ⟨y, ⟨hy, _⟩, rfl⟩ := hx
      exact h.liveLt _ (valid_iff.2 ⟨y, hy, rfl⟩))
    obtain ⟨v, h6, _, h8, h9, _⟩ := h3.retire h2 h4 (e := e) (by rw [h5]; exact h.liveLt e hv)
    rw [if_pos hw, h1, Option.bind_some, h6] at ht
    exact (Option.some.inj ht) ▸ ⟨h8, h9⟩
  · rw [if_neg hw] at ht
    by_cases hv : s.valid e = true
    · exact absurd (watched_of_valid h hv) hw
    · rw [if_neg hv] at ht; exact absurd ht (by simp)

theorem Full.new {s r t : Side} {K : Same} (hs : Safe s K) (h : Full s r K) (h' : Full r s (flip K))
    {bs : List Entity} (ht : s.new bs = some t) : Full t r K ∧ Full r t (flip K) := by
  unfold Side.new at ht
  split at ht
  case isFalse => simp at ht
  simp only [Option.some.injEq] at ht
  have hval : ∀ x, t.valid x = (s.valid x || decide (s.next = x)) := by
    intro x; subst ht; simp [Side.valid]
  have hnk : ∀ w b, ¬ K s.next w b := fun w b hk => Nat.lt_irrefl _ (hs.klt _ _ _ hk)
  have hlt : ∀ m w b, K m w b → t.valid m = s.valid m := by
    intro m w b hk
    have : s.next ≠ m := fun e => hnk w b (e ▸ hk)
    rw [hval]; simp [this]
  have hmap : t.map = s.map := by subst ht; rfl
  have hout : t.out = s.out ++ [.create s.next bs] := by subst ht; rfl
  have hnext : t.next = s.next + 1 := by subst ht; rfl
  have hlive : t.live = s.live ++ [⟨s.next, bs, true⟩] := by subst ht; rfl
  refine ⟨⟨?_, ?_, ?_, ?_, ?_, ?_, ?_, ?_, ?_, ?_, ?_⟩,
    ⟨h'.liveLt, h'.shared, h'.mapLive, h'.bornAway, ?_, ?_, h'.unpaired, h'.createSignal,
      h'.destroyLt, h'.deadOut, h'.order⟩⟩
  · intro m hm
    rw [hval] at hm
    simp only [Bool.or_eq_true, decide_eq_true_eq] at hm
    rcases hm with hm | rfl
    · rw [hnext]; exact Nat.lt_succ_of_lt (h.liveLt m hm)
    · rw [hnext]; exact Nat.lt_succ_self _
  · intro x hx
    rw [hlive, List.mem_append, List.mem_singleton] at hx
    rcases hx with hx | rfl
    · exact h.shared x hx
    · rfl
  · intro w m hw
    rw [hmap] at hw
    rw [hval]; simp [h.mapLive w m hw]
  · intro m w hk hm
    rw [hlt m w _ hk] at hm
    rw [hmap]; exact h.bornAway m w hk hm
  · intro m w hk hm
    rw [hlt m w _ hk] at hm
    rw [hmap]; exact h.bornHere m w hk hm
  · intro m w b hk hm hw
    rw [hlt m w _ hk] at hm
    rw [hout]
    exact List.mem_append_left _ (h.deadSignal m w b hk hm hw)
  · intro m hm
    rw [hval] at hm
    simp only [Bool.or_eq_true, decide_eq_true_eq] at hm
    rw [hout]
    rcases hm with hm | rfl
    · rcases h.unpaired m hm with h4 | ⟨bs', h4⟩
      · exact Or.inl h4
      · exact Or.inr ⟨bs', List.mem_append_left _ h4⟩
    · exact Or.inr ⟨bs, by simp⟩
  · intro m bs' hm
    rw [hout] at hm ⊢
    simp only [List.mem_append, List.mem_singleton, Op.create.injEq] at hm
    rw [hval]
    rcases hm with hm | ⟨rfl, _⟩
    · rcases h.createSignal m bs' hm with h4 | h4
      · left; simp [h4]
      · right; exact List.mem_append_left _ h4
    · left; simp
  · intro m hm
    rw [hout] at hm
    simp only [List.mem_append, List.mem_singleton, reduceCtorEq, or_false] at hm
    rw [hnext]; exact Nat.lt_succ_of_lt (h.destroyLt m hm)
  · intro m hm
    rw [hout] at hm
    simp only [List.mem_append, List.mem_singleton, reduceCtorEq, or_false] at hm
    have := h.destroyLt m hm
    rw [hval]; simp [h.deadOut m hm]; exact Nat.ne_of_gt this
  · rw [hout]
    refine List.pairwise_append.2 ⟨h.order, by simp, ?_⟩
    intro a ha b hb m hm
    rw [List.mem_singleton.1 hb]
    subst hm
    have := h.destroyLt m ha
    simp only [Op.subj, ne_eq, Option.some.injEq]
    exact Nat.ne_of_gt this
  · intro m w hk hm
    rw [hout]
    rcases h'.bornHere m w hk hm with h4 | h4
    · exact Or.inl h4
    · exact Or.inr (List.mem_append_left _ h4)
  · intro m w b hk hm hw
    rw [hlt w m (!b) hk] at hw
    exact h'.deadSignal m w b hk hm hw

/-- Importing a creation. -/
theorem Full.recvCreate {s r : Side} {K : Same} (hs : Safe s K) (hr : Safe r (flip K))
    (h : Full s r K) (h' : Full r s (flip K)) {e : Entity} {bs : List Entity} {rest : List Op}
    (ho : r.out = .create e bs :: rest) (hun : ∀ l b, ¬ K l e b) {m : EMap} (x : List Entity)
    (hm : ∀ a b, m.map.get? a = some b ↔ (a = e ∧ b = s.next) ∨ s.map.map.get? a = some b) :
    Full { s with live := s.live ++ [⟨s.next, x, true⟩], next := s.next + 1, map := m,
                  out := s.out ++ [.mapEnt s.next e] } { r with out := rest }
      (grow K (some (s.next, e))) ∧
    Full { r with out := rest }
      { s with live := s.live ++ [⟨s.next, x, true⟩], next := s.next + 1, map := m,
               out := s.out ++ [.mapEnt s.next e] } (flip (grow K (some (s.next, e)))) := by
  have hval : ∀ y, Side.valid ⟨s.live ++ [⟨s.next, x, true⟩], s.next + 1, m,
      s.out ++ [.mapEnt s.next e], s.eraseOnImport⟩ y = (s.valid y || decide (s.next = y)) := by
    intro y; simp [Side.valid]
  have hnk : ∀ w b, ¬ K s.next w b := fun w b hk => Nat.lt_irrefl _ (hs.klt _ _ _ hk)
  have hlt : ∀ m w b, K m w b → s.next ≠ m := fun m w b hk e => hnk w b (e ▸ hk)
  have hvalR : ∀ y, Side.valid { r with out := rest } y = r.valid y := fun y => rfl
  refine ⟨⟨?_, ?_, ?_, ?_, ?_, ?_, ?_, ?_, ?_, ?_, ?_⟩,
    ⟨h'.liveLt, h'.shared, h'.mapLive, ?_, ?_, ?_, ?_, ?_, ?_, ?_, ?_⟩⟩
  · intro y hy
    rw [hval] at hy
    simp only [Bool.or_eq_true, decide_eq_true_eq] at hy
    rcases hy with hy | rfl
    · exact Nat.lt_succ_of_lt (h.liveLt y hy)
    · exact Nat.lt_succ_self _
  · intro y hy
    rw [List.mem_append, List.mem_singleton] at hy
    rcases hy with hy | rfl
    · exact h.shared y hy
    · rfl
  · intro w y hw
    rw [hval]
    rcases (hm w y).1 hw with ⟨_, rfl⟩ | hw
    · simp
    · simp [h.mapLive w y hw]
  · intro y w hk hy
    rw [hval] at hy
    simp only [grow, Option.some.injEq, Prod.mk.injEq] at hk
    rcases hk with hk | ⟨⟨rfl, rfl⟩, _⟩
    · have := hlt y w _ hk
      exact (hm w y).2 (Or.inr (h.bornAway y w hk (by simpa [this] using hy)))
    · exact (hm e s.next).2 (Or.inl ⟨rfl, rfl⟩)
  · intro y w hk hy
    rw [hval] at hy
    simp only [grow, Option.some.injEq, Prod.mk.injEq] at hk
    rcases hk with hk | ⟨_, h2⟩
    · have := hlt y w _ hk
      rcases h.bornHere y w hk (by simpa [this] using hy) with h4 | h4
      · exact Or.inl ((hm w y).2 (Or.inr h4))
      · rw [ho] at h4
        simp only [List.mem_cons, reduceCtorEq, false_or] at h4
        exact Or.inr h4
    · exact absurd h2 (by simp)
  · intro y w b hk hy hw
    rw [hval] at hy
    simp only [Bool.or_eq_false_iff, decide_eq_false_iff_not] at hy
    simp only [grow, Option.some.injEq, Prod.mk.injEq] at hk
    rcases hk with hk | ⟨⟨h2, _⟩, _⟩
    · exact List.mem_append_left _ (h.deadSignal y w b hk hy.1 hw)
    · exact absurd h2 hy.2
  · intro y hy
    rw [hval] at hy
    simp only [Bool.or_eq_true, decide_eq_true_eq] at hy
    rcases hy with hy | rfl
    · rcases h.unpaired y hy with ⟨w, b, h4⟩ | ⟨bs', h4⟩
      · exact Or.inl ⟨w, b, Or.inl h4⟩
      · exact Or.inr ⟨bs', List.mem_append_left _ h4⟩
    · exact Or.inl ⟨e, false, Or.inr ⟨rfl, rfl⟩⟩
  · intro y bs' hy
    simp only [List.mem_append, List.mem_singleton, reduceCtorEq, or_false] at hy
    rw [hval]
    rcases h.createSignal y bs' hy with h4 | h4
    · left; simp [h4]
    · right; exact List.mem_append_left _ h4
  · intro y hy
    simp only [List.mem_append, List.mem_singleton, reduceCtorEq, or_false] at hy
    exact Nat.lt_succ_of_lt (h.destroyLt y hy)
  · intro y hy
    simp only [List.mem_append, List.mem_singleton, reduceCtorEq, or_false] at hy
    have := h.destroyLt y hy
    rw [hval]; simp [h.deadOut y hy]; exact Nat.ne_of_gt this
  · refine List.pairwise_append.2 ⟨h.order, by simp, ?_⟩
    intro a ha b hb y hy
    rw [List.mem_singleton.1 hb]
    subst hy
    have := h.destroyLt y ha
    simp only [Op.subj, ne_eq, Option.some.injEq]
    exact Nat.ne_of_gt this
  · intro y w hk hy
    simp only [flip, grow, Bool.not_false, Option.some.injEq, Prod.mk.injEq, Bool.true_eq_false,
      and_false, or_false] at hk
    exact h'.bornAway y w hk hy
  · intro y w hk hy
    simp only [flip, grow, Bool.not_true, Option.some.injEq, Prod.mk.injEq, and_true] at hk
    rcases hk with hk | ⟨rfl, rfl⟩
    · rcases h'.bornHere y w hk hy with h4 | h4
      · exact Or.inl h4
      · exact Or.inr (List.mem_append_left _ h4)
    · exact Or.inr (by simp)
  · intro y w b hk hy hw
    rw [hval] at hw
    simp only [flip, grow, Option.some.injEq, Prod.mk.injEq] at hk
    rcases hk with hk | ⟨⟨rfl, rfl⟩, _⟩
    · have := hlt w y _ hk
      have h4 := h'.deadSignal y w b hk hy (by simpa [this] using hw)
      rw [ho] at h4
      simpa using h4
    · rcases h'.createSignal e bs (by rw [ho]; exact List.mem_cons_self) with h4 | h4
      · rw [hvalR] at hy; rw [hy] at h4; exact absurd h4 (by simp)
      · rw [ho] at h4; simpa using h4
  · intro y hy
    rcases h'.unpaired y hy with ⟨w, b, h4⟩ | ⟨bs', h4⟩
    · exact Or.inl ⟨w, b, Or.inl h4⟩
    · rw [ho, List.mem_cons] at h4
      rcases h4 with h4 | h4
      · simp only [Op.create.injEq] at h4
        obtain ⟨rfl, rfl⟩ := h4
        exact Or.inl ⟨s.next, true, Or.inr ⟨rfl, rfl⟩⟩
      · exact Or.inr ⟨bs', h4⟩
  · intro y bs' hy
    rcases h'.createSignal y bs' (by rw [ho]; exact List.mem_cons_of_mem _ hy) with h4 | h4
    · exact Or.inl h4
    · rw [ho] at h4; exact Or.inr (by simpa using h4)
  · intro y hy
    exact h'.destroyLt y (by rw [ho]; exact List.mem_cons_of_mem _ hy)
  · intro y hy
    exact h'.deadOut y (by rw [ho]; exact List.mem_cons_of_mem _ hy)
  · have := h'.order
    rw [ho] at this
    exact (List.pairwise_cons.1 this).2

/-- Importing a destruction which leaves no edge behind. -/
theorem Full.recvDestroy {s r t : Side} {K : Same} (hs : Safe s K) (hr : Safe r (flip K))
    (h : Full s r K) (h' : Full r s (flip K)) {e : Entity} {rest : List Op}
    (ho : r.out = .destroy e :: rest) (hq : ∀ l, s.map.map.get? e = some l → s.edgesOf l = [])
    (ht : s.exec (.destroy e) = some t) :
    Full t { r with out := rest } K ∧ Full { r with out := rest } t (flip K) := by
  have hdead : r.valid e = false := h'.deadOut e (by rw [ho]; exact List.mem_cons_self)
  have hord := h'.order
  rw [ho] at hord
  have hord1 := (List.pairwise_cons.1 hord).1
  have hord2 := (List.pairwise_cons.1 hord).2
  -- what remains to be shown about the other side, given that the counterpart of `e` is dead
  have key : ∀ y, s.valid y = true → (∃ b, K y e b) → s.map.map.get? e = some y := by
    rintro y hy ⟨b, hk⟩
    cases b with
    | false => exact h.bornAway y e hk hy
    | true =>
      rcases h.bornHere y e hk hy with h4 | h4
      · exact h4
      · rw [ho] at h4
        simp only [List.mem_cons, reduceCtorEq, false_or] at h4
        exact absurd rfl (hord1 _ h4 e rfl)
  simp only [Side.exec] at ht
  cases hg : s.map.map.get? e with
  | none =>
    rw [hg] at ht
    simp only [Option.some.injEq] at ht
    subst ht
    refine ⟨⟨h.liveLt, h.shared, h.mapLive, h.bornAway, ?_, h.deadSignal, h.unpaired,
        h.createSignal, h.destroyLt, h.deadOut, h.order⟩,
      ⟨h'.liveLt, h'.shared, h'.mapLive, h'.bornAway, h'.bornHere, ?_, ?_, ?_, ?_, ?_, hord2⟩⟩
    · intro y w hk hy
      rcases h.bornHere y w hk hy with h4 | h4
      · exact Or.inl h4
      · rw [ho] at h4; exact Or.inr (by simpa using h4)
    · intro y w b hk hy hw
      have h4 := h'.deadSignal y w b hk hy hw
      rw [ho, List.mem_cons] at h4
      rcases h4 with h4 | h4
      · simp only [Op.destroy.injEq] at h4
        subst h4
        have := key w hw ⟨_, hk⟩
        rw [hg] at this; exact absurd this (by simp)
      · exact h4
    · intro y hy
      rcases h'.unpaired y hy with h4 | ⟨bs', h4⟩
      · exact Or.inl h4
      · rw [ho] at h4; exact Or.inr ⟨bs', by simpa using h4⟩
    · intro y bs' hy
      rcases h'.createSignal y bs' (by rw [ho]; exact List.mem_cons_of_mem _ hy) with h4 | h4
      · exact Or.inl h4
      · rw [ho, List.mem_cons] at h4
        rcases h4 with h4 | h4
        · simp only [Op.destroy.injEq] at h4
          subst h4
          exact absurd rfl (hord1 _ hy y rfl)
        · exact Or.inr h4
    · intro y hy
      exact h'.destroyLt y (by rw [ho]; exact List.mem_cons_of_mem _ hy)
    · intro y hy
      exact h'.deadOut y (by rw [ho]; exact List.mem_cons_of_mem _ hy)
  | some l =>
    obtain ⟨m, h1, h2, h3⟩ := hs.good.erase hg
    have hl : s.valid l = true := h.mapLive e l hg
    obtain ⟨bl, hkl⟩ := hs.mapK e l hg
    rw [hg] at ht
    simp only [h1, Option.bind_some] at ht
    rw [if_pos (show Side.valid { s with map := m } l = true from hl)] at ht
    rw [show Side.edgesOf { s with map := m } l = [] from hq l hg] at ht
    simp only [Side.dropAllImporting, Option.map_some, Option.some.injEq] at ht
    have hval : ∀ y, t.valid y = (s.valid y && decide (y ≠ l)) := by
      intro y; subst ht; exact valid_filter
    have hmap : t.map = m := by subst ht; rfl
    have hout : t.out = s.out := by subst ht; rfl
    have hnext : t.next = s.next := by subst ht; rfl
    have hlive : ∀ x ∈ t.live, x ∈ s.live := by
      intro x hx; subst ht; exact (List.mem_filter.1 hx).1
    have hne : ∀ y w, y ≠ l → s.map.map.get? w = some y → m.map.get? w = some y := by
      intro y w hy hw
      refine (h3 w y).2 ⟨hw, ?_⟩
      rintro rfl
      rw [hg] at hw; exact hy (Option.some.inj hw).symm
    have hvy : ∀ y, t.valid y = true ↔ s.valid y = true ∧ y ≠ l := by
      intro y; rw [hval]; simp
    refine ⟨⟨?_, ?_, ?_, ?_, ?_, ?_, ?_, ?_, ?_, ?_, ?_⟩,
      ⟨h'.liveLt, h'.shared, h'.mapLive, h'.bornAway, ?_, ?_, ?_, ?_, ?_, ?_, hord2⟩⟩
    · intro y hy
      rw [hnext]; exact h.liveLt y ((hvy y).1 hy).1
    · intro x hx; exact h.shared x (hlive x hx)
    · intro w y hw
      rw [hmap] at hw
      obtain ⟨hw1, hw2⟩ := (h3 w y).1 hw
      refine (hvy y).2 ⟨h.mapLive w y hw1, ?_⟩
      rintro rfl
      exact hw2 (Option.some.inj ((hs.good.iff.2 hw1).symm.trans (hs.good.iff.2 hg)))
    · intro y w hk hy
      obtain ⟨hy1, hy2⟩ := (hvy y).1 hy
      rw [hmap]; exact hne y w hy2 (h.bornAway y w hk hy1)
    · intro y w hk hy
      obtain ⟨hy1, hy2⟩ := (hvy y).1 hy
      rcases h.bornHere y w hk hy1 with h4 | h4
      · rw [hmap]; exact Or.inl (hne y w hy2 h4)
      · rw [ho] at h4; exact Or.inr (by simpa using h4)
    · intro y w b hk hy hw
      rw [hout]
      by_cases hyl : y = l
      · subst hyl
        have := (hs.kfun _ _ _ _ _ hk hkl).1
        subst this
        have hw' : r.valid w = true := hw
        rw [hdead] at hw'; exact absurd hw' (by simp)
      · exact h.deadSignal y w b hk (by simpa [hval, hyl] using hy) hw
    · intro y hy
      rw [hout]; exact h.unpaired y ((hvy y).1 hy).1
    · intro y bs' hy
      rw [hout] at hy ⊢
      by_cases hyl : y = l
      · subst hyl
        exact absurd hkl ((hs.outCreate y bs' hy).2 e bl)
      · rcases h.createSignal y bs' hy with h4 | h4
        · exact Or.inl ((hvy y).2 ⟨h4, hyl⟩)
        · exact Or.inr h4
    · intro y hy
      rw [hout] at hy; rw [hnext]; exact h.destroyLt y hy
    · intro y hy
      rw [hout] at hy
      rw [hval]; simp [h.deadOut y hy]
    · rw [hout]; exact h.order
    · intro y w hk hy
      rw [hout]; exact h'.bornHere y w hk hy
    · intro y w b hk hy hw
      obtain ⟨hw1, hw2⟩ := (hvy w).1 hw
      have h4 := h'.deadSignal y w b hk hy hw1
      rw [ho, List.mem_cons] at h4
      rcases h4 with h4 | h4
      · simp only [Op.destroy.injEq] at h4
        subst h4
        have := key w hw1 ⟨_, hk⟩
        rw [hg] at this
        exact absurd (Option.some.inj this).symm hw2
      · exact h4
    · intro y hy
      rcases h'.unpaired y hy with h4 | ⟨bs', h4⟩
      · exact Or.inl h4
      · rw [ho] at h4; exact Or.inr ⟨bs', by simpa using h4⟩
    · intro y bs' hy
      rcases h'.createSignal y bs' (by rw [ho]; exact List.mem_cons_of_mem _ hy) with h4 | h4
      · exact Or.inl h4
      · rw [ho, List.mem_cons] at h4
        rcases h4 with h4 | h4
        · simp only [Op.destroy.injEq] at h4
          subst h4
          exact absurd rfl (hord1 _ hy y rfl)
        · exact Or.inr h4
    · intro y hy
      exact h'.destroyLt y (by rw [ho]; exact List.mem_cons_of_mem _ hy)
    · intro y hy
      exact h'.deadOut y (by rw [ho]; exact List.mem_cons_of_mem _ hy)

/-- Importing a mapping. -/
theorem Full.recvMapEnt {s r : Side} {K : Same} (hs : Safe s K)
    (h : Full s r K) (h' : Full r s (flip K)) {e loc : Entity} {rest : List Op}
    (ho : r.out = .mapEnt e loc :: rest) (hk : K loc e true) {m : EMap}
    (hm : ∀ a b, m.map.get? a = some b ↔
      (a = e ∧ b = loc ∧ s.valid loc = true) ∨ s.map.map.get? a = some b) :
    Full { s with map := m } { r with out := rest } K ∧
      Full { r with out := rest } { s with map := m } (flip K) := by
  have hord := h'.order
  rw [ho] at hord
  have hord2 := (List.pairwise_cons.1 hord).2
  have mono : ∀ a b, s.map.map.get? a = some b → m.map.get? a = some b := fun a b hab =>
    (hm a b).2 (Or.inr hab)
  refine ⟨⟨h.liveLt, h.shared, ?_, ?_, ?_, h.deadSignal, h.unpaired, h.createSignal, h.destroyLt,
      h.deadOut, h.order⟩,
    ⟨h'.liveLt, h'.shared, h'.mapLive, h'.bornAway, h'.bornHere, ?_, ?_, ?_, ?_, ?_, hord2⟩⟩
  · intro w y hw
    rcases (hm w y).1 hw with ⟨_, rfl, hv⟩ | hw
    · exact hv
    · exact h.mapLive w y hw
  · intro y w hky hy
    exact mono _ _ (h.bornAway y w hky hy)
  · intro y w hky hy
    rcases h.bornHere y w hky hy with h4 | h4
    · exact Or.inl (mono _ _ h4)
    · rw [ho, List.mem_cons] at h4
      rcases h4 with h4 | h4
      · simp only [Op.mapEnt.injEq] at h4
        obtain ⟨rfl, rfl⟩ := h4
        exact Or.inl ((hm _ _).2 (Or.inl ⟨rfl, rfl, hy⟩))
      · exact Or.inr h4
  · intro y w b hky hy hw
    have h4 := h'.deadSignal y w b hky hy hw
    rw [ho] at h4; simpa using h4
  · intro y hy
    rcases h'.unpaired y hy with h4 | ⟨bs', h4⟩
    · exact Or.inl h4
    · rw [ho] at h4; exact Or.inr ⟨bs', by simpa using h4⟩
  · intro y bs' hy
    rcases h'.createSignal y bs' (by rw [ho]; exact List.mem_cons_of_mem _ hy) with h4 | h4
    · exact Or.inl h4
    · rw [ho] at h4; exact Or.inr (by simpa using h4)
  · intro y hy
    exact h'.destroyLt y (by rw [ho]; exact List.mem_cons_of_mem _ hy)
  · intro y hy
    exact h'.deadOut y (by rw [ho]; exact List.mem_cons_of_mem _ hy)

/-- The steps covered: no entity is cleared or made again, and the entity whose destruction is
imported has no edge left. -/
def QuietAct (s r : Side) : Act → Prop
  | .clear _ => False
  | .remake _ _ => False
  | .recv => ∀ e rest l, r.out = .destroy e :: rest → s.map.map.get? e = some l → s.edgesOf l = []
  | _ => True

theorem act_full {s r s' r' : Side} {K : Same} (hs : Safe s K) (hr : Safe r (flip K))
    (h : Full s r K) (h' : Full r s (flip K)) {a : Act} (hq : QuietAct s r a)
    (hact : act s r a = some (s', r')) :
    Full s' r' (grow K (birth s r a)) ∧ Full r' s' (flip (grow K (birth s r a))) := by
  cases a with
  | new bs =>
    simp only [act, Option.map_eq_some_iff, Prod.mk.injEq] at hact
    obtain ⟨t, h1, rfl, rfl⟩ := hact
    simp only [birth, grow_none]
    exact h.new hs h' h1
  | del e =>
    simp only [act, Option.map_eq_some_iff, Prod.mk.injEq] at hact
    obtain ⟨t, h1, rfl, rfl⟩ := hact
    simp only [birth, grow_none]
    exact h.del hs h' h1
  | clear e => exact absurd hq (by simp [QuietAct])
  | remake e bs => exact absurd hq (by simp [QuietAct])
  | recv =>
    simp only [act] at hact
    cases ho : r.out with
    | nil =>
      rw [ho] at hact
      simp only [Option.some.injEq, Prod.mk.injEq] at hact
      obtain ⟨rfl, rfl⟩ := hact
      simp only [birth, ho, grow_none]
      exact ⟨h, h'⟩
    | cons o rest =>
      rw [ho] at hact
      simp only [Option.map_eq_some_iff, Prod.mk.injEq] at hact
      obtain ⟨t, h1, rfl, rfl⟩ := hact
      cases o with
      | create e bs =>
        have hun : ∀ l b, ¬ K l e b := fun l b hk =>
          (hr.outCreate e bs (by rw [ho]; exact List.mem_cons_self)).2 l (!b)
            (by simpa [flip] using hk)
        obtain ⟨m, h2, h3, h4, h5⟩ := exec_create (bs := bs) hs hun
        rw [h1] at h2
        have h2 := Option.some.inj h2
        subst h2
        have hb : birth s r .recv = some (s.next, e) := by
          simp [birth, ho, AMap.contains, h4]
        rw [hb]
        exact Full.recvCreate hs hr h h' ho hun _ h5
      | destroy e =>
        simp only [birth, ho, grow_none]
        exact Full.recvDestroy hs hr h h' ho (fun l hl => hq e rest l ho hl) h1
      | mapEnt e loc =>
        have hk : K loc e true := by
          simpa [flip] using hr.outMap e loc (by rw [ho]; exact List.mem_cons_self)
        have hu : ∀ m b, K m e b → m = loc := fun m b hmb =>
          (hr.kfun e m (!b) loc false (by simpa [flip] using hmb) (by simpa [flip] using hk)).1
        obtain ⟨m, h2, h3, h4⟩ := exec_mapEnt hs hk hu
        rw [h1] at h2
        have h2 := Option.some.inj h2
        subst h2
        simp only [birth, ho, grow_none]
        exact Full.recvMapEnt hs h h' ho hk h4

/-- Both queues are empty: the two maps are inverse to one another. -/
theorem Full.inverse {s r : Side} {K : Same} (hs : Safe s K) (hr : Safe r (flip K))
    (h : Full s r K) (h' : Full r s (flip K)) (hso : s.out = []) (hro : r.out = [])
    {w m : Entity} (hw : s.map.map.get? w = some m) : r.map.map.get? m = some w := by
  obtain ⟨b, hb⟩ := hs.mapK w m hw
  have hm := h.mapLive w m hw
  have hwv : r.valid w = true := by
    cases hv : r.valid w with
    | true => rfl
    | false =>
      have := h'.deadSignal w m (!b) (by simpa [flip] using hb) hv hm
      rw [hro] at this; exact absurd this (by simp)
  cases b with
  | true => exact h'.bornAway w m (by simpa [flip] using hb) hwv
  | false =>
    rcases h'.bornHere w m (by simpa [flip] using hb) hwv with h1 | h1
    · exact h1
    · rw [hso] at h1; exact absurd h1 (by simp)

/-- Both queues are empty: every entity has its counterpart. -/
theorem Full.total {s r : Side} {K : Same} 
    (h : Full s r K) (hso : s.out = []) (hro : r.out = [])
    {m : Entity} (hm : s.valid m = true) : ∃ w, s.map.map.get? w = some m := by
  rcases h.unpaired m hm with ⟨w, b, hb⟩ | ⟨bs, hb⟩
  · cases b with
    | false => exact ⟨w, h.bornAway m w hb hm⟩
    | true =>
      rcases h.bornHere m w hb hm with h1 | h1
      · exact ⟨w, h1⟩
      · rw [hro] at h1; exact absurd h1 (by simp)
  · rw [hso] at hb; exact absurd hb (by simp)

end Edyn.Repl.Mapping
