import Verif.Query.Model
import Mathlib.Tactic.Common
import Mathlib.Tactic.Linarith

/-!
# Every asynchronous query is answered once, with what a direct query would give (C85)
-/

namespace Edyn.Query

variable {Q A E E' F : Type}

/-! ## Specification -/

/-- The call of the delegate of query `n`, which was answered with `a`: in the next processing of messages by
the main thread. -/
def delivered (k : Kind Q A E E') (n : Nat) (q : Q) (f : F) (a : A) : List (Op Q E E' F) → List (Call Q A F)
  | [] => []
  | .receive e :: _ => [⟨f, n, k.translate e a, q⟩]
  | .ask _ _ :: ops => delivered k n q f a ops
  | .work _ :: ops => delivered k n q f a ops

/-- The call for query `n`, given how the next update of the worker answers it, if at all. -/
def answered (k : Kind Q A E E') (direct : E → Q → Option A) (n : Nat) (q : Q) (f : F) : List (Op Q E E' F) → List (Call Q A F)
  | [] => []
  | .work e :: ops => (direct e q).toList.flatMap fun a => delivered k n q f a ops
  | .ask _ _ :: ops => answered k direct n q f ops
  | .receive _ :: ops => answered k direct n q f ops

/-- All calls: one for each query, in the order in which they were asked. -/
def expected (k : Kind Q A E E') (direct : E → Q → Option A) : Nat → List (Op Q E E' F) → List (Call Q A F)
  | _, [] => []
  | n, .ask q f :: ops => answered k direct n q f ops ++ expected k direct (n + 1) ops
  | n, .work _ :: ops => expected k direct n ops
  | n, .receive _ :: ops => expected k direct n ops

/-- The property for one kind of query: nothing fails, and the calls of delegates are exactly the expected ones, in some
order. -/
def Answers (k : Kind Q A E E') (direct : E → Q → Option A) (F : Type) : Prop :=
  ∀ ops : List (Op Q E E' F), ∃ s, run k ops St.start = some s ∧ s.log.Perm (expected k direct 0 ops)

/-! ## Any service which answers the requests it is given -/

/-- Requests with different identifiers are answered, in any order. -/
def Serves (k : Kind Q A E E') (direct : E → Q → Option A) : Prop := ∀ e (l : List (Nat × Q)), (l.map Prod.fst).Nodup →
  (k.serve e l).Perm (l.flatMap fun r => (direct e r.2).toList.map fun a => (r.1, a))

structure Inv (s : St Q A F) : Prop where
  nodup : (s.toWorker.map Prod.fst ++ s.back.map Prod.fst).Nodup
  asked : ∀ r ∈ s.toWorker, r.1 < s.next ∧ ∃ f, s.waiting r.1 = some (r.2, f)
  back : ∀ r ∈ s.back, r.1 < s.next ∧ ∃ q f, s.waiting r.1 = some (q, f)

/-- What is still to come for the messages on their way. -/
def coming (k : Kind Q A E E') (direct : E → Q → Option A) (s : St Q A F) (ops : List (Op Q E E' F)) : List (Call Q A F) :=
  (s.back.flatMap fun r => (s.waiting r.1).toList.flatMap fun c => delivered k r.1 c.1 c.2 r.2 ops) ++
  (s.toWorker.flatMap fun r => (s.waiting r.1).toList.flatMap fun c => answered k direct r.1 c.1 c.2 ops) ++
  expected k direct s.next ops

theorem flatMap_congr' {α β : Type} {l : List α} {f g : α → List β} (h : ∀ x ∈ l, f x = g x) : l.flatMap f = l.flatMap g := by
  induction l with
  | nil => rfl
  | cons x l ih =>
    rw [List.flatMap_cons, List.flatMap_cons, h x (by simp), ih (fun y hy => h y (by simp [hy]))]

theorem ask_ok (k : Kind Q A E E') (direct : E → Q → Option A) (q : Q) (f : F) (s : St Q A F) (h : Inv s) (ops : List (Op Q E E' F)) :
    Inv (ask q f s) ∧ s.log = (ask q f s).log ∧ coming k direct (ask q f s) ops = coming k direct s (.ask q f :: ops) := by
  have old : ∀ n, n < s.next → (ask q f s).waiting n = s.waiting n := by
    intro n hn
    exact Function.update_of_ne (Nat.ne_of_lt hn) _ _
  have new : (ask q f s).waiting s.next = some (q, f) := Function.update_self ..
  refine ⟨⟨?_, ?_, ?_⟩, rfl, ?_⟩
  · have hn := h.nodup
    have h1 : s.next ∉ s.toWorker.map Prod.fst := by
      intro hc
      obtain ⟨r, hr, e⟩ := List.mem_map.1 hc
      exact absurd (h.asked r hr).1 (by omega)
    have h2 : s.next ∉ s.back.map Prod.fst := by
      intro hc
      obtain ⟨r, hr, e⟩ := List.mem_map.1 hc
      exact absurd (h.back r hr).1 (by omega)
    simp only [ask, List.map_append, List.map_cons, List.map_nil]
    rw [List.append_assoc, List.nodup_append'] at *
    obtain ⟨n1, n2, n3⟩ := hn
    refine ⟨n1, ?_, ?_⟩
    · simp only [List.singleton_append, List.nodup_cons]
      exact ⟨h2, n2⟩
    · intro x hx hy
      rcases List.mem_append.1 hy with hy | hy
      · simp only [List.mem_singleton] at hy
        exact h1 (hy ▸ hx)
      · exact n3 hx hy
  · intro r hr
    rcases List.mem_append.1 hr with hr | hr
    · obtain ⟨a, b, c⟩ := h.asked r hr
      exact ⟨Nat.lt_succ_of_lt a, b, by rw [old _ a]; exact c⟩
    · simp only [List.mem_singleton] at hr
      subst hr
      exact ⟨Nat.lt_succ_self _, f, new⟩
  · intro r hr
    obtain ⟨a, b, c, d⟩ := h.back r hr
    exact ⟨Nat.lt_succ_of_lt a, b, c, by rw [old _ a]; exact d⟩
  · have e1 : ((ask q f s).back.flatMap fun r => ((ask q f s).waiting r.1).toList.flatMap fun c => delivered k r.1 c.1 c.2 r.2 ops) =
        s.back.flatMap fun r => (s.waiting r.1).toList.flatMap fun c => delivered k r.1 c.1 c.2 r.2 ops :=
      flatMap_congr' fun r hr => by rw [old _ (h.back r hr).1]
    have e2 : ((ask q f s).toWorker.flatMap fun r => ((ask q f s).waiting r.1).toList.flatMap fun c => answered k direct r.1 c.1 c.2 ops) =
        (s.toWorker.flatMap fun r => (s.waiting r.1).toList.flatMap fun c => answered k direct r.1 c.1 c.2 ops) ++
          answered k direct s.next q f ops := by
      have : (ask q f s).toWorker = s.toWorker ++ [(s.next, q)] := rfl
      rw [this, List.flatMap_append]
      congr 1
      · exact flatMap_congr' fun r hr => by rw [old _ (h.asked r hr).1]
      · simp [new]
    simp only [coming, delivered, answered, expected]
    rw [e1, e2]
    simp only [List.append_assoc]
    rfl

theorem work_ok (k : Kind Q A E E') (direct : E → Q → Option A) (hk : Serves k direct) (e : E) (s : St Q A F) (h : Inv s)
    (ops : List (Op Q E E' F)) :
    Inv (work k e s) ∧ s.log = (work k e s).log ∧ (coming k direct (work k e s) ops).Perm (coming k direct s (.work e :: ops)) := by
  have hn := List.nodup_append'.1 h.nodup
  have hs := hk e s.toWorker hn.1
  have ids : ∀ l : List (Nat × Q), ((l.flatMap fun r => (direct e r.2).toList.map fun a => (r.1, a)).map Prod.fst).Sublist (l.map Prod.fst) := by
    intro l
    induction l with
    | nil => simp
    | cons r l ih =>
      cases hd : direct e r.2 with
      | none => simpa [hd] using ih.cons r.1
      | some a => simpa [hd] using ih.cons₂ r.1
  have hmem : ∀ r ∈ k.serve e s.toWorker, ∃ q, (r.1, q) ∈ s.toWorker := by
    intro r hr
    obtain ⟨x, hx, hy⟩ := List.mem_flatMap.1 (hs.subset hr)
    obtain ⟨a, -, ha⟩ := List.mem_map.1 hy
    exact ⟨x.2, by rw [← ha]; exact hx⟩
  refine ⟨⟨?_, by simp [work], ?_⟩, rfl, ?_⟩
  · simp only [work, List.map_nil, List.nil_append, List.map_append]
    rw [List.nodup_append']
    refine ⟨hn.2.1, ((hs.map Prod.fst).nodup_iff).2 (hn.1.sublist (ids _)), ?_⟩
    intro x hx hy
    obtain ⟨r, hr, rfl⟩ := List.mem_map.1 hy
    obtain ⟨q, hq⟩ := hmem r hr
    exact hn.2.2 (List.mem_map.2 ⟨_, hq, rfl⟩) hx
  · intro r hr
    rcases List.mem_append.1 hr with hr | hr
    · exact h.back r hr
    · obtain ⟨q, hq⟩ := hmem r hr
      obtain ⟨a, f, hf⟩ := h.asked _ hq
      exact ⟨a, q, f, hf⟩
  · have p1 := hs.flatMap_right (fun r => (s.waiting r.1).toList.flatMap fun c => delivered k r.1 c.1 c.2 r.2 ops)
    have e1 : ((s.toWorker.flatMap fun r => (direct e r.2).toList.map fun a => (r.1, a)).flatMap
        fun r => (s.waiting r.1).toList.flatMap fun c => delivered k r.1 c.1 c.2 r.2 ops) =
        s.toWorker.flatMap fun r => (s.waiting r.1).toList.flatMap fun c => answered k direct r.1 c.1 c.2 (.work e :: ops) := by
      rw [List.flatMap_assoc]
      refine flatMap_congr' fun r hr => ?_
      obtain ⟨-, f, hf⟩ := h.asked r hr
      cases hd : direct e r.2 <;> simp [hf, answered, hd]
    simp only [coming, work, List.flatMap_append, List.flatMap_nil, List.append_nil]
    rw [e1] at p1
    simp only [delivered, expected]
    exact (p1.append_left _).append_right _

theorem receive_ok (k : Kind Q A E E') (direct : E → Q → Option A) (e : E') (s : St Q A F) (h : Inv s) (ops : List (Op Q E E' F)) :
    ∃ s', receive k e s = some s' ∧ Inv s' ∧ s'.log ++ coming k direct s' ops = s.log ++ coming k direct s (.receive e :: ops) := by
  have gen : ∀ (l : List (Nat × A)) (s₁ : St Q A F), s₁.back = [] →
      (s₁.toWorker.map Prod.fst ++ l.map Prod.fst).Nodup → (∀ r ∈ s₁.toWorker, r.1 < s₁.next ∧ ∃ f, s₁.waiting r.1 = some (r.2, f)) →
      (∀ r ∈ l, r.1 < s₁.next ∧ ∃ q f, s₁.waiting r.1 = some (q, f)) →
      ∃ s', l.foldlM (onResponse k e) s₁ = some s' ∧ Inv s' ∧ s'.next = s₁.next ∧ s'.toWorker = s₁.toWorker ∧ s'.back = [] ∧
        (∀ r ∈ s₁.toWorker, s'.waiting r.1 = s₁.waiting r.1) ∧
        s'.log = s₁.log ++ l.flatMap fun r => (s₁.waiting r.1).toList.map fun c => ⟨c.2, r.1, k.translate e r.2, c.1⟩ := by
    intro l
    induction l with
    | nil =>
      intro s₁ hb hn ha hl
      exact ⟨s₁, rfl, ⟨by simpa [hb] using hn, ha, by simp [hb]⟩, rfl, rfl, hb, fun _ _ => rfl, by simp⟩
    | cons r l ih =>
      intro s₁ hb hn ha hl
      obtain ⟨r1, q, f, hr⟩ := hl r (by simp)
      obtain ⟨n1, n2, n3⟩ := List.nodup_append'.1 hn
      simp only [List.map_cons, List.nodup_cons] at n2
      have hw : ∀ x ∈ s₁.toWorker, Function.update s₁.waiting r.1 none x.1 = s₁.waiting x.1 := by
        intro x hx
        refine Function.update_of_ne ?_ _ _
        intro hc
        exact n3 (List.mem_map.2 ⟨x, hx, rfl⟩) (by rw [hc]; simp)
      have hl' : ∀ x ∈ l, Function.update s₁.waiting r.1 none x.1 = s₁.waiting x.1 := by
        intro x hx
        refine Function.update_of_ne ?_ _ _
        intro hc
        exact n2.1 (by rw [← hc]; exact List.mem_map.2 ⟨x, hx, rfl⟩)
      obtain ⟨s', i1, i2, i3, i4, i5, i6, i7⟩ := ih
        { s₁ with log := s₁.log ++ [⟨f, r.1, k.translate e r.2, q⟩], waiting := Function.update s₁.waiting r.1 none } hb
        (List.nodup_append'.2 ⟨n1, n2.2, fun x hx hy => n3 hx (by simp [hy])⟩)
        (fun x hx => ⟨(ha x hx).1, by simp only; rw [hw x hx]; exact (ha x hx).2⟩)
        (fun x hx => ⟨(hl x (by simp [hx])).1, by simp only; rw [hl' x hx]; exact (hl x (by simp [hx])).2⟩)
      refine ⟨s', ?_, i2, i3, i4, i5, ?_, ?_⟩
      · rw [List.foldlM_cons]
        simp only [onResponse, hr, Option.map_some, Option.bind_eq_bind, Option.bind_some]
        exact i1
      · intro x hx
        rw [i6 x hx]
        exact hw x hx
      · rw [i7]
        simp only [List.flatMap_cons, hr, Option.toList_some, List.map_cons, List.map_nil, List.append_assoc]
        congr 2
        exact flatMap_congr' fun x hx => by rw [hl' x hx]
  obtain ⟨s', i1, i2, i3, i4, i5, i6, i7⟩ := gen s.back { s with back := [] } rfl h.nodup h.asked h.back
  refine ⟨s', i1, i2, ?_⟩
  simp only [coming, i3, i4, i5, i7, List.flatMap_nil, List.nil_append, delivered, answered, expected]
  have e1 : (s.toWorker.flatMap fun r => (s'.waiting r.1).toList.flatMap fun c => answered k direct r.1 c.1 c.2 ops) =
      s.toWorker.flatMap fun r => (s.waiting r.1).toList.flatMap fun c => answered k direct r.1 c.1 c.2 ops :=
    flatMap_congr' fun r hr => by rw [i6 r hr]
  rw [e1]
  have e2 : (s.back.flatMap fun r => (s.waiting r.1).toList.map fun c => (⟨c.2, r.1, k.translate e r.2, c.1⟩ : Call Q A F)) =
      s.back.flatMap fun r => (s.waiting r.1).toList.flatMap fun c => [⟨c.2, r.1, k.translate e r.2, c.1⟩] :=
    flatMap_congr' fun r _ => by cases s.waiting r.1 <;> simp
  rw [e2]
  simp only [List.append_assoc]

theorem answers_of_serves (k : Kind Q A E E') (direct : E → Q → Option A) (hk : Serves k direct) : Answers k direct F := by
  have gen : ∀ (ops : List (Op Q E E' F)) (s : St Q A F), Inv s →
      ∃ s', run k ops s = some s' ∧ s'.log.Perm (s.log ++ coming k direct s ops) := by
    intro ops
    induction ops with
    | nil =>
      intro s _
      refine ⟨s, rfl, ?_⟩
      have e1 : (s.back.flatMap fun r => (s.waiting r.1).toList.flatMap fun c => delivered k r.1 c.1 c.2 r.2 ([] : List (Op Q E E' F))) = [] := by
        simp [delivered]
      have e2 : (s.toWorker.flatMap fun r => (s.waiting r.1).toList.flatMap fun c => answered k direct r.1 c.1 c.2 ([] : List (Op Q E E' F))) = [] := by
        simp [answered]
      simp only [coming, e1, e2, expected, List.append_nil]
      exact List.Perm.refl _
    | cons op ops ih =>
      intro s h
      cases op with
      | ask q f =>
        obtain ⟨h1, h2, h3⟩ := ask_ok k direct q f s h ops
        obtain ⟨s', i1, i2⟩ := ih _ h1
        rw [h3, ← h2] at i2
        exact ⟨s', by simpa [run, List.foldlM_cons, step] using i1, i2⟩
      | work e =>
        obtain ⟨h1, h2, h3⟩ := work_ok k direct hk e s h ops
        obtain ⟨s', i1, i2⟩ := ih _ h1
        rw [← h2] at i2
        exact ⟨s', by simpa [run, List.foldlM_cons, step] using i1, i2.trans (h3.append_left _)⟩
      | receive e =>
        obtain ⟨s₁, h0, h1, h3⟩ := receive_ok k direct e s h ops
        obtain ⟨s', i1, i2⟩ := ih _ h1
        rw [h3] at i2
        exact ⟨s', by simpa [run, List.foldlM_cons, step, h0] using i1, i2⟩
  intro ops
  obtain ⟨s', i1, i2⟩ := gen ops St.start ⟨by simp [St.start], by simp [St.start], by simp [St.start]⟩
  exact ⟨s', i1, by simpa [coming, St.start] using i2⟩

/-! ## AABB queries -/

variable {B : Type}

/-- **C85, AABB queries.** The delegate of every AABB query is called exactly once, with what the worker finds in the
next update, in terms of the entities of the main thread. -/
theorem boxes_answered (F : Type) : Answers (boxes : Kind (BoxQuery B) _ _ _) (fun w q => some (answerBox w q)) F := by
  refine answers_of_serves _ _ fun e l _ => ?_
  have : (l.flatMap fun r => (some (answerBox e r.2)).toList.map fun a => (r.1, a)) = l.map fun r => (r.1, answerBox e r.2) := by
    induction l <;> simp_all
  rw [this]
  exact List.Perm.refl _

theorem push_mem (l : List Nat) (e x : Nat) : x ∈ push l e ↔ x ∈ l ∨ x = e := by
  unfold push
  split
  · constructor
    · exact Or.inl
    · rintro (h | rfl)
      · exact h
      · assumption
  · simp

theorem push_nodup {l : List Nat} (h : l.Nodup) (e : Nat) : (push l e).Nodup := by
  unfold push
  split
  · exact h
  · rename_i hn
    rw [List.nodup_append']
    exact ⟨h, by simp, by simpa using hn⟩

theorem fold_push (p : Nat → Bool) (l : List Nat) : ∀ (acc : List Nat), acc.Nodup →
    (l.foldl (fun l e => if p e then push l e else l) acc).Nodup ∧
    ∀ x, x ∈ l.foldl (fun l e => if p e then push l e else l) acc ↔ x ∈ acc ∨ x ∈ l ∧ p x = true := by
  induction l with
  | nil => intro acc h; exact ⟨h, by simp⟩
  | cons e l ih =>
    intro acc h
    simp only [List.foldl_cons]
    cases hp : p e with
    | false =>
      obtain ⟨i1, i2⟩ := ih acc h
      refine ⟨i1, fun x => ?_⟩
      simp only [Bool.false_eq_true, if_false]
      rw [i2 x, List.mem_cons]
      constructor
      · rintro (h | ⟨h, h'⟩)
        · exact Or.inl h
        · exact Or.inr ⟨Or.inr h, h'⟩
      · rintro (h | ⟨rfl | h, h'⟩)
        · exact Or.inl h
        · rw [hp] at h'; exact absurd h' (by simp)
        · exact Or.inr ⟨h, h'⟩
    | true =>
      obtain ⟨i1, i2⟩ := ih (push acc e) (push_nodup h e)
      refine ⟨i1, fun x => ?_⟩
      simp only [if_true]
      rw [i2 x, push_mem, List.mem_cons]
      constructor
      · rintro ((h | rfl) | ⟨h, h'⟩)
        · exact Or.inl h
        · exact Or.inr ⟨Or.inl rfl, hp⟩
        · exact Or.inr ⟨Or.inr h, h'⟩
      · rintro (h | ⟨rfl | h, h'⟩)
        · exact Or.inl (Or.inl h)
        · exact Or.inl (Or.inr rfl)
        · exact Or.inr ⟨h, h'⟩

/-- What belongs to an island for a query of interest: its procedural bodies and its edges which are not manifolds. -/
def Belongs (w : BoxWorld B) (island x : Nat) : Prop :=
  x ∈ w.nodes island ∧ w.isProcedural x = true ∨ x ∈ w.edges island ∧ w.isManifold x = false

/-- **C85, queries of interest.** The result has the islands which overlap the box, everything that belongs to them
and the overlapping bodies which are not procedural; each once. -/
theorem interest_spec (w : BoxWorld B) (b : B) :
    (answerBox w (.interest b)).procedural.Nodup ∧ (answerBox w (.interest b)).nonProcedural.Nodup ∧
    (answerBox w (.interest b)).islands.Nodup ∧
    (∀ x, x ∈ (answerBox w (.interest b)).procedural ↔ ∃ i ∈ w.islands b, Belongs w i x) ∧
    (∀ x, x ∈ (answerBox w (.interest b)).nonProcedural ↔ x ∈ w.nonProcedural b) ∧
    (∀ x, x ∈ (answerBox w (.interest b)).islands ↔ x ∈ w.islands b) := by
  have hc : ∀ (l : List Nat) (acc : List Nat × List Nat), acc.1.Nodup → acc.2.Nodup →
      (l.foldl (collect w) acc).1.Nodup ∧ (l.foldl (collect w) acc).2.Nodup ∧
      (∀ x, x ∈ (l.foldl (collect w) acc).1 ↔ x ∈ acc.1 ∨ ∃ i ∈ l, Belongs w i x) ∧
      (∀ x, x ∈ (l.foldl (collect w) acc).2 ↔ x ∈ acc.2 ∨ x ∈ l) := by
    intro l
    induction l with
    | nil => intro acc h1 h2; exact ⟨h1, h2, by simp, by simp⟩
    | cons i l ih =>
      intro acc h1 h2
      obtain ⟨a1, a2⟩ := fold_push w.isProcedural (w.nodes i) acc.1 h1
      have he : (fun (l : List Nat) e => if w.isManifold e then l else push l e) = fun l e => if (!w.isManifold e) then push l e else l := by
        funext l e; cases w.isManifold e <;> simp
      obtain ⟨b1, b2⟩ := fold_push (fun e => !w.isManifold e) (w.edges i) _ a1
      obtain ⟨c1, c2, c3, c4⟩ := ih (collect w acc i) (by simp only [collect, he]; exact b1) (push_nodup h2 i)
      refine ⟨c1, c2, fun x => ?_, fun x => ?_⟩
      · rw [List.foldl_cons, c3 x]
        simp only [collect, he]
        rw [b2 x, a2 x]
        simp only [Bool.not_eq_true', List.mem_cons, exists_eq_or_imp, Belongs]
        rw [or_assoc, or_assoc, or_assoc]
      · rw [List.foldl_cons, c4 x]
        simp only [collect]
        rw [push_mem, List.mem_cons]
        tauto
  obtain ⟨c1, c2, c3, c4⟩ := hc (w.islands b) ([], []) (by simp) (by simp)
  have hnp := fold_push (fun _ => true) (w.nonProcedural b) [] (by simp)
  simp only [if_true] at hnp
  obtain ⟨n1, n2⟩ := hnp
  refine ⟨c1, n1, c2, fun x => ?_, fun x => ?_, fun x => ?_⟩
  · simpa [answerBox] using c3 x
  · have := n2 x
    simpa [answerBox] using this
  · simpa [answerBox] using c4 x

/-- **C85, plain AABB queries.** Each of the three lists has what the corresponding tree gives for the box if it was asked
for, and nothing otherwise. -/
theorem plain_spec (w : BoxWorld B) (b : B) (p np i : Bool) (x : Nat) :
    (x ∈ (answerBox w (.plain b p np i)).procedural ↔ p = true ∧ x ∈ w.procedural b) ∧
    (x ∈ (answerBox w (.plain b p np i)).nonProcedural ↔ np = true ∧ x ∈ w.nonProcedural b) ∧
    (x ∈ (answerBox w (.plain b p np i)).islands ↔ i = true ∧ x ∈ w.islands b) := by
  cases p <;> cases np <;> cases i <;> simp [answerBox]

/-- **C85, entities of the application.** All three lists passed to the delegate have exactly the entities of the main thread
which the map gives for those found by the worker. -/
theorem boxes_translated (m : Nat → Option Nat) (r : BoxRes) (x : Nat) :
    (x ∈ ((boxes (B := B)).translate m r).procedural ↔ ∃ y ∈ r.procedural, m y = some x) ∧
    (x ∈ ((boxes (B := B)).translate m r).nonProcedural ↔ ∃ y ∈ r.nonProcedural, m y = some x) ∧
    (x ∈ ((boxes (B := B)).translate m r).islands ↔ ∃ y ∈ r.islands, m y = some x) := by
  simp [boxes, boxToMain, List.mem_filterMap]

/-! ## Rays -/

variable {R T D : Type} [LinearOrder T]

/-- **C85, entities of the application.** The entity passed to the delegate of a ray is the one of the main thread for the one
hit, and the rest of the result is what the worker found. -/
theorem rays_translated (none' : Hit T D) (m : Nat → Option Nat) (r : Res T D) :
    ((rays none' : Kind (R × List Nat) _ _ _).translate m r).hit = r.hit ∧
    ∀ x, ((rays none' : Kind (R × List Nat) _ _ _).translate m r).entity = some x ↔ ∃ y, r.entity = some y ∧ m y = some x := by
  refine ⟨rfl, fun x => ?_⟩
  simp [rays, toMain, Option.bind_eq_some_iff]

theorem upsert_skip (d : Res T D) (id : Nat) (g : Res T D → Res T D) (pre l : List (Nat × Res T D)) (h : id ∉ pre.map Prod.fst) :
    upsert d id g (pre ++ l) = pre ++ upsert d id g l := by
  induction pre with
  | nil => rfl
  | cons x pre ih =>
    simp only [List.map_cons, List.mem_cons, not_or] at h
    obtain ⟨k, v⟩ := x
    rw [List.cons_append, upsert, if_neg (fun e => h.1 e.symm), ih h.2, List.cons_append]

/-- The candidates of a ray. -/
def cands (w : World R T D) (q : R × List Nat) : List Nat := (w.visits q.1).filter fun e => decide (e ∉ q.2.filterMap w.local_)

theorem block (none' : Hit T D) (w : World R T D) (id : Nat) (r : R) (es : List Nat) (pre : List (Nat × Res T D)) (v : Res T D)
    (h : id ∉ pre.map Prod.fst) :
    finishNarrow none' (pre ++ [(id, v)]) (es.map fun e => runNarrow w ⟨id, r, e, none'⟩) =
      pre ++ [(id, es.foldl (fun x e => nearer e (w.cast e r) x) v)] := by
  induction es generalizing v with
  | nil => rfl
  | cons e es ih =>
    have s1 : finishNarrow none' (pre ++ [(id, v)]) ((e :: es).map fun e => runNarrow w ⟨id, r, e, none'⟩) =
        finishNarrow none' (upsert ⟨none', none⟩ id (nearer e (w.cast e r)) (pre ++ [(id, v)]))
          (es.map fun e => runNarrow w ⟨id, r, e, none'⟩) := rfl
    rw [s1, upsert_skip _ _ _ _ _ h]
    simp only [upsert, if_true]
    exact ih _

theorem serve_fold (none' : Hit T D) (w : World R T D) : ∀ (l : List (Nat × R × List Nat)) (acc : List (Nat × Res T D)),
    (acc.map Prod.fst ++ l.map Prod.fst).Nodup →
    finishNarrow none' acc ((finishBroad none' ((l.map (addRay w)).map (runBroad w))).map (runNarrow w)) =
      acc ++ l.flatMap fun r => (if HasCandidate w r.2 then some (raycast none' w r.2) else none).toList.map fun a => (r.1, a) := by
  intro l
  induction l with
  | nil => intro acc _; simp [finishNarrow, finishBroad]
  | cons q l ih =>
    intro acc hn
    have hq : q.1 ∉ acc.map Prod.fst := by
      have := (List.nodup_append'.1 hn).2.2
      intro hc
      exact this hc (by simp)
    have e1 : (finishBroad none' (((q :: l).map (addRay w)).map (runBroad w))).map (runNarrow w) =
        (cands w q.2).map (fun e => runNarrow w ⟨q.1, q.2.1, e, none'⟩) ++
        (finishBroad none' ((l.map (addRay w)).map (runBroad w))).map (runNarrow w) := by
      simp [finishBroad, addRay, runBroad, cands, List.map_flatMap]
    have e2 : ∀ a b, finishNarrow none' acc (a ++ b : List (Narrow R T D)) = finishNarrow none' (finishNarrow none' acc a) b := by
      intro a b; simp [finishNarrow, List.foldl_append]
    rw [e1, e2, List.flatMap_cons]
    cases hc : cands w q.2 with
    | nil =>
      have hcand : HasCandidate w q.2 = false := by
        show (!(cands w q.2).isEmpty) = false
        rw [hc]; rfl
      have : finishNarrow none' acc (([] : List Nat).map (fun e => runNarrow w ⟨q.1, q.2.1, e, none'⟩)) = acc := rfl
      rw [this, ih acc (hn.sublist (List.Sublist.append_left (List.sublist_cons_self _ _) _)), hcand]
      simp
    | cons e es =>
      have hcand : HasCandidate w q.2 = true := by
        show (!(cands w q.2).isEmpty) = true
        rw [hc]; rfl
      have hres : raycast none' w q.2 = es.foldl (fun x e => nearer e (w.cast e q.2.1) x) (nearer e (w.cast e q.2.1) ⟨none', none⟩) := by
        show (cands w q.2).foldl _ _ = _
        rw [hc]; rfl
      have first : finishNarrow none' acc ((e :: es).map (fun e => runNarrow w ⟨q.1, q.2.1, e, none'⟩)) =
          acc ++ [(q.1, raycast none' w q.2)] := by
        have s1 : finishNarrow none' acc ((e :: es).map (fun e => runNarrow w ⟨q.1, q.2.1, e, none'⟩)) =
            finishNarrow none' (upsert ⟨none', none⟩ q.1 (nearer e (w.cast e q.2.1)) acc)
              (es.map fun e => runNarrow w ⟨q.1, q.2.1, e, none'⟩) := rfl
        have s2 := upsert_skip ⟨none', none⟩ q.1 (nearer e (w.cast e q.2.1)) acc [] hq
        rw [List.append_nil] at s2
        rw [s1, s2]
        simp only [upsert]
        rw [block none' w q.1 q.2.1 es acc _ hq, hres]
      rw [first, ih _ (by simpa [List.append_assoc] using hn), hcand]
      simp [List.append_assoc]

theorem rays_serve (none' : Hit T D) : Serves (rays none' : Kind (R × List Nat) _ _ _)
    (fun w q => if HasCandidate w q then some (raycast none' w q) else none) := by
  intro w l hn
  show (w.order _).Perm _
  refine (w.perm _).trans ?_
  have := serve_fold none' w l [] (by simpa using hn)
  rw [this, List.nil_append]

/-- The full statement for rays: the delegate of every ray is called exactly once, with what a direct raycast would
give. -/
def RaysFull : Prop := ∀ (R T D : Type) (_ : LinearOrder T) (none' : Hit T D) (F : Type),
  Answers (rays none' : Kind (R × List Nat) _ _ _) (fun w q => some (raycast none' w q)) F

/-- **C85, rays, partial.** The delegate of every ray for which the broadphase finds a candidate is called exactly once,
with what a direct raycast in the worker would give, in terms of the entities of the main thread.  Missing: rays
without a candidate, whose delegate is never called (`rays_refuted`). -/
theorem rays_answered_partial (none' : Hit T D) (F : Type) : Answers (rays none' : Kind (R × List Nat) _ _ _)
    (fun w q => if HasCandidate w q then some (raycast none' w q) else none) F :=
  answers_of_serves _ _ (rays_serve none')

/-- A direct raycast gives the nearest hit of the bodies visited which are not ignored, and no entity if there is none
nearer than the default. -/
theorem raycast_nearest (none' : Hit T D) (w : World R T D) (q : R × List Nat) :
    (∀ e ∈ w.visits q.1, (∀ i ∈ q.2, w.local_ i ≠ some e) → (raycast none' w q).hit.fraction ≤ (w.cast e q.1).fraction) ∧
    ((raycast none' w q).entity = none → (raycast none' w q).hit = none') ∧
    (∀ e, (raycast none' w q).entity = some e → e ∈ w.visits q.1 ∧ (∀ i ∈ q.2, w.local_ i ≠ some e) ∧
      (raycast none' w q).hit = w.cast e q.1 ∧ (w.cast e q.1).fraction < none'.fraction) := by
  have gen : ∀ (l : List Nat) (v : Res T D), v.hit.fraction ≤ none'.fraction → let r := l.foldl (fun r e => nearer e (w.cast e q.1) r) v
      r.hit.fraction ≤ v.hit.fraction ∧ (∀ e ∈ l, r.hit.fraction ≤ (w.cast e q.1).fraction) ∧
      (r = v ∨ ∃ e ∈ l, r.entity = some e ∧ r.hit = w.cast e q.1 ∧ (w.cast e q.1).fraction < none'.fraction) := by
    intro l
    induction l with
    | nil => intro v _; exact ⟨le_refl _, by simp, Or.inl rfl⟩
    | cons e l ih =>
      intro v hv
      simp only [List.foldl_cons]
      by_cases hlt : (w.cast e q.1).fraction < v.hit.fraction
      · have hne : nearer e (w.cast e q.1) v = ⟨w.cast e q.1, some e⟩ := by simp [nearer, hlt]
        obtain ⟨i1, i2, i3⟩ := ih (nearer e (w.cast e q.1) v) (by rw [hne]; exact (lt_of_lt_of_le hlt hv).le)
        rw [hne] at i1 i2 i3 ⊢
        refine ⟨le_trans i1 hlt.le, ?_, ?_⟩
        · intro x hx
          rcases List.mem_cons.1 hx with rfl | hx
          · exact i1
          · exact i2 x hx
        · rcases i3 with h | ⟨x, hx, h⟩
          · exact Or.inr ⟨e, by simp, by rw [h], by rw [h], lt_of_lt_of_le hlt hv⟩
          · exact Or.inr ⟨x, by simp [hx], h⟩
      · have hne : nearer e (w.cast e q.1) v = v := by simp [nearer, hlt]
        obtain ⟨i1, i2, i3⟩ := ih v hv
        rw [hne]
        refine ⟨i1, ?_, ?_⟩
        · intro x hx
          rcases List.mem_cons.1 hx with rfl | hx
          · exact le_trans i1 (not_lt.1 hlt)
          · exact i2 x hx
        · rcases i3 with h | ⟨x, hx, h⟩
          · exact Or.inl h
          · exact Or.inr ⟨x, by simp [hx], h⟩
  obtain ⟨-, g2, g3⟩ := gen (cands w q) ⟨none', none⟩ (le_refl _)
  have hm : ∀ e, e ∈ cands w q ↔ e ∈ w.visits q.1 ∧ ∀ i ∈ q.2, w.local_ i ≠ some e := by
    intro e
    simp [cands, List.mem_filterMap]
  change (∀ e ∈ cands w q, (raycast none' w q).hit.fraction ≤ _) at g2
  change raycast none' w q = _ ∨ ∃ e ∈ cands w q, (raycast none' w q).entity = some e ∧ (raycast none' w q).hit = _ ∧ _ at g3
  refine ⟨fun e he hi => g2 e ((hm e).2 ⟨he, hi⟩), ?_, ?_⟩
  · intro h
    rcases g3 with g | ⟨x, -, g, -⟩
    · rw [g]
    · rw [h] at g; exact absurd g (by simp)
  · intro e h
    rcases g3 with g | ⟨x, hx, g, g', g''⟩
    · rw [g] at h; exact absurd h (by simp)
    · rw [h] at g
      cases g
      exact ⟨((hm e).1 hx).1, ((hm e).1 hx).2, g', g''⟩

/-- A world without bodies, and one with two. -/
def empty : World Unit Nat Unit := ⟨fun _ => [], fun _ _ => ⟨5, ()⟩, some, id, fun _ => List.Perm.refl _⟩

def two : World Unit Nat Unit := ⟨fun _ => [7, 8], fun e _ => ⟨10 - e, ()⟩, some, id, fun _ => List.Perm.refl _⟩

/-- **C85, rays, refuted.** A ray that meets no box of a body is never answered: its delegate is not called and its
context is kept forever. -/
theorem rays_refuted : ¬ RaysFull := by
  intro h
  obtain ⟨s, h1, h2⟩ := h Unit Nat Unit inferInstance ⟨100, ()⟩ Unit [.ask ((), []) (), .work empty, .receive some]
  have e : run (rays ⟨100, ()⟩) [.ask ((), []) (), .work empty, .receive some] (St.start : St (Unit × List Nat) (Res Nat Unit) Unit) =
      some ⟨1, Function.update (fun _ => none) 0 (some (((), []), ())), [], [], []⟩ := rfl
  rw [e] at h1
  cases h1
  have := h2.length_eq
  simp [expected, answered, delivered] at this

/-- Not vacuous: a ray which meets two bodies, the second of which is nearer and not ignored. -/
example : (run (rays ⟨100, ()⟩) [.ask ((), [9]) (), .work two, .receive some] (St.start : St (Unit × List Nat) (Res Nat Unit) Unit)).map
    (fun s => s.log.map fun c => (c.id, c.result.entity, c.result.hit.fraction)) = some [(0, some 8, 2)] ∧
    HasCandidate two ((), [9]) = true ∧ HasCandidate two ((), [7, 8]) = false := by decide

/-- Not vacuous: a query of interest with two islands which share an edge, of which one is a manifold. -/
example : answerBox (B := Unit) ⟨fun _ => [1, 2], fun _ => [3, 3], fun _ => [10, 11], fun i => if i = 10 then [1, 3] else [2],
    fun _ => [20, 21], fun e => e < 3, fun e => e == 21⟩ (.interest ()) = ⟨[1, 20, 2], [3], [10, 11]⟩ := by decide

end Edyn.Query
