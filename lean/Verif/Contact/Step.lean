import Verif.Contact.Facts

/-!
# The narrowphase and the import of contacts (C33)
-/

namespace Edyn.Contact

open Edyn.Math

variable {T : Type} [Field T] [LinearOrder T] [IsStrictOrderedRing T] {X : Type}

/-- `narrowphase::update_contact_manifolds`, `include/edyn/collision/narrowphase.hpp` 60-82, for the
manifolds `ms`. The result of `detect_collision` depends on the bodies only, which do not change here. -/
def seqStep (e : Nat → Env T X) (res : Nat → List (Pt T X)) : List Nat → Reg (Dat T X) → Option (Reg (Dat T X))
  | [], r => some r
  | m :: ms, r =>
    match process (seqCalls m) (e m) m (res m) { r := r } with
    | none => none
    | some s => seqStep e res ms s.r

/-- `narrowphase::detect_collision_parallel`, `src/edyn/collision/narrowphase.cpp` 42-74. The manifolds
are handled by tasks that run concurrently. A task reads and writes the points of its manifold only
(`task_footprint`), so the order of tasks, which is arbitrary, is all that is modelled of the schedule. -/
def detectPar (e : Nat → Env T X) (res : Nat → List (Pt T X)) :
    List Nat → Reg (Dat T X) → (Nat → List (Pt T X) × List Nat) →
      Option (Reg (Dat T X) × (Nat → List (Pt T X) × List Nat))
  | [], r, info => some (r, info)
  | m :: ms, r, info =>
    match process parCalls (e m) m (res m) { r := r } with
    | none => none
    | some s => detectPar e res ms s.r (Function.update info m (s.made, s.gone))

/-- `narrowphase.cpp` 85-87. -/
def destroyAll : List Nat → Reg (Dat T X) → Option (Reg (Dat T X))
  | [], r => some r
  | id :: ids, r =>
    match destroy r id with
    | none => none
    | some r => destroyAll ids r

/-- `narrowphase.cpp` 101-104. -/
def createAll (m : Nat) : List (Pt T X) → Reg (Dat T X) → Option (Reg (Dat T X))
  | [], r => some r
  | p :: ps, r =>
    match create r m (fresh p) with
    | none => none
    | some r => createAll m ps r

/-- `narrowphase::finish_detect_collision`, `narrowphase.cpp` 76-109: first loop. -/
def finishDestroy (info : Nat → List (Pt T X) × List Nat) : List Nat → Reg (Dat T X) → Option (Reg (Dat T X))
  | [], r => some r
  | m :: ms, r =>
    match destroyAll (info m).2 r with
    | none => none
    | some r => finishDestroy info ms r

/-- `finish_detect_collision`: second loop. -/
def finishCreate (info : Nat → List (Pt T X) × List Nat) : List Nat → Reg (Dat T X) → Option (Reg (Dat T X))
  | [], r => some r
  | m :: ms, r =>
    match createAll m (info m).1 r with
    | none => none
    | some r => finishCreate info ms r

/-- The parallel narrowphase: `order` is the order in which the tasks run, `view` the order of the
manifolds in the registry. -/
def parStep (e : Nat → Env T X) (res : Nat → List (Pt T X)) (order view : List Nat) (r : Reg (Dat T X)) :
    Option (Reg (Dat T X)) :=
  match detectPar e res order r fun _ => ([], []) with
  | none => none
  | some (r, info) =>
    match finishDestroy info view r with
    | none => none
    | some r => finishCreate info view r

/-- The loop over the existing points in `replace_manifold`,
`src/edyn/networking/util/import_contact_manifolds.cpp` 54-100. `near` is the search in lines 56-80, whose
result is an index in `info`, the imported points (already flipped when the bodies are swapped). -/
def importVisit (near : Pt T X → List (Dat T X) → Nat) (info : List (Dat T X)) :
    Nat → Option Nat → Reg (Dat T X) → List Nat → Option (Reg (Dat T X) × List Nat)
  | _, none, r, mg => some (r, mg)
  | 0, some _, _, _ => none
  | fuel + 1, some id, r, mg =>
    match r.cp id with
    | none => none
    | some k =>
      if near k.data.pt info ∉ mg then
        match info[near k.data.pt info]? with
        | some d =>
          match modify r id (fun _ => d) with
          | none => none
          | some r => importVisit near info fuel k.next r (near k.data.pt info :: mg)
        | none =>
          match destroy r id with
          | none => none
          | some r => importVisit near info fuel k.next r mg
      else
        match destroy r id with
        | none => none
        | some r => importVisit near info fuel k.next r mg

/-- The second loop of `replace_manifold`, lines 108-130. -/
def importNew (m : Nat) (mg : List Nat) : List (Dat T X) → Nat → Reg (Dat T X) → Option (Reg (Dat T X))
  | [], _, r => some r
  | d :: ds, i, r =>
    if i ∈ mg then importNew m mg ds (i + 1) r
    else
      match create r m (fresh d.pt) with
      | none => none
      | some r => importNew m mg ds (i + 1) r

/-- `replace_manifold`, `import_contact_manifolds.cpp` 28-131, for an existing manifold. -/
def replaceManifold (near : Pt T X → List (Dat T X) → Nat) (m : Nat) (info : List (Dat T X))
    (r : Reg (Dat T X)) : Option (Reg (Dat T X)) :=
  match r.man m with
  | none => none
  | some st =>
    match importVisit near info r.nextId st.head r [] with
    | none => none
    | some (r, mg) => importNew m mg info 0 r

/-! ### Proofs -/

/-- The list after processing: new points in front of the remaining ones. -/
def After (n : Nat) (a : A T X) (l : List (Nat × Dat T X)) : Prop :=
  ∃ new : List (Nat × Dat T X), l = new ++ a.live ∧ new.map Prod.snd = a.made.reverse.map fresh ∧ ∀ x ∈ new, n ≤ x.1

theorem After.length {n : Nat} {a : A T X} {l : List (Nat × Dat T X)} (h : After n a l) :
    l.length = a.live.length + a.made.length := by
  obtain ⟨new, rfl, h2, -⟩ := h
  have := congrArg List.length h2
  simp at this
  simp; omega

theorem live_of_nil (l : List (Nat × Dat T X)) : (⟨l, [], []⟩ : A T X).live = l := by
  simp [A.live]

/-- One manifold, sequentially. -/
theorem seq_one {r : Reg (Dat T X)} {f : Nat → List (Nat × Dat T X)} (H : Lists r f) (e : Env T X) {m : Nat}
    (res : List (Pt T X)) (hm : r.man m ≠ none) (h4 : (f m).length ≤ 4) :
    ∃ s' l' a, process (seqCalls m) e m res { r := r } = some s' ∧ Lists s'.r (Function.update f m l') ∧
      Planned e res (f m) a ∧ After r.nextId a l' ∧ r.nextId ≤ s'.r.nextId ∧
      (∀ q, s'.r.man q ≠ none ↔ r.man q ≠ none) ∧ l'.length ≤ 4 ∧ (res ≠ [] → l' ≠ []) := by
  obtain ⟨st, hst⟩ := Option.ne_none_iff_exists'.1 hm
  have hR : SeqR m f r.nextId (fun q => r.man q ≠ none) { r := r } ⟨f m, [], []⟩ := by
    refine ⟨⟨[], ?_, rfl, by simp⟩, ?_, le_refl _, fun _ => Iff.rfl, hm, H.nodup m⟩
    · rw [List.nil_append, live_of_nil, Function.update_eq_self]; exact H
    · intro x hx
      obtain ⟨nx, hc⟩ := H.cp hx
      by_contra hlt
      rw [H.fresh x.1 (by omega)] at hc
      cases hc
  obtain ⟨s', a, h1, h2, h3, h5, h6⟩ := process_sim (seq_sim m f r.nextId _) e res hR hst
    (H.walk m st hst).head (H.num m st hst) h4 (H.length_le m)
  obtain ⟨new, hL, hn, hi⟩ := h3.lists
  have ha : After r.nextId a (new ++ a.live) := ⟨new, rfl, hn, hi⟩
  refine ⟨s', _, a, h1, hL, h2, ha, h3.next, h3.man, by rw [ha.length]; exact h5, ?_⟩
  intro hne e0
  have := ha.length
  rw [e0] at this
  exact h6 hne this.symm

/-- One task of the parallel version. -/
theorem par_one {r : Reg (Dat T X)} {f : Nat → List (Nat × Dat T X)} (H : Lists r f) (e : Env T X) {m : Nat}
    (res : List (Pt T X)) (hm : r.man m ≠ none) (h4 : (f m).length ≤ 4) :
    ∃ s' a, process parCalls e m res { r := r } = some s' ∧ Lists s'.r (Function.update f m a.l) ∧
      Planned e res (f m) a ∧ s'.made = a.made ∧ s'.gone = a.gone ∧ s'.r.nextId = r.nextId ∧
      (∀ q, s'.r.man q ≠ none ↔ r.man q ≠ none) ∧ a.live.length + a.made.length ≤ 4 := by
  obtain ⟨st, hst⟩ := Option.ne_none_iff_exists'.1 hm
  have hR : ParR m f r.nextId (fun q => r.man q ≠ none) { r := r } ⟨f m, [], []⟩ := by
    refine ⟨?_, rfl, rfl, rfl, fun _ => Iff.rfl, hm⟩
    rw [Function.update_eq_self]; exact H
  obtain ⟨s', a, h1, h2, h3, h5, h6⟩ := process_sim (par_sim m f r.nextId _) e res hR hst
    (H.walk m st hst).head (H.num m st hst) h4 (H.length_le m)
  exact ⟨s', a, h1, h3.lists, h2, h3.made, h3.gone, h3.next, h3.man, h5⟩

theorem After.mono {n n' : Nat} {a : A T X} {l : List (Nat × Dat T X)} (h : After n a l) (hn : n' ≤ n) :
    After n' a l := by
  obtain ⟨new, h1, h2, h3⟩ := h
  exact ⟨new, h1, h2, fun x hx => le_trans hn (h3 x hx)⟩

theorem seqStep_spec (e : Nat → Env T X) (res : Nat → List (Pt T X)) : ∀ (ms : List Nat) (r : Reg (Dat T X))
    (f : Nat → List (Nat × Dat T X)), Lists r f → ms.Nodup → (∀ m ∈ ms, r.man m ≠ none ∧ (f m).length ≤ 4) →
    ∃ r' f', seqStep e res ms r = some r' ∧ Lists r' f' ∧ r.nextId ≤ r'.nextId ∧
      (∀ q, r'.man q ≠ none ↔ r.man q ≠ none) ∧ (∀ q, q ∉ ms → f' q = f q) ∧
      ∀ m ∈ ms, (∃ a, Planned (e m) (res m) (f m) a ∧ After r.nextId a (f' m)) ∧ (f' m).length ≤ 4 ∧
        (res m ≠ [] → f' m ≠ []) := by
  intro ms
  induction ms with
  | nil => intro r f H _ _; exact ⟨r, f, rfl, H, le_refl _, fun _ => Iff.rfl, fun _ _ => rfl, by simp⟩
  | cons m ms ih =>
    intro r f H hn hm
    rw [List.nodup_cons] at hn
    obtain ⟨s1, l1, a, h1, h2, h3, h4, h5, h6, h7, h8⟩ := seq_one H (e m) (res m) (hm m (by simp)).1 (hm m (by simp)).2
    obtain ⟨r', f', g1, g2, g3, g4, g5, g6⟩ := ih s1.r _ h2 hn.2 (by
      intro q hq
      have hqm : q ≠ m := fun e => hn.1 (e ▸ hq)
      rw [Function.update_of_ne hqm]
      exact ⟨(h6 q).2 (hm q (by simp [hq])).1, (hm q (by simp [hq])).2⟩)
    refine ⟨r', f', by simp only [seqStep, h1]; exact g1, g2, le_trans h5 g3, fun q => (g4 q).trans (h6 q), ?_, ?_⟩
    · intro q hq
      simp only [List.mem_cons, not_or] at hq
      rw [g5 q hq.2, Function.update_of_ne hq.1]
    · intro q hq
      rcases List.mem_cons.1 hq with rfl | hq
      · rw [g5 q hn.1, Function.update_self]
        exact ⟨⟨a, h3, h4⟩, h7, h8⟩
      · obtain ⟨⟨b, k1, k2⟩, k3, k4⟩ := g6 q hq
        have hqm : q ≠ m := fun e => hn.1 (e ▸ hq)
        rw [Function.update_of_ne hqm] at k1
        exact ⟨⟨b, k1, k2.mono h5⟩, k3, k4⟩

theorem detectPar_spec (e : Nat → Env T X) (res : Nat → List (Pt T X)) : ∀ (ms : List Nat) (r : Reg (Dat T X))
    (f : Nat → List (Nat × Dat T X)) (info : Nat → List (Pt T X) × List Nat), Lists r f → ms.Nodup →
    (∀ m ∈ ms, r.man m ≠ none ∧ (f m).length ≤ 4) →
    ∃ r' info' f', detectPar e res ms r info = some (r', info') ∧ Lists r' f' ∧ r'.nextId = r.nextId ∧
      (∀ q, r'.man q ≠ none ↔ r.man q ≠ none) ∧ (∀ q, q ∉ ms → f' q = f q ∧ info' q = info q) ∧
      ∀ m ∈ ms, ∃ a, Planned (e m) (res m) (f m) a ∧ f' m = a.l ∧ info' m = (a.made, a.gone) ∧
        a.live.length + a.made.length ≤ 4 := by
  intro ms
  induction ms with
  | nil => intro r f info H _ _; exact ⟨r, info, f, rfl, H, rfl, fun _ => Iff.rfl, fun _ _ => ⟨rfl, rfl⟩, by simp⟩
  | cons m ms ih =>
    intro r f info H hn hm
    rw [List.nodup_cons] at hn
    obtain ⟨s1, a, h1, h2, h3, h4, h5, h6, h7, h8⟩ := par_one H (e m) (res m) (hm m (by simp)).1 (hm m (by simp)).2
    obtain ⟨r', info', f', g1, g2, g3, g4, g5, g6⟩ := ih s1.r _ (Function.update info m (s1.made, s1.gone)) h2 hn.2 (by
      intro q hq
      have hqm : q ≠ m := fun e => hn.1 (e ▸ hq)
      rw [Function.update_of_ne hqm]
      exact ⟨(h7 q).2 (hm q (by simp [hq])).1, (hm q (by simp [hq])).2⟩)
    refine ⟨r', info', f', by simp only [detectPar, h1]; exact g1, g2, g3.trans h6,
      fun q => (g4 q).trans (h7 q), ?_, ?_⟩
    · intro q hq
      simp only [List.mem_cons, not_or] at hq
      obtain ⟨k1, k2⟩ := g5 q hq.2
      rw [Function.update_of_ne hq.1] at k1 k2
      exact ⟨k1, k2⟩
    · intro q hq
      rcases List.mem_cons.1 hq with rfl | hq
      · obtain ⟨k1, k2⟩ := g5 q hn.1
        rw [Function.update_self] at k1 k2
        exact ⟨a, h3, k1, by rw [k2, h4, h5], h8⟩
      · obtain ⟨b, k1, k2⟩ := g6 q hq
        have hqm : q ≠ m := fun e => hn.1 (e ▸ hq)
        rw [Function.update_of_ne hqm] at k1
        exact ⟨b, k1, k2⟩

theorem destroyAll_spec {m : Nat} : ∀ (ids : List Nat) (r : Reg (Dat T X)) (f : Nat → List (Nat × Dat T X)),
    Lists r f → ids.Nodup → (∀ i ∈ ids, i ∈ (f m).map Prod.fst) →
    ∃ r', destroyAll ids r = some r' ∧
      Lists r' (Function.update f m ((f m).filter fun x => decide (x.1 ∉ ids))) ∧ r'.nextId = r.nextId ∧
      ∀ q, r'.man q ≠ none ↔ r.man q ≠ none := by
  intro ids
  induction ids with
  | nil =>
    intro r f H _ _
    refine ⟨r, rfl, ?_, rfl, fun _ => Iff.rfl⟩
    simpa using H
  | cons i ids ih =>
    intro r f H hn hi
    rw [List.nodup_cons] at hn
    obtain ⟨x, hx, rfl⟩ := List.mem_map.1 (hi i (by simp))
    obtain ⟨r1, h1, h2, h3, h4⟩ := destroy_lists H hx
    obtain ⟨r', g1, g2, g3, g4⟩ := ih r1 _ h2 hn.2 (by
      intro j hj
      obtain ⟨y, hy, rfl⟩ := List.mem_map.1 (hi j (by simp [hj]))
      rw [Function.update_self]
      refine List.mem_map.2 ⟨y, List.mem_filter.2 ⟨hy, ?_⟩, rfl⟩
      simp only [decide_eq_true_eq]
      intro e
      exact hn.1 (e ▸ hj))
    refine ⟨r', by simp only [destroyAll, h1]; exact g1, ?_, g3.trans h3, fun q => (g4 q).trans (not_congr (h4 q))⟩
    rw [Function.update_self, update_twice] at g2
    have : (rmList x.1 (f m)).filter (fun y => decide (y.1 ∉ ids)) =
        (f m).filter fun y => decide (y.1 ∉ x.1 :: ids) := by
      simp only [rmList, List.filter_filter]
      apply List.filter_congr
      intro y _
      simp only [← Bool.decide_and]
      apply decide_eq_decide.2
      simp only [List.mem_cons, not_or]
      tauto
    rw [this] at g2
    exact g2

theorem createAll_spec {m : Nat} : ∀ (ps : List (Pt T X)) (r : Reg (Dat T X)) (f : Nat → List (Nat × Dat T X)),
    Lists r f → r.man m ≠ none → (f m).length + ps.length ≤ 4 →
    ∃ r' new, createAll m ps r = some r' ∧ Lists r' (Function.update f m (new ++ f m)) ∧
      new.map Prod.snd = ps.reverse.map fresh ∧ (∀ x ∈ new, r.nextId ≤ x.1) ∧ r.nextId ≤ r'.nextId ∧
      ∀ q, r'.man q ≠ none ↔ r.man q ≠ none := by
  intro ps
  induction ps with
  | nil =>
    intro r f H _ _
    refine ⟨r, [], rfl, ?_, rfl, by simp, le_refl _, fun _ => Iff.rfl⟩
    simpa using H
  | cons p ps ih =>
    intro r f H hm hc
    simp only [List.length_cons] at hc
    obtain ⟨r1, h1⟩ := create_some (m := m) (d := fresh p) H hm (by omega)
    obtain ⟨h2, h3⟩ := create_lists H h1
    have h4 := create_man h1
    obtain ⟨r', new, g1, g2, g3, g4, g5, g6⟩ := ih r1 _ h2 (fun e => hm ((h4 m).1 e))
      (by rw [Function.update_self, List.length_cons]; omega)
    rw [Function.update_self, update_twice] at g2
    refine ⟨r', new ++ [(r.nextId, fresh p)], by simp only [createAll, h1]; exact g1, by simpa using g2,
      by simp [g3], ?_, by omega, fun q => (g6 q).trans (not_congr (h4 q))⟩
    intro x hx
    rcases List.mem_append.1 hx with hx | hx
    · have := g4 x hx; omega
    · simp at hx; subst hx; exact le_refl _

theorem finishDestroy_spec {info : Nat → List (Pt T X) × List Nat} : ∀ (ms : List Nat) (r : Reg (Dat T X))
    (f : Nat → List (Nat × Dat T X)), Lists r f → ms.Nodup →
    (∀ m ∈ ms, (info m).2.Nodup ∧ ∀ i ∈ (info m).2, i ∈ (f m).map Prod.fst) →
    ∃ r' f', finishDestroy info ms r = some r' ∧ Lists r' f' ∧ r'.nextId = r.nextId ∧
      (∀ q, r'.man q ≠ none ↔ r.man q ≠ none) ∧ (∀ q, q ∉ ms → f' q = f q) ∧
      ∀ m ∈ ms, f' m = (f m).filter fun x => decide (x.1 ∉ (info m).2) := by
  intro ms
  induction ms with
  | nil => intro r f H _ _; exact ⟨r, f, rfl, H, rfl, fun _ => Iff.rfl, fun _ _ => rfl, by simp⟩
  | cons m ms ih =>
    intro r f H hn hi
    rw [List.nodup_cons] at hn
    obtain ⟨r1, h1, h2, h3, h4⟩ := destroyAll_spec (m := m) (info m).2 r f H (hi m (by simp)).1 (hi m (by simp)).2
    have hne : ∀ q ∈ ms, q ≠ m := fun q hq e => hn.1 (e ▸ hq)
    obtain ⟨r', f', g1, g2, g3, g4, g5, g6⟩ := ih r1 _ h2 hn.2 (by
      intro q hq
      rw [Function.update_of_ne (hne q hq)]
      exact hi q (by simp [hq]))
    refine ⟨r', f', by simp only [finishDestroy, h1]; exact g1, g2, g3.trans h3, fun q => (g4 q).trans (h4 q), ?_, ?_⟩
    · intro q hq
      simp only [List.mem_cons, not_or] at hq
      rw [g5 q hq.2, Function.update_of_ne hq.1]
    · intro q hq
      rcases List.mem_cons.1 hq with rfl | hq
      · rw [g5 q hn.1, Function.update_self]
      · rw [g6 q hq, Function.update_of_ne (hne q hq)]

theorem finishCreate_spec {info : Nat → List (Pt T X) × List Nat} : ∀ (ms : List Nat) (r : Reg (Dat T X))
    (f : Nat → List (Nat × Dat T X)), Lists r f → ms.Nodup →
    (∀ m ∈ ms, r.man m ≠ none ∧ (f m).length + (info m).1.length ≤ 4) →
    ∃ r' f', finishCreate info ms r = some r' ∧ Lists r' f' ∧ r.nextId ≤ r'.nextId ∧
      (∀ q, r'.man q ≠ none ↔ r.man q ≠ none) ∧ (∀ q, q ∉ ms → f' q = f q) ∧
      ∀ m ∈ ms, ∃ new, f' m = new ++ f m ∧ new.map Prod.snd = (info m).1.reverse.map fresh ∧
        ∀ x ∈ new, r.nextId ≤ x.1 := by
  intro ms
  induction ms with
  | nil => intro r f H _ _; exact ⟨r, f, rfl, H, le_refl _, fun _ => Iff.rfl, fun _ _ => rfl, by simp⟩
  | cons m ms ih =>
    intro r f H hn hi
    rw [List.nodup_cons] at hn
    obtain ⟨r1, new, h1, h2, h3, h4, h5, h6⟩ := createAll_spec (m := m) (info m).1 r f H (hi m (by simp)).1 (hi m (by simp)).2
    have hne : ∀ q ∈ ms, q ≠ m := fun q hq e => hn.1 (e ▸ hq)
    obtain ⟨r', f', g1, g2, g3, g4, g5, g6⟩ := ih r1 _ h2 hn.2 (by
      intro q hq
      rw [Function.update_of_ne (hne q hq)]
      exact ⟨(h6 q).2 (hi q (by simp [hq])).1, (hi q (by simp [hq])).2⟩)
    refine ⟨r', f', by simp only [finishCreate, h1]; exact g1, g2, le_trans h5 g3, fun q => (g4 q).trans (h6 q), ?_, ?_⟩
    · intro q hq
      simp only [List.mem_cons, not_or] at hq
      rw [g5 q hq.2, Function.update_of_ne hq.1]
    · intro q hq
      rcases List.mem_cons.1 hq with rfl | hq
      · rw [g5 q hn.1, Function.update_self]
        exact ⟨new, rfl, h3, h4⟩
      · obtain ⟨n', k1, k2, k3⟩ := g6 q hq
        rw [Function.update_of_ne (hne q hq)] at k1
        exact ⟨n', k1, k2, fun x hx => le_trans h5 (k3 x hx)⟩

/-- Of the destroyed points each is destroyed once, and is one of the manifold. -/
theorem Planned.gone {e : Env T X} {res : List (Pt T X)} {l : List (Nat × Dat T X)} {a : A T X}
    (hn : (l.map Prod.fst).Nodup) (h4 : l.length ≤ 4) (h : Planned e res l a) :
    a.gone.Nodup ∧ (∀ i ∈ a.gone, i ∈ a.l.map Prod.fst) ∧ a.l.map Prod.fst = l.map Prod.fst := by
  have hids := plan1_ids e res l []
  have hg := plan1_gone_nodup e res l [] hn
  have key : ∀ (ls : List (Local T X)) (a : A T X), (ls.filterMap Local.id).Nodup →
      (∀ i ∈ ls.filterMap Local.id, i ∈ a.l.map Prod.fst ∧ i ∉ a.gone) → a.gone.Nodup →
      (∀ i ∈ a.gone, i ∈ a.l.map Prod.fst) → a.l.map Prod.fst = l.map Prod.fst →
      (planLocals ls a).gone.Nodup ∧ (∀ i ∈ (planLocals ls a).gone, i ∈ (planLocals ls a).l.map Prod.fst) ∧
        (planLocals ls a).l.map Prod.fst = l.map Prod.fst := by
    intro ls
    induction ls with
    | nil => intro a _ _ h1 h2 h3; exact ⟨h1, h2, h3⟩
    | cons x ls ih =>
      intro a hd hi h1 h2 h3
      simp only [planLocals]
      have tail : (ls.filterMap Local.id).Nodup ∧ ∀ i ∈ ls.filterMap Local.id, i ∈ a.l.map Prod.fst ∧ i ∉ a.gone := by
        cases hid : x.id with
        | none =>
          have e1 : (x :: ls).filterMap Local.id = ls.filterMap Local.id := by simp [hid]
          rw [e1] at hd hi
          exact ⟨hd, hi⟩
        | some i =>
          have e1 : (x :: ls).filterMap Local.id = i :: ls.filterMap Local.id := by simp [hid]
          rw [e1] at hd hi
          exact ⟨(List.nodup_cons.1 hd).2, fun j hj => hi j (List.mem_cons_of_mem _ hj)⟩
      cases hk : x.kind with
      | none => simp only [planLocal, hk]; exact ih a tail.1 tail.2 h1 h2 h3
      | append => simp only [planLocal, hk]; exact ih _ tail.1 tail.2 h1 h2 h3
      | similar =>
        cases hid : x.id with
        | none => simp only [planLocal, hk, hid]; exact ih _ tail.1 tail.2 h1 h2 h3
        | some i =>
          simp only [planLocal, hk, hid]
          exact ih _ tail.1 (by simp only [modList_ids]; exact tail.2) h1 (by simp only [modList_ids]; exact h2)
            (by simp only [modList_ids]; exact h3)
      | replace =>
        cases hid : x.id with
        | none => simp only [planLocal, hk, hid]; exact ih _ tail.1 tail.2 h1 h2 h3
        | some i =>
          have e1 : (x :: ls).filterMap Local.id = i :: ls.filterMap Local.id := by simp [hid]
          rw [e1] at hd hi
          have hii := hi i (by simp)
          simp only [planLocal, hk, hid]
          refine ih _ tail.1 ?_ ?_ ?_ h3
          · intro j hj
            refine ⟨(tail.2 j hj).1, ?_⟩
            simp only [List.mem_append, List.mem_singleton, not_or]
            refine ⟨(tail.2 j hj).2, ?_⟩
            rintro rfl
            exact (List.nodup_cons.1 hd).1 hj
          · rw [List.nodup_append]
            refine ⟨h1, by simp, ?_⟩
            intro j hj k hk e
            simp at hk
            subst hk
            subst e
            exact hii.2 hj
          · intro j hj
            rcases List.mem_append.1 hj with hj | hj
            · exact h2 j hj
            · simp at hj; subst hj; exact hii.1
  cases h with
  | early _ => exact ⟨hg, by simp only [hids.1]; exact hids.2, hids.1⟩
  | some ls _ hne hp =>
    set a0 : A T X := ⟨(plan1 e res l []).1, [], (plan1 e res l []).2.2⟩ with ha0
    have hnd : (a0.l.map Prod.fst).Nodup := by simp only [ha0]; rw [hids.1]; exact hn
    have hlen : (plan1 e res l []).1.length = l.length := by
      have := congrArg List.length hids.1
      simpa using this
    have hle : a0.live.length ≤ 4 := by
      have : a0.live.length ≤ a0.l.length := List.length_filter_le _ _
      simp only [ha0] at this ⊢
      omega
    have hgood : Good (a0.live.map Prod.fst)
        (a0.live.map fun x => ({ pt := x.2.pt, id := Option.some x.1 } : Local T X)) := by
      refine ⟨by rw [List.length_map]; exact hle, ?_, ?_, ?_⟩
      · rw [List.filterMap_map]
        exact List.filterMap_eq_map' (f := Prod.fst) ▸ rfl
      · intro x hx hxn
        obtain ⟨y, -, rfl⟩ := List.mem_map.1 hx
        cases hxn
      · intro x hx hxn
        obtain ⟨y, -, rfl⟩ := List.mem_map.1 hx
        cases hxn
    obtain ⟨ls', g1, g2, -⟩ := good_placeAll (c := e.c) (mg := (plan1 e res l []).2.1) res 0 _ hgood
    rw [hp] at g1
    cases g1
    refine key ls a0 (by rw [g2.ids]; exact live_nodup hnd) ?_ hg (by simp only [ha0, hids.1]; exact hids.2) hids.1
    rw [g2.ids]
    intro i hi
    obtain ⟨x, hx, rfl⟩ := List.mem_map.1 hi
    obtain ⟨h1, h2⟩ := A.mem_live.1 hx
    exact ⟨List.mem_map.2 ⟨x, h1, rfl⟩, h2⟩
  | none p ps ls _ hne hr hp =>
    have hgood : Good [] [({ pt := p, kind := .append } : Local T X)] :=
      ⟨by simp, by simp, by simp, by simp⟩
    obtain ⟨ls', g1, g2, -⟩ := good_placeAll (c := e.c) (mg := 0 :: (plan1 e res l []).2.1) res 0 _ hgood
    rw [hp] at g1
    cases g1
    have hids0 := g2.ids
    exact key ls _ (by rw [hids0]; exact List.nodup_nil) (by rw [hids0]; simp) hg
      (by simp only [hids.1]; exact hids.2) hids.1

theorem parStep_spec (e : Nat → Env T X) (res : Nat → List (Pt T X)) {order view : List Nat} {r : Reg (Dat T X)}
    {f : Nat → List (Nat × Dat T X)} (H : Lists r f) (hn : view.Nodup) (hp : order.Perm view)
    (hm : ∀ m ∈ view, r.man m ≠ none ∧ (f m).length ≤ 4) :
    ∃ r' f', parStep e res order view r = some r' ∧ Lists r' f' ∧ r.nextId ≤ r'.nextId ∧
      (∀ q, r'.man q ≠ none ↔ r.man q ≠ none) ∧ (∀ q, q ∉ view → f' q = f q) ∧
      ∀ m ∈ view, ∃ a, Planned (e m) (res m) (f m) a ∧ After r.nextId a (f' m) ∧
        a.live.length + a.made.length ≤ 4 := by
  obtain ⟨r1, info, f1, h1, h2, h3, h4, h5, h6⟩ := detectPar_spec e res order r f (fun _ => ([], [])) H
    (hp.nodup_iff.2 hn) (fun m hmm => hm m (hp.mem_iff.1 hmm))
  obtain ⟨r2, f2, g1, g2, g3, g4, g5, g6⟩ := finishDestroy_spec (info := info) view r1 f1 h2 hn (by
    intro m hmv
    obtain ⟨a, k1, k2, k3, -⟩ := h6 m (hp.mem_iff.2 hmv)
    obtain ⟨q1, q2, q3⟩ := k1.gone (H.nodup m) (hm m hmv).2
    rw [k2, k3]
    exact ⟨q1, q2⟩)
  have hlive : ∀ m ∈ view, ∃ a, Planned (e m) (res m) (f m) a ∧ f2 m = a.live ∧ (info m).1 = a.made ∧
      a.live.length + a.made.length ≤ 4 := by
    intro m hmv
    obtain ⟨a, k1, k2, k3, k4⟩ := h6 m (hp.mem_iff.2 hmv)
    refine ⟨a, k1, ?_, by rw [k3], k4⟩
    rw [g6 m hmv, k2, k3]
    rfl
  obtain ⟨r3, f3, l1, l2, l3, l4, l5, l6⟩ := finishCreate_spec (info := info) view r2 f2 g2 hn (by
    intro m hmv
    obtain ⟨a, k1, k2, k3, k4⟩ := hlive m hmv
    exact ⟨(g4 m).2 ((h4 m).2 (hm m hmv).1), by rw [k2, k3]; exact k4⟩)
  refine ⟨r3, f3, ?_, l2, by omega, fun q => ((l4 q).trans (g4 q)).trans (h4 q), ?_, ?_⟩
  · simp only [parStep, h1, g1]
    exact l1
  · intro q hq
    rw [l5 q hq, g5 q hq, (h5 q fun h => hq (hp.mem_iff.1 h)).1]
  · intro m hmv
    obtain ⟨a, k1, k2, k3, k4⟩ := hlive m hmv
    obtain ⟨new, q1, q2, q3⟩ := l6 m hmv
    exact ⟨a, k1, ⟨new, by rw [q1, k2], by rw [q2, k3], fun x hx => by have := q3 x hx; omega⟩, k4⟩

/-! ### Import -/

theorem importVisit_spec {m : Nat} {near : Pt T X → List (Dat T X) → Nat} {info : List (Dat T X)}
    {f : Nat → List (Nat × Dat T X)} : ∀ (l pre : List (Nat × Dat T X)) (fuel : Nat) (r : Reg (Dat T X)) (mg : List Nat),
    Lists r (Function.update f m (pre ++ l)) → r.man m ≠ none → l.length ≤ fuel →
    ∃ r' mg' out, importVisit near info fuel (headOf l) r mg = some (r', mg') ∧
      Lists r' (Function.update f m (pre ++ out)) ∧ r'.nextId = r.nextId ∧
      (∀ q, r'.man q ≠ none ↔ r.man q ≠ none) ∧ (out.map Prod.fst).Sublist (l.map Prod.fst) ∧
      ((out.map Prod.snd : List (Dat T X)) : Multiset (Dat T X)) + (unused mg' info 0 : List (Dat T X)) =
        (unused mg info 0 : List (Dat T X)) := by
  intro l
  induction l with
  | nil =>
    intro pre fuel r mg H hm _
    refine ⟨r, mg, [], by cases fuel <;> rfl, H, rfl, fun _ => Iff.rfl, by simp, by simp⟩
  | cons x l ih =>
    obtain ⟨id, d⟩ := x
    intro pre fuel r mg H hm hf
    cases fuel with
    | zero => simp at hf
    | succ fuel =>
      have hf' : l.length ≤ fuel := by simpa using hf
      have hmem : (id, d) ∈ Function.update f m (pre ++ (id, d) :: l) m := by
        rw [Function.update_self]; simp
      obtain ⟨st, hst⟩ := Option.ne_none_iff_exists'.1 hm
      have w := H.walk m st hst
      rw [Function.update_self] at w
      have w' := w.suffix
      have hnd := H.nodup m
      rw [Function.update_self] at hnd
      have hnd' := hnd
      rw [List.map_append, List.nodup_append] at hnd'
      obtain ⟨-, hnd2, hnd3⟩ := hnd'
      simp only [List.map_cons, List.nodup_cons] at hnd2
      have hcp : r.cp id = some ⟨m, headOf l, d⟩ := by
        cases w' with
        | @cons _ _ nx _ hk w => rw [hk, w.head]
      have hdel : ∃ r1, destroy r id = some r1 ∧ Lists r1 (Function.update f m (pre ++ l)) ∧ r1.nextId = r.nextId ∧
          ∀ q, r1.man q ≠ none ↔ r.man q ≠ none := by
        obtain ⟨r1, h1, h2, h3, h4⟩ := destroy_lists H hmem
        rw [Function.update_self, update_twice] at h2
        have e1 : rmList id (pre ++ (id, d) :: l) = pre ++ l := by
          have a1 : rmList id pre = pre := rmList_of_not_mem fun y hy e =>
            hnd3 y.1 (List.mem_map.2 ⟨y, hy, rfl⟩) id (by simp) e
          have a2 : rmList id l = l := rmList_of_not_mem fun y hy e => hnd2.1 (List.mem_map.2 ⟨y, hy, e⟩)
          have a3 : rmList id ((id, d) :: l) = rmList id l := by simp [rmList]
          rw [rmList, List.filter_append]
          exact congrArg₂ (· ++ ·) a1 (a3.trans a2)
        simp only at h2
        rw [e1] at h2
        exact ⟨r1, h1, h2, h3, fun q => not_congr (h4 q)⟩
      have hdrop : ∃ r' mg' out, (match destroy r id with
            | none => none
            | some r => importVisit near info fuel (headOf l) r mg) = some (r', mg') ∧
          Lists r' (Function.update f m (pre ++ out)) ∧ r'.nextId = r.nextId ∧
          (∀ q, r'.man q ≠ none ↔ r.man q ≠ none) ∧ (out.map Prod.fst).Sublist (((id, d) :: l).map Prod.fst) ∧
          ((out.map Prod.snd : List (Dat T X)) : Multiset (Dat T X)) + (unused mg' info 0 : List (Dat T X)) =
            (unused mg info 0 : List (Dat T X)) := by
        obtain ⟨r1, h1, h2, h3, h4⟩ := hdel
        obtain ⟨r', mg', out, g1, g2, g3, g4, g5, g6⟩ := ih pre fuel r1 mg h2 ((h4 m).2 hm) hf'
        exact ⟨r', mg', out, by rw [h1]; exact g1, g2, g3.trans h3, fun q => (g4 q).trans (h4 q),
          g5.cons _, g6⟩
      simp only [headOf, List.head?_cons, Option.map_some, importVisit, hcp]
      by_cases hmg : near d.pt info ∉ mg
      · rw [if_pos hmg]
        cases hi : info[near d.pt info]? with
        | none => exact hdrop
        | some d' =>
          simp only
          obtain ⟨r1, h1, h2, h3, h4⟩ := modify_lists (g := fun _ => d') H hmem
          rw [Function.update_self, update_twice, modList_at hnd] at h2
          simp only at h1
          rw [h1]
          simp only
          obtain ⟨r', mg', out, g1, g2, g3, g4, g5, g6⟩ := ih (pre ++ [(id, d')]) fuel r1 (near d.pt info :: mg)
            (by simpa using h2) (by rw [h4]; exact hm) hf'
          refine ⟨r', mg', (id, d') :: out, g1, by simpa using g2, g3.trans h3, fun q => by rw [g4, h4],
            by simpa using g5, ?_⟩
          obtain ⟨hlt, hd'⟩ := List.getElem?_eq_some_iff.1 hi
          have hu := unused_perm mg info 0 (near d.pt info) hlt (by simpa using hmg)
          rw [Nat.zero_add] at hu
          rw [hu, ← g6, hd', List.map_cons, ← Multiset.cons_coe, Multiset.cons_add]
      · rw [if_neg hmg]
        exact hdrop

theorem importNew_spec {m : Nat} {mg : List Nat} : ∀ (ds : List (Dat T X)) (i : Nat) (r : Reg (Dat T X))
    (f : Nat → List (Nat × Dat T X)), Lists r f → r.man m ≠ none →
    (f m).length + (unused mg ds i).length ≤ 4 →
    ∃ r' new, importNew m mg ds i r = some r' ∧ Lists r' (Function.update f m (new ++ f m)) ∧
      new.map Prod.snd = (unused mg ds i).reverse.map (fun d => fresh d.pt) ∧ (∀ x ∈ new, r.nextId ≤ x.1) ∧
      r.nextId ≤ r'.nextId ∧ ∀ q, r'.man q ≠ none ↔ r.man q ≠ none := by
  intro ds
  induction ds with
  | nil =>
    intro i r f H _ _
    refine ⟨r, [], rfl, ?_, rfl, by simp, le_refl _, fun _ => Iff.rfl⟩
    simpa using H
  | cons d ds ih =>
    intro i r f H hm hc
    simp only [importNew]
    by_cases hmg : i ∈ mg
    · rw [if_pos hmg]
      simp only [unused, if_pos hmg] at hc ⊢
      exact ih (i + 1) r f H hm hc
    · rw [if_neg hmg]
      simp only [unused, if_neg hmg, List.length_cons] at hc ⊢
      obtain ⟨r1, h1⟩ := create_some (m := m) (d := fresh d.pt) H hm (by omega)
      obtain ⟨h2, h3⟩ := create_lists H h1
      have h4 := create_man h1
      obtain ⟨r', new, g1, g2, g3, g4, g5, g6⟩ := ih (i + 1) r1 _ h2 (fun e => hm ((h4 m).1 e))
        (by rw [Function.update_self, List.length_cons]; omega)
      rw [Function.update_self, update_twice] at g2
      refine ⟨r', new ++ [(r.nextId, fresh d.pt)], by rw [h1]; exact g1, by simpa using g2,
        by simp [g3], ?_, by omega, fun q => (g6 q).trans (not_congr (h4 q))⟩
      intro x hx
      rcases List.mem_append.1 hx with hx | hx
      · have := g4 x hx; omega
      · simp at hx; subst hx; exact le_refl _

theorem replaceManifold_spec {r : Reg (Dat T X)} {f : Nat → List (Nat × Dat T X)} (H : Lists r f)
    (near : Pt T X → List (Dat T X) → Nat) {m : Nat} (info : List (Dat T X)) (hm : r.man m ≠ none)
    (h4 : info.length ≤ 4) :
    ∃ r' new old, replaceManifold near m info r = some r' ∧ Lists r' (Function.update f m (new ++ old)) ∧
      (∀ q, r'.man q ≠ none ↔ r.man q ≠ none) ∧ r.nextId ≤ r'.nextId ∧
      (old.map Prod.fst).Sublist ((f m).map Prod.fst) ∧ (∀ x ∈ new, r.nextId ≤ x.1) ∧
      ∃ us : List (Dat T X), new.map Prod.snd = us.map (fun d => fresh d.pt) ∧
        ((old.map Prod.snd : List (Dat T X)) : Multiset (Dat T X)) + (us : List (Dat T X)) = (info : List (Dat T X)) := by
  obtain ⟨st, hst⟩ := Option.ne_none_iff_exists'.1 hm
  obtain ⟨r1, mg, out, h1, h2, h3, h5, h6, h7⟩ := importVisit_spec (near := near) (info := info) (f := f) (m := m)
    (f m) [] r.nextId r [] (by rw [List.nil_append, Function.update_eq_self]; exact H) hm (H.length_le m)
  rw [List.nil_append] at h2
  rw [unused_nil] at h7
  have hlen := congrArg Multiset.card h7
  simp only [Multiset.card_add, Multiset.coe_card, List.length_map] at hlen
  obtain ⟨r', new, g1, g2, g3, g4, g5, g6⟩ := importNew_spec (m := m) (mg := mg) info 0 r1 _ h2 ((h5 m).2 hm)
    (by rw [Function.update_self]; omega)
  rw [Function.update_self, update_twice] at g2
  refine ⟨r', new, out, ?_, g2, fun q => (g6 q).trans (h5 q), by omega, h6, fun x hx => by have := g4 x hx; omega,
    (unused mg info 0).reverse, g3, ?_⟩
  · simp only [replaceManifold, hst]
    rw [(H.walk m st hst).head, h1]
    exact g1
  · rw [Multiset.coe_reverse]; exact h7

end Edyn.Contact
