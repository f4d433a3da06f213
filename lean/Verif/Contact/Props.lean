import Verif.Contact.Step

/-!
# C33: contact points and their manifolds
-/

namespace Edyn.Contact

open Edyn.Math

variable {T : Type} [Field T] [LinearOrder T] [IsStrictOrderedRing T] {X : Type}

/-! ### Histories -/

/-- The calls that change contact points. -/
inductive Op (T X : Type) where
  | make (m : Nat)
  | destroy (m : Nat)
  | clear (m : Nat)
  | seq (e : Nat → Env T X) (res : Nat → List (Pt T X)) (ms : List Nat)
  | par (e : Nat → Env T X) (res : Nat → List (Pt T X)) (order view : List Nat)
  | replace (near : Pt T X → List (Dat T X) → Nat) (m : Nat) (info : List (Dat T X))
  | impulse (id : Nat) (v : V3 T)

/-- `make_contact_manifold`, `destroy_separated_manifolds`, `clear_contact_manifold`, the two versions of
the narrowphase and `replace_manifold`; the files are cited at each of the functions. `impulse`: the
solver stores the impulse applied at a contact point, `src/edyn/constraints/contact_constraint.cpp`
92-97. -/
def step : Op T X → Reg (Dat T X) → Option (Reg (Dat T X))
  | .make m, r => makeManifold r m
  | .destroy m, r => destroyManifold r m
  | .clear m, r => clear r m
  | .seq e res ms, r => seqStep e res ms r
  | .par e res order view, r => parStep e res order view r
  | .replace near m info, r => replaceManifold near m info r
  | .impulse id v, r => modify r id fun d => { d with imp := v }

/-- When the library makes these calls: on existing manifolds, once on each in a step; a packet carries
at most four points per manifold. -/
def Legal (r : Reg (Dat T X)) : Op T X → Prop
  | .make m => r.man m = none
  | .destroy m => r.man m ≠ none
  | .clear m => r.man m ≠ none
  | .seq _ _ ms => ms.Nodup ∧ ∀ m ∈ ms, r.man m ≠ none
  | .par _ _ order view => view.Nodup ∧ order.Perm view ∧ ∀ m ∈ view, r.man m ≠ none
  | .replace _ m info => r.man m ≠ none ∧ info.length ≤ 4
  | .impulse id _ => r.cp id ≠ none

inductive Reach : Reg (Dat T X) → Prop
  | start : Reach {}
  | step {r r' : Reg (Dat T X)} {o : Op T X} : Reach r → Legal r o → step o r = some r' → Reach r'

theorem step_spec {r : Reg (Dat T X)} {f : Nat → List (Nat × Dat T X)} (H : Lists r f)
    (h4 : ∀ m, (f m).length ≤ 4) {o : Op T X} (ho : Legal r o) :
    ∃ r' f', step o r = some r' ∧ Lists r' f' ∧ ∀ m, (f' m).length ≤ 4 := by
  cases o with
  | make m =>
    have hm : r.man m = none := ho
    have hs : makeManifold r m = some { r with man := Function.update r.man m (some {}) } := by
      simp only [makeManifold, hm]
    exact ⟨_, f, hs, makeManifold_lists H hs, h4⟩
  | destroy m =>
    obtain ⟨r', h1, h2⟩ := destroyManifold_lists H ho
    refine ⟨r', _, h1, h2.1, ?_⟩
    intro q
    by_cases e : q = m
    · subst e; rw [Function.update_self]; simp
    · rw [Function.update_of_ne e]; exact h4 q
  | clear m =>
    obtain ⟨r', h1, h2, -⟩ := clear_lists H ho
    refine ⟨r', _, h1, h2, ?_⟩
    intro q
    by_cases e : q = m
    · subst e; rw [Function.update_self]; simp
    · rw [Function.update_of_ne e]; exact h4 q
  | seq e res ms =>
    obtain ⟨r', f', h1, h2, -, -, h5, h6⟩ := seqStep_spec e res ms r f H ho.1 fun m hm => ⟨ho.2 m hm, h4 m⟩
    refine ⟨r', f', h1, h2, ?_⟩
    intro q
    by_cases hq : q ∈ ms
    · exact (h6 q hq).2.1
    · rw [h5 q hq]; exact h4 q
  | par e res order view =>
    obtain ⟨r', f', h1, h2, -, -, h5, h6⟩ := parStep_spec e res H ho.1 ho.2.1 fun m hm => ⟨ho.2.2 m hm, h4 m⟩
    refine ⟨r', f', h1, h2, ?_⟩
    intro q
    by_cases hq : q ∈ view
    · obtain ⟨a, -, k2, k3⟩ := h6 q hq
      rw [k2.length]; exact k3
    · rw [h5 q hq]; exact h4 q
  | replace near m info =>
    obtain ⟨r', new, old, h1, h2, -, -, -, -, us, h6, h7⟩ := replaceManifold_spec H near info ho.1 ho.2
    refine ⟨r', _, h1, h2, ?_⟩
    intro q
    by_cases e : q = m
    · subst e
      rw [Function.update_self]
      have l1 := congrArg List.length h6
      have l2 := congrArg Multiset.card h7
      simp only [List.length_map, Multiset.card_add, Multiset.coe_card] at l1 l2
      have := ho.2
      rw [List.length_append]; omega
    · rw [Function.update_of_ne e]; exact h4 q
  | impulse id v =>
    obtain ⟨k, hk⟩ := Option.ne_none_iff_exists'.1 ho
    obtain ⟨r', h1, h2, -⟩ := modify_lists (x := (id, k.data)) (g := fun d => { d with imp := v }) H (H.listed id k hk)
    refine ⟨r', _, h1, h2, ?_⟩
    intro q
    by_cases e : q = k.parent
    · subst e; rw [Function.update_self]; simp only [modList, List.length_map]; exact h4 _
    · rw [Function.update_of_ne e]; exact h4 q

/-- Whatever happened before, each manifold has a list of at most four points that ends, whose length is
the number stored with the manifold; every contact point is in the list of its parent and in no other. -/
theorem contact_lists {r : Reg (Dat T X)} (h : Reach r) :
    ∃ f : Nat → List (Nat × Dat T X), Lists r f ∧ ∀ m, (f m).length ≤ 4 := by
  induction h with
  | start => exact ⟨_, start_lists, by simp⟩
  | step _ ho hs ih =>
    obtain ⟨f, H, h4⟩ := ih
    obtain ⟨r', f', h1, h2, h3⟩ := step_spec H h4 ho
    rw [hs] at h1
    cases h1
    exact ⟨f', h2, h3⟩

/-- None of the calls fails: no missing component is accessed, no assertion is violated, no array is
accessed out of range, and the loops end. -/
theorem contact_calls_succeed {r : Reg (Dat T X)} (h : Reach r) {o : Op T X} (ho : Legal r o) :
    ∃ r', step o r = some r' := by
  obtain ⟨f, H, h4⟩ := contact_lists h
  obtain ⟨r', f', h1, -⟩ := step_spec H h4 ho
  exact ⟨r', h1⟩

/-- The lists are determined by the registry. -/
theorem Lists.eq {D : Type} {r : Reg D} {f g : Nat → List (Nat × D)} (hf : Lists r f) (hg : Lists r g) : f = g := by
  have key : ∀ (m : Nat) (l : List (Nat × D)) (h : Option Nat) (l' : List (Nat × D)), Walk r m h l → Walk r m h l' →
      l = l' := by
    intro m l
    induction l with
    | nil => intro h l' w w'; cases w; cases w'; rfl
    | cons x l ih =>
      intro h l' w w'
      cases w with
      | @cons id d nx _ hk w =>
        cases w' with
        | @cons _ d' nx' l'' hk' w' =>
          rw [hk] at hk'
          simp only [Option.some.injEq, CP.mk.injEq, true_and] at hk'
          obtain ⟨rfl, rfl⟩ := hk'
          rw [ih _ _ w w']
  funext m
  cases hm : r.man m with
  | none => rw [hf.absent m hm, hg.absent m hm]
  | some st => exact key m _ _ _ (hf.walk m st hm) (hg.walk m st hm)

/-! ### One step of the narrowphase -/

/-- A step of the narrowphase, sequential or parallel: what becomes of the points of a manifold.

* at most four, and at least one when the collision result has a point;
* an old point that is left is one step older and has its impulses; its geometry is that of a point of
  the result, or unchanged, and then it is not separating;
* a new point has the geometry of a point of the result, age zero and no impulse;
* no point of the result and no old point is used for two points. -/
def PointsAfter (e : Env T X) (res : List (Pt T X)) (n : Nat) (old new : List (Nat × Dat T X)) : Prop :=
  new.length ≤ 4 ∧ (res ≠ [] → new ≠ []) ∧
  (∀ x ∈ new,
    (∃ d, (x.1, d) ∈ old ∧ x.2.life = d.life + 1 ∧ x.2.imp = d.imp ∧
      (x.2.pt = d.pt ∧ e.breaks d.pt = false ∨ x.2.pt ∈ res)) ∨
    (n ≤ x.1 ∧ x.2.life = 0 ∧ x.2.imp = 0 ∧ x.2.pt ∈ res)) ∧
  ((new.map fun x => x.2.pt : List (Pt T X)) : Multiset (Pt T X)) ≤
    ((old.map fun x => x.2.pt : List (Pt T X)) : Multiset (Pt T X)) + (res : List (Pt T X))

theorem pointsAfter_of {e : Env T X} {res : List (Pt T X)} {n : Nat} {old new : List (Nat × Dat T X)} {a : A T X}
    (hn : (old.map Prod.fst).Nodup) (h4 : old.length ≤ 4) (hp : Planned e res old a) (ha : After n a new)
    (hl : new.length ≤ 4) (hne : res ≠ [] → new ≠ []) : PointsAfter e res n old new := by
  obtain ⟨h1, h2⟩ := hp.facts
  have h3 := hp.pts hn h4
  obtain ⟨nw, rfl, k2, k3⟩ := ha
  refine ⟨hl, hne, ?_, ?_⟩
  · intro x hx
    rcases List.mem_append.1 hx with hx | hx
    · right
      have : x.2 ∈ nw.map Prod.snd := List.mem_map.2 ⟨x, hx, rfl⟩
      rw [k2] at this
      obtain ⟨p, hp', e1⟩ := List.mem_map.1 this
      rw [List.mem_reverse] at hp'
      rw [← e1]
      exact ⟨k3 x hx, rfl, rfl, h2 p hp'⟩
    · left
      exact h1 x hx
  · refine le_trans (le_of_eq ?_) h3
    have e1 : (nw.map fun x => x.2.pt) = a.made.reverse := by
      have := congrArg (List.map Dat.pt) k2
      simpa [Function.comp_def, fresh] using this
    rw [List.map_append, e1, ← Multiset.coe_add, Multiset.coe_reverse, add_comm]
    rfl

theorem planned_nonempty {e : Env T X} {res : List (Pt T X)} {r : Reg (Dat T X)} {f : Nat → List (Nat × Dat T X)}
    {m : Nat} (H : Lists r f) (hm : r.man m ≠ none) (h4 : (f m).length ≤ 4) {a : A T X} (hp : Planned e res (f m) a)
    (hr : res ≠ []) : a.live.length + a.made.length ≠ 0 := by
  obtain ⟨s', l', b, -, -, h3, h5, -, -, -, h8⟩ := seq_one H e res hm h4
  rw [hp.unique h3, ← h5.length]
  exact fun e => h8 hr (List.length_eq_zero_iff.1 e)

theorem narrowphase_sequential {r : Reg (Dat T X)} {f : Nat → List (Nat × Dat T X)} (h : Reach r) (H : Lists r f)
    {e : Nat → Env T X} {res : Nat → List (Pt T X)} {ms : List Nat} (hn : ms.Nodup) (hm : ∀ m ∈ ms, r.man m ≠ none) :
    ∃ r' f', seqStep e res ms r = some r' ∧ Lists r' f' ∧ (∀ q, q ∉ ms → f' q = f q) ∧
      ∀ m ∈ ms, PointsAfter (e m) (res m) r.nextId (f m) (f' m) := by
  obtain ⟨g, Hg, h4⟩ := contact_lists h
  rw [Hg.eq H] at h4
  obtain ⟨r', f', h1, h2, -, -, h5, h6⟩ := seqStep_spec e res ms r f H hn fun m hmm => ⟨hm m hmm, h4 m⟩
  refine ⟨r', f', h1, h2, h5, fun m hmm => ?_⟩
  obtain ⟨⟨a, k1, k2⟩, k3, k4⟩ := h6 m hmm
  exact pointsAfter_of (H.nodup m) (h4 m) k1 k2 k3 k4

theorem narrowphase_parallel {r : Reg (Dat T X)} {f : Nat → List (Nat × Dat T X)} (h : Reach r) (H : Lists r f)
    {e : Nat → Env T X} {res : Nat → List (Pt T X)} {order view : List Nat} (hn : view.Nodup) (hp : order.Perm view)
    (hm : ∀ m ∈ view, r.man m ≠ none) :
    ∃ r' f', parStep e res order view r = some r' ∧ Lists r' f' ∧ (∀ q, q ∉ view → f' q = f q) ∧
      ∀ m ∈ view, PointsAfter (e m) (res m) r.nextId (f m) (f' m) := by
  obtain ⟨g, Hg, h4⟩ := contact_lists h
  rw [Hg.eq H] at h4
  obtain ⟨r', f', h1, h2, -, -, h5, h6⟩ := parStep_spec e res H hn hp fun m hmm => ⟨hm m hmm, h4 m⟩
  refine ⟨r', f', h1, h2, h5, fun m hmm => ?_⟩
  obtain ⟨a, k1, k2, k3⟩ := h6 m hmm
  refine pointsAfter_of (H.nodup m) (h4 m) k1 k2 (by rw [k2.length]; exact k3) ?_
  intro hr e0
  have := k2.length
  rw [e0] at this
  exact planned_nonempty H (hm m hmm) (h4 m) k1 hr this.symm

/-- The sequential and the parallel narrowphase, for the same manifolds and with the tasks in any order,
give every manifold the same points in the same order, with the same entities for the old ones. -/
theorem parallel_same_as_sequential {r : Reg (Dat T X)} (h : Reach r) {e : Nat → Env T X}
    {res : Nat → List (Pt T X)} {order view ms : List Nat} (hn : view.Nodup) (hp : order.Perm view)
    (hms : ms.Perm view) (hm : ∀ m ∈ view, r.man m ≠ none) :
    ∃ r₁ f₁ r₂ f₂, seqStep e res ms r = some r₁ ∧ Lists r₁ f₁ ∧ parStep e res order view r = some r₂ ∧
      Lists r₂ f₂ ∧ ∀ m, (f₁ m).map Prod.snd = (f₂ m).map Prod.snd ∧
        (f₁ m).filter (fun x => decide (x.1 < r.nextId)) = (f₂ m).filter (fun x => decide (x.1 < r.nextId)) := by
  obtain ⟨f, H, h4⟩ := contact_lists h
  obtain ⟨r1, f1, h1, h2, -, -, h5, h6⟩ := seqStep_spec e res ms r f H (hms.nodup_iff.2 hn)
    fun m hmm => ⟨hm m (hms.mem_iff.1 hmm), h4 m⟩
  obtain ⟨r2, f2, g1, g2, -, -, g5, g6⟩ := parStep_spec e res H hn hp fun m hmm => ⟨hm m hmm, h4 m⟩
  refine ⟨r1, f1, r2, f2, h1, h2, g1, g2, ?_⟩
  intro m
  by_cases hv : m ∈ view
  · obtain ⟨⟨a, k1, k2⟩, -, -⟩ := h6 m (hms.mem_iff.2 hv)
    obtain ⟨b, l1, l2, -⟩ := g6 m hv
    cases k1.unique l1
    obtain ⟨n1, e1, d1, i1⟩ := k2
    obtain ⟨n2, e2, d2, i2⟩ := l2
    rw [e1, e2]
    refine ⟨by rw [List.map_append, List.map_append, d1, d2], ?_⟩
    have hz : ∀ n : List (Nat × Dat T X), (∀ x ∈ n, r.nextId ≤ x.1) →
        n.filter (fun x => decide (x.1 < r.nextId)) = [] := by
      intro n hn'
      rw [List.filter_eq_nil_iff]
      intro x hx
      have := hn' x hx
      simp only [decide_eq_true_eq]
      omega
    rw [List.filter_append, List.filter_append, hz n1 i1, hz n2 i2]
  · have hv' : m ∉ ms := fun h => hv (hms.mem_iff.1 h)
    rw [h5 m hv', g5 m hv]
    exact ⟨rfl, rfl⟩

/-- The lists determine the components. -/
theorem Lists.cp_of {D : Type} {r r' : Reg D} {f f' : Nat → List (Nat × D)} (H : Lists r f) (H' : Lists r' f') {q : Nat}
    (e : f q = f' q) {x : Nat × D} (hx : x ∈ f q) : r.cp x.1 = r'.cp x.1 := by
  obtain ⟨pre, post, hs⟩ := List.append_of_mem hx
  have one : ∀ {r : Reg D} {f : Nat → List (Nat × D)}, Lists r f → f q = pre ++ x :: post →
      r.cp x.1 = some ⟨q, headOf post, x.2⟩ := by
    intro r f H hs
    obtain ⟨i, d⟩ := x
    obtain ⟨st, hst⟩ := H.man_of_mem (m := q) (x := (i, d)) (by rw [hs]; simp)
    have w := H.walk q st hst
    rw [hs] at w
    have w' := w.suffix
    cases w' with
    | @cons _ _ nx _ hk w => rw [hk, w.head]
  rw [one H hs, one H' (e ▸ hs)]

theorem Lists.man_of {D : Type} {r r' : Reg D} {f f' : Nat → List (Nat × D)} (H : Lists r f) (H' : Lists r' f') {q : Nat}
    (e : (f q).map Prod.fst = (f' q).map Prod.fst) (hx : r.man q ≠ none ↔ r'.man q ≠ none) : r.man q = r'.man q := by
  have hh : headOf (f q) = headOf (f' q) := by
    have := congrArg List.head? e
    simpa [headOf, List.head?_map] using this
  have hl : (f q).length = (f' q).length := by
    have := congrArg List.length e
    simpa using this
  cases h1 : r.man q with
  | none =>
    cases h2 : r'.man q with
    | none => rfl
    | some st => exact absurd h1 (hx.2 (by simp [h2]))
  | some st =>
    cases h2 : r'.man q with
    | none => exact absurd h2 (hx.1 (by simp [h1]))
    | some st' =>
      obtain ⟨n, hd⟩ := st
      obtain ⟨n', hd'⟩ := st'
      have a1 := H.num q _ h1
      have a2 := H'.num q _ h2
      have b1 := (H.walk q _ h1).head
      have b2 := (H'.walk q _ h2).head
      simp only at a1 a2 b1 b2
      rw [a1, a2, b1, b2, hh, hl]

/-- A task of the parallel narrowphase writes to the contact points of its manifold only, creates and
destroys nothing, and leaves the states of all manifolds as they are. -/
theorem task_footprint {r : Reg (Dat T X)} {f : Nat → List (Nat × Dat T X)} (h : Reach r) (H : Lists r f)
    {e : Env T X} {m : Nat} {res : List (Pt T X)} (hm : r.man m ≠ none) :
    ∃ s', process parCalls e m res { r := r } = some s' ∧ (∀ q, s'.r.man q = r.man q) ∧
      s'.r.nextId = r.nextId ∧ ∀ id, (∀ d, (id, d) ∉ f m) → s'.r.cp id = r.cp id := by
  obtain ⟨g, Hg, h4⟩ := contact_lists h
  rw [Hg.eq H] at h4
  obtain ⟨s', a, h1, h2, h3, -, -, h6, h7, -⟩ := par_one H e res hm (h4 m)
  have hids := (h3.gone (H.nodup m) (h4 m)).2.2
  refine ⟨s', h1, ?_, h6, ?_⟩
  · intro q
    refine h2.man_of H ?_ (h7 q)
    by_cases eq : q = m
    · subst eq; rw [Function.update_self, hids]
    · rw [Function.update_of_ne eq]
  · intro id hid
    cases hc : r.cp id with
    | some k =>
      have hk := H.listed id k hc
      by_cases ek : k.parent = m
      · rw [ek] at hk; exact absurd hk (hid _)
      · have := H.cp_of h2 (q := k.parent) (by rw [Function.update_of_ne ek]) hk
        rw [← this, hc]
    | none =>
      cases hc' : s'.r.cp id with
      | none => rfl
      | some k =>
        have hk := h2.listed id k hc'
        by_cases ek : k.parent = m
        · rw [ek, Function.update_self] at hk
          have : id ∈ a.l.map Prod.fst := List.mem_map.2 ⟨_, hk, rfl⟩
          rw [hids] at this
          obtain ⟨y, hy, rfl⟩ := List.mem_map.1 this
          exact absurd hy (hid y.2)
        · rw [Function.update_of_ne ek] at hk
          obtain ⟨nx, hc2⟩ := H.cp hk
          simp only at hc2
          rw [hc] at hc2
          cases hc2

/-- After an import the manifold has exactly the imported points, whatever it had before. -/
theorem import_exact {r : Reg (Dat T X)} {f : Nat → List (Nat × Dat T X)} (H : Lists r f)
    (near : Pt T X → List (Dat T X) → Nat) {m : Nat} {info : List (Dat T X)} (hm : r.man m ≠ none)
    (h4 : info.length ≤ 4) :
    ∃ r' f', replaceManifold near m info r = some r' ∧ Lists r' f' ∧ (∀ q, q ≠ m → f' q = f q) ∧
      ((f' m).map fun x => x.2.pt).Perm (info.map Dat.pt) ∧
      ∀ x ∈ f' m, x.2 ∈ info ∨ (r.nextId ≤ x.1 ∧ x.2.imp = 0) := by
  obtain ⟨r', new, old, h1, h2, -, -, -, h5, us, h6, h7⟩ := replaceManifold_spec H near info hm h4
  refine ⟨r', _, h1, h2, fun q hq => by rw [Function.update_of_ne hq], ?_, ?_⟩
  · rw [Function.update_self]
    have e1 : (new.map fun x => x.2.pt) = us.map Dat.pt := by
      have := congrArg (List.map Dat.pt) h6
      simpa [Function.comp_def, fresh] using this
    have e2 := congrArg (Multiset.map Dat.pt) h7
    simp only [Multiset.map_add, Multiset.map_coe, List.map_map] at e2
    apply Multiset.coe_eq_coe.1
    rw [List.map_append, e1, ← e2, ← Multiset.coe_add, add_comm]
    rfl
  · intro x hx
    rw [Function.update_self] at hx
    rcases List.mem_append.1 hx with hx | hx
    · right
      have : x.2 ∈ new.map Prod.snd := List.mem_map.2 ⟨x, hx, rfl⟩
      rw [h6] at this
      obtain ⟨d, -, e1⟩ := List.mem_map.1 this
      rw [← e1]
      exact ⟨h5 x hx, rfl⟩
    · left
      have : x.2 ∈ ((info : List (Dat T X)) : Multiset (Dat T X)) := by
        rw [← h7]
        exact Multiset.mem_add.2 (Or.inl (List.mem_map.2 ⟨x, hx, rfl⟩))
      exact this

/-! ### The nearest point -/

/-- The loop of `find_nearest_contact`, `src/edyn/util/collision_util.cpp` 238-252, from index `i` on. -/
def nearLoop (p : Pt T X) : List (Pt T X) → Nat → T → Nat → Nat
  | [], _, _, n => n
  | q :: qs, i, best, n =>
    let dA := V3.lengthSqr (q.pA - p.pA)
    let dB := V3.lengthSqr (q.pB - p.pB)
    let best1 := if dA < best then dA else best
    let n1 := if dA < best then i else n
    nearLoop p qs (i + 1) (if dB < best1 then dB else best1) (if dB < best1 then i else n1)

/-- `find_nearest_contact`, `collision_util.cpp` 233-255; `thr` is `contact_caching_threshold`. -/
def findNearest (thr : T) (p : Pt T X) (res : List (Pt T X)) : Nat := nearLoop p res 0 (thr * thr) res.length

theorem nearLoop_spec (p : Pt T X) : ∀ (qs : List (Pt T X)) (i : Nat) (best : T) (n : Nat),
    (nearLoop p qs i best n = n ∧ ∀ q ∈ qs, best ≤ V3.lengthSqr (q.pA - p.pA) ∧ best ≤ V3.lengthSqr (q.pB - p.pB)) ∨
    ∃ k q, nearLoop p qs i best n = i + k ∧ qs[k]? = some q ∧
      min (V3.lengthSqr (q.pA - p.pA)) (V3.lengthSqr (q.pB - p.pB)) < best ∧
      ∀ q' ∈ qs, min (V3.lengthSqr (q.pA - p.pA)) (V3.lengthSqr (q.pB - p.pB)) ≤
        min (V3.lengthSqr (q'.pA - p.pA)) (V3.lengthSqr (q'.pB - p.pB)) := by
  intro qs
  induction qs with
  | nil => intro i best n; left; exact ⟨rfl, by simp⟩
  | cons q qs ih =>
    intro i best n
    simp only [nearLoop]
    generalize hA : V3.lengthSqr (q.pA - p.pA) = dA
    generalize hB : V3.lengthSqr (q.pB - p.pB) = dB
    have hbest : (if dB < (if dA < best then dA else best) then dB else if dA < best then dA else best) =
        min best (min dA dB) := by
      have hif : ∀ a b : T, (if b < a then b else a) = min a b := by
        intro a b
        split
        · rename_i h; exact (min_eq_right (le_of_lt h)).symm
        · rename_i h; exact (min_eq_left (not_lt.1 h)).symm
      rw [hif, hif, min_assoc]
    have hn : (if dB < (if dA < best then dA else best) then i else if dA < best then i else n) =
        if min dA dB < best then i else n := by
      by_cases h1 : dA < best
      · rw [if_pos h1, if_pos h1, if_pos (min_lt_of_left_lt h1)]
        split <;> rfl
      · rw [if_neg h1, if_neg h1]
        by_cases h2 : dB < best
        · rw [if_pos h2, if_pos (min_lt_of_right_lt h2)]
        · rw [if_neg h2, if_neg (by rw [min_lt_iff]; tauto)]
    rw [hbest, hn]
    rcases ih (i + 1) (min best (min dA dB)) (if min dA dB < best then i else n) with ⟨h1, h2⟩ | ⟨k, q', h1, h2, h3, h4⟩
    · by_cases hlt : min dA dB < best
      · right
        refine ⟨0, q, by rw [h1, if_pos hlt]; rfl, rfl, by rw [hA, hB]; exact hlt, ?_⟩
        rw [hA, hB]
        intro q' hq'
        rcases List.mem_cons.1 hq' with rfl | hq'
        · rw [hA, hB]
        · obtain ⟨g1, g2⟩ := h2 q' hq'
          rw [min_eq_right (le_of_lt hlt)] at g1 g2
          exact le_min g1 g2
      · left
        rw [h1, if_neg hlt]
        refine ⟨rfl, ?_⟩
        intro q' hq'
        have hle : best ≤ min dA dB := not_lt.1 hlt
        rcases List.mem_cons.1 hq' with rfl | hq'
        · rw [hA, hB]; exact ⟨le_trans hle (min_le_left _ _), le_trans hle (min_le_right _ _)⟩
        · obtain ⟨g1, g2⟩ := h2 q' hq'
          rw [min_eq_left hle] at g1 g2
          exact ⟨g1, g2⟩
    · right
      refine ⟨k + 1, q', by rw [h1]; omega, by simpa using h2, lt_of_lt_of_le h3 (min_le_left _ _), ?_⟩
      intro q'' hq''
      rcases List.mem_cons.1 hq'' with rfl | hq''
      · rw [hA, hB]
        exact le_trans (le_of_lt h3) (min_le_right _ _)
      · exact h4 q'' hq''

/-- An existing contact point is matched with the point of the result that is nearest to it on one of the
bodies, if that is closer than the threshold, and with none otherwise. -/
theorem nearest_point (thr : T) (p : Pt T X) (res : List (Pt T X)) :
    (findNearest thr p res = res.length ∧ ∀ q ∈ res,
      thr * thr ≤ V3.distanceSqr q.pA p.pA ∧ thr * thr ≤ V3.distanceSqr q.pB p.pB) ∨
    ∃ q, res[findNearest thr p res]? = some q ∧
      (V3.distanceSqr q.pA p.pA < thr * thr ∨ V3.distanceSqr q.pB p.pB < thr * thr) ∧
      ∀ q' ∈ res, min (V3.distanceSqr q.pA p.pA) (V3.distanceSqr q.pB p.pB) ≤ V3.distanceSqr q'.pA p.pA ∧
        min (V3.distanceSqr q.pA p.pA) (V3.distanceSqr q.pB p.pB) ≤ V3.distanceSqr q'.pB p.pB := by
  rcases nearLoop_spec p res 0 (thr * thr) res.length with ⟨h1, h2⟩ | ⟨k, q, h1, h2, h3, h4⟩
  · left; exact ⟨h1, h2⟩
  · right
    refine ⟨q, ?_, ?_, ?_⟩
    · rw [findNearest, h1, Nat.zero_add]; exact h2
    · exact min_lt_iff.1 h3
    · intro q' hq'
      exact ⟨le_trans (h4 q' hq') (min_le_left _ _), le_trans (h4 q' hq') (min_le_right _ _)⟩

end Edyn.Contact
