import Verif.Restitution.Spec

/-!
# One group of manifolds

What `solve_manifolds` does to the velocities of the bodies and to the impulses reported by the contacts.
-/

namespace Edyn.Restitution

open Edyn.Math Edyn.Solver

variable {T : Type} [Field T] [LinearOrder T] [IsStrictOrderedRing T]

/-- The same rows up to impulses. -/
def CRow.Same (x x' : CRow T) : Prop := Row.Same x.n x'.n ∧ Friction.Same x.f x'.f

/-- The effect of the impulses of the rows of a contact. -/
def CRow.eff (x : CRow T) : Vel T :=
  effect x.n.pair x.n.J x.n.impulse + effect x.n.pair x.f.row0.J x.f.row0.impulse +
    effect x.n.pair x.f.row1.J x.f.row1.impulse

/-- Limits of the rows of a contact. -/
def CRow.Ok (x : CRow T) : Prop :=
  x.n.lower ≤ x.n.impulse ∧ x.n.impulse ≤ x.n.upper ∧
    x.f.row0.impulse ^ 2 + x.f.row1.impulse ^ 2 ≤ (x.f.coeff * x.n.impulse) ^ 2

theorem visit_spec (E : Env T) (x : CRow T) (u : Vel T) :
    CRow.Same x (visit E x u).1 ∧ (visit E x u).2 + x.eff = u + (visit E x u).1.eff := by
  have h1 := solveRow_same x.n u
  have h2 := solveFriction_same E.root E.eps x.f (solveRow x.n u).1
    (applyImpulse (solveRow x.n u).1.pair (solveRow x.n u).1.J (solveRow x.n u).2 u)
  refine ⟨⟨h1, h2⟩, ?_⟩
  have hp : (solveRow x.n u).1.pair = x.n.pair := by rw [h1]
  have hJ : (solveRow x.n u).1.J = x.n.J := by rw [h1]
  simp only [visit, CRow.eff]
  rw [solveFriction_vel, applyImpulse_eq, solveRow_delta]
  generalize hf : solveFriction E.root E.eps x.f (solveRow x.n u).1
    (u + effect (solveRow x.n u).1.pair (solveRow x.n u).1.J
      ((solveRow x.n u).1.impulse - x.n.impulse)) = f at *
  have h2' : Friction.Same x.f f.1 := by
    rw [← hf]; exact solveFriction_same _ _ _ _ _
  have e0 : f.1.row0.J = x.f.row0.J := by rw [h2']
  have e1 : f.1.row1.J = x.f.row1.J := by rw [h2']
  rw [hp, hJ, e0, e1, effect_sub, effect_sub, effect_sub]
  abel

theorem visit_ok (E : Env T) (hroot : IsSqrt E.root) (heps : 0 ≤ E.eps) (x : CRow T) (u : Vel T)
    (h : x.n.lower ≤ x.n.upper) : (visit E x u).1.Ok := by
  have h1 := solveRow_same x.n u
  have hl : (solveRow x.n u).1.lower = x.n.lower := by rw [h1]
  have hu : (solveRow x.n u).1.upper = x.n.upper := by rw [h1]
  have hb := solveRow_limits x.n u h
  refine ⟨?_, ?_, ?_⟩
  · show (solveRow x.n u).1.lower ≤ _
    rw [hl]; exact hb.1
  · show _ ≤ (solveRow x.n u).1.upper
    rw [hu]; exact hb.2
  · have h2 := solveFriction_same E.root E.eps x.f (solveRow x.n u).1
      (applyImpulse (solveRow x.n u).1.pair (solveRow x.n u).1.J (solveRow x.n u).2 u)
    have hc : (visit E x u).1.f.coeff = x.f.coeff := by
      simp only [visit]; rw [h2]
    rw [hc]
    exact solveFriction_bound E.root hroot E.eps heps x.f _ _

/-- The sum of the effects of rows. -/
def effs (xs : List (CRow T)) : Vel T := (xs.map CRow.eff).sum

theorem sweep_spec (E : Env T) (xs : List (CRow T)) (u : Vel T) :
    List.Forall₂ CRow.Same xs (sweep E xs u).1 ∧ (sweep E xs u).2 + effs xs = u + effs (sweep E xs u).1 := by
  induction xs generalizing u with
  | nil => exact ⟨.nil, rfl⟩
  | cons x xs ih =>
    obtain ⟨a, b⟩ := visit_spec E x u
    obtain ⟨c, d⟩ := ih (visit E x u).2
    refine ⟨.cons a c, ?_⟩
    simp only [sweep, effs, List.map_cons, List.sum_cons] at *
    calc _ = (sweep E xs (visit E x u).2).2 + (xs.map CRow.eff).sum + x.eff := by abel
      _ = (visit E x u).2 + x.eff + ((sweep E xs (visit E x u).2).1.map CRow.eff).sum := by rw [d]; abel
      _ = _ := by rw [b]; abel

theorem CRow.same_refl (x : CRow T) : CRow.Same x x := ⟨rfl, rfl⟩

theorem CRow.same_trans {x y z : CRow T} (h : CRow.Same x y) (h' : CRow.Same y z) : CRow.Same x z := by
  obtain ⟨a, b⟩ := h
  obtain ⟨c, d⟩ := h'
  refine ⟨?_, ?_⟩
  · unfold Row.Same at *; rw [c, a]
  · unfold Friction.Same at *; rw [d, b]

theorem forall₂_self {α : Type} {R : α → α → Prop} (h : ∀ a, R a a) (l : List α) : List.Forall₂ R l l := by
  induction l with
  | nil => exact .nil
  | cons a l ih => exact .cons (h a) ih

theorem sweeps_spec (E : Env T) (k : Nat) (s : List (CRow T) × Vel T) :
    List.Forall₂ CRow.Same s.1 (sweeps E k s).1 ∧
      (sweeps E k s).2 + effs s.1 = s.2 + effs (sweeps E k s).1 := by
  induction k generalizing s with
  | zero => exact ⟨forall₂_self CRow.same_refl _, rfl⟩
  | succ k ih =>
    obtain ⟨a, b⟩ := sweep_spec E s.1 s.2
    obtain ⟨c, d⟩ := ih (sweep E s.1 s.2)
    refine ⟨Edyn.Solver.forall₂_trans (R := CRow.Same) (fun _ _ _ h h' => CRow.same_trans h h') a c, ?_⟩
    show (sweeps E k (sweep E s.1 s.2)).2 + effs s.1 = s.2 + effs (sweeps E k (sweep E s.1 s.2)).1
    have : (sweeps E k (sweep E s.1 s.2)).2 = (sweep E s.1 s.2).2 +
        effs (sweeps E k (sweep E s.1 s.2)).1 - effs (sweep E s.1 s.2).1 := by rw [← d]; abel
    rw [this]
    calc _ = ((sweep E s.1 s.2).2 + effs s.1) + effs (sweeps E k (sweep E s.1 s.2)).1 -
          effs (sweep E s.1 s.2).1 := by abel
      _ = _ := by rw [b]; abel

theorem sweep_ok (E : Env T) (hroot : IsSqrt E.root) (heps : 0 ≤ E.eps) (xs : List (CRow T)) (u : Vel T)
    (h : ∀ x ∈ xs, x.n.lower ≤ x.n.upper) : ∀ x ∈ (sweep E xs u).1, x.Ok := by
  induction xs generalizing u with
  | nil => intro x hx; cases hx
  | cons y ys ih =>
    intro x hx
    rcases List.mem_cons.1 hx with rfl | hx
    · exact visit_ok E hroot heps y u (h y (by simp))
    · exact ih _ (fun z hz => h z (by simp [hz])) x hx

theorem same_lu {xs ys : List (CRow T)} (h : List.Forall₂ CRow.Same xs ys)
    (h' : ∀ x ∈ xs, x.n.lower ≤ x.n.upper) : ∀ x ∈ ys, x.n.lower ≤ x.n.upper := by
  induction h with
  | nil => exact h'
  | @cons a b l l' hab hl ih =>
    intro x hx
    rcases List.mem_cons.1 hx with rfl | hx
    · have h1 := h' a (by simp)
      have e1 : x.n.lower = a.n.lower := by rw [hab.1]
      have e2 : x.n.upper = a.n.upper := by rw [hab.1]
      rw [e1, e2]; exact h1
    · exact ih (fun z hz => h' z (by simp [hz])) x hx

theorem sweeps_ok (E : Env T) (hroot : IsSqrt E.root) (heps : 0 ≤ E.eps) (k : Nat)
    (s : List (CRow T) × Vel T) (h : ∀ x ∈ s.1, x.n.lower ≤ x.n.upper) (h0 : ∀ x ∈ s.1, x.Ok) :
    ∀ x ∈ (sweeps E k s).1, x.Ok := by
  induction k generalizing s with
  | zero => exact h0
  | succ k ih =>
    exact ih _ (same_lu (sweep_spec E s.1 s.2).1 h) (sweep_ok E hroot heps s.1 s.2 h)

/-! ### Rows of contacts -/

/-- The rows belong to a contact of a manifold. -/
structure OfContact (E : Env T) (w : World T) (m : Manifold T) (c : Contact T) (x : CRow T) : Prop where
  J : x.n.J = jacOf w m c c.normal
  pair : x.n.pair = pairOf w m
  J0 : x.f.row0.J = jacOf w m c (E.plane c.normal).1
  J1 : x.f.row1.J = jacOf w m c (E.plane c.normal).2
  lower : x.n.lower = 0
  upper : x.n.upper = E.large
  mat : ∃ mat, c.mat = some mat ∧ x.f.coeff = mat.friction

omit [IsStrictOrderedRing T] in
theorem contactRows_of {E : Env T} {w : World T} {m : Manifold T} {c : Contact T} {x : CRow T}
    (h : contactRows E w m c = some x) : OfContact E w m c x ∧ x.n.impulse = 0 ∧
      x.f.row0.impulse = 0 ∧ x.f.row1.impulse = 0 := by
  simp only [contactRows, Option.map_eq_some_iff] at h
  obtain ⟨mat, hm, rfl⟩ := h
  exact ⟨⟨rfl, rfl, rfl, rfl, rfl, rfl, mat, hm, rfl⟩, rfl, rfl, rfl⟩

omit [IsStrictOrderedRing T] in
theorem OfContact.same {E : Env T} {w : World T} {m : Manifold T} {c : Contact T} {x y : CRow T}
    (h : OfContact E w m c x) (hs : CRow.Same x y) : OfContact E w m c y := by
  obtain ⟨a, b⟩ := hs
  obtain ⟨mat, h1, h2⟩ := h.mat
  exact ⟨by rw [a]; exact h.J, by rw [a]; exact h.pair, by rw [b]; exact h.J0, by rw [b]; exact h.J1,
    by rw [a]; exact h.lower, by rw [a]; exact h.upper, mat, h1, by rw [b]; exact h2⟩

/-- The rows belong to the contacts of the manifolds of a group, in their order. -/
def Matches (E : Env T) (w : World T) : List Nat → List (CRow T) → Prop
  | [], xs => xs = []
  | i :: g, xs => ∃ m ys zs, w.man i = some m ∧ xs = ys ++ zs ∧
      List.Forall₂ (OfContact E w m) m.contacts ys ∧ Matches E w g zs

omit [IsStrictOrderedRing T] in
theorem mapM_of {E : Env T} {w : World T} {m : Manifold T} {cs : List (Contact T)} {ys : List (CRow T)}
    (h : cs.mapM (contactRows E w m) = some ys) : List.Forall₂ (OfContact E w m) cs ys ∧
      ∀ y ∈ ys, y.n.impulse = 0 ∧ y.f.row0.impulse = 0 ∧ y.f.row1.impulse = 0 := by
  induction cs generalizing ys with
  | nil =>
    simp at h
    subst h
    exact ⟨.nil, by simp⟩
  | cons c cs ih =>
    simp only [List.mapM_cons, Option.pure_def, Option.bind_eq_bind, Option.bind_eq_some_iff] at h
    obtain ⟨x, hx, ys', hys, h⟩ := h
    simp only [Option.some.injEq] at h
    subst h
    obtain ⟨a, b⟩ := contactRows_of hx
    obtain ⟨c', d⟩ := ih hys
    refine ⟨.cons a c', ?_⟩
    intro y hy
    rcases List.mem_cons.1 hy with rfl | hy
    · exact b
    · exact d y hy

omit [IsStrictOrderedRing T] in
theorem groupRows_matches {E : Env T} {w : World T} {g : List Nat} {xs : List (CRow T)}
    (h : groupRows E w g = some xs) : Matches E w g xs ∧
      ∀ y ∈ xs, y.n.impulse = 0 ∧ y.f.row0.impulse = 0 ∧ y.f.row1.impulse = 0 := by
  simp only [groupRows, Option.map_eq_some_iff] at h
  obtain ⟨xss, h, rfl⟩ := h
  induction g generalizing xss with
  | nil =>
    simp at h
    subst h
    exact ⟨rfl, by simp⟩
  | cons i g ih =>
    simp only [List.mapM_cons, Option.pure_def, Option.bind_eq_bind, Option.bind_eq_some_iff] at h
    obtain ⟨ys, hys, zss, hzs, h⟩ := h
    simp only [Option.some.injEq] at h
    subst h
    simp only [manifoldRows, Option.bind_eq_some_iff] at hys
    obtain ⟨m, hm, hys⟩ := hys
    obtain ⟨a, b⟩ := mapM_of hys
    obtain ⟨c, d⟩ := ih zss hzs
    refine ⟨⟨m, ys, zss.flatten, hm, by simp, a, c⟩, ?_⟩
    intro y hy
    simp only [List.flatten_cons, List.mem_append] at hy
    rcases hy with hy | hy
    · exact b y hy
    · exact d y hy

theorem forall₂_split {α β : Type} {R : α → β → Prop} {ys zs : List α} {l : List β}
    (h : List.Forall₂ R (ys ++ zs) l) : ∃ ys' zs', l = ys' ++ zs' ∧ List.Forall₂ R ys ys' ∧
      List.Forall₂ R zs zs' := by
  induction ys generalizing l with
  | nil => exact ⟨[], l, rfl, .nil, h⟩
  | cons y ys ih =>
    cases h with
    | cons hab hl =>
      obtain ⟨ys', zs', rfl, h1, h2⟩ := ih hl
      exact ⟨_ :: ys', zs', rfl, .cons hab h1, h2⟩

omit [IsStrictOrderedRing T] in
theorem of_same {E : Env T} {w : World T} {m : Manifold T} {cs : List (Contact T)} {ys ys' : List (CRow T)}
    (h : List.Forall₂ (OfContact E w m) cs ys) (h' : List.Forall₂ CRow.Same ys ys') :
    List.Forall₂ (OfContact E w m) cs ys' := by
  induction h generalizing ys' with
  | nil => cases h'; exact .nil
  | cons hab _ ih =>
    cases h' with
    | cons h1 h2 => exact .cons (hab.same h1) (ih h2)

omit [IsStrictOrderedRing T] in
theorem Matches.same {E : Env T} {w : World T} {g : List Nat} {xs xs' : List (CRow T)}
    (h : Matches E w g xs) (h' : List.Forall₂ CRow.Same xs xs') : Matches E w g xs' := by
  induction g generalizing xs xs' with
  | nil => cases h; cases h'; rfl
  | cons i g ih =>
    obtain ⟨m, ys, zs, hm, rfl, h1, h2⟩ := h
    obtain ⟨ys', zs', rfl, h3, h4⟩ := forall₂_split h'
    exact ⟨m, ys', zs', hm, rfl, of_same h1 h3, ih h2 h4⟩

/-! ### Effects on the bodies -/

theorem slot_succ (w : World T) (e x : Nat) : e + 1 = slot w x ↔ e = x ∧ (w.body x).kind = .dynamic := by
  unfold slot
  by_cases h : (w.body x).kind = .dynamic
  · rw [if_pos h]; simp [h]
  · rw [if_neg h]; simp [h]

theorem zero_slot (w : World T) (x : Nat) (h : 0 = slot w x) : (w.body x).im = 0 ∧ (w.body x).iI = ⟨0, 0, 0⟩ := by
  unfold slot at h
  by_cases hk : (w.body x).kind = .dynamic
  · rw [if_pos hk] at h; omega
  · simp [Body.im, Body.iI, hk]

theorem zero_smul' (v : V3 T) : V3.smul 0 v = 0 := by ext <;> simp

theorem at_zero {α : Type} [Zero α] (w : World T) (x : Nat) (f : α)
    (h : (w.body x).im = 0 → (w.body x).iI = ⟨0, 0, 0⟩ → f = 0) : (if 0 = slot w x then f else 0) = 0 := by
  by_cases h0 : 0 = slot w x
  · rw [if_pos h0]
    exact h (zero_slot w x h0).1 (zero_slot w x h0).2
  · rw [if_neg h0]

/-- The dummy entries receive nothing. -/
theorem effect_dummy (w : World T) (m : Manifold T) (J : Jac T) (d : T) :
    (effect (pairOf w m) J d).1 0 = 0 ∧ (effect (pairOf w m) J d).2 0 = 0 := by
  constructor
  · show (if 0 = slot w m.a then V3.smul ((w.body m.a).im * d) J.linA else 0) +
      (if 0 = slot w m.b then V3.smul ((w.body m.b).im * d) J.linB else 0) = 0
    rw [at_zero w m.a _ (fun h _ => by rw [h, zero_mul, zero_smul']),
      at_zero w m.b _ (fun h _ => by rw [h, zero_mul, zero_smul']), add_zero]
  · show (if 0 = slot w m.a then V3.smul d ((w.body m.a).iI.mulVec J.angA) else 0) +
      (if 0 = slot w m.b then V3.smul d ((w.body m.b).iI.mulVec J.angB) else 0) = 0
    rw [at_zero w m.a _ (fun _ h => by rw [h, zero_mulVec, smul_zero']),
      at_zero w m.b _ (fun _ h => by rw [h, zero_mulVec, smul_zero']), add_zero]

theorem mulVec_neg (M : M3 T) (v : V3 T) : M.mulVec (-v) = -M.mulVec v := by
  ext <;> simp [M3.mulVec, V3.dot] <;> ring

theorem smul_neg' (a : T) (v : V3 T) : V3.smul a (-v) = -V3.smul a v := by ext <;> simp

theorem cross_smul' (a : T) (r v : V3 T) : r.cross (V3.smul a v) = V3.smul a (r.cross v) := by
  ext <;> simp <;> ring

theorem at_succ (w : World T) (e x : Nat) (f g : V3 T) (h : (w.body x).kind = .dynamic → f = g) :
    (if e + 1 = slot w x then f else 0) =
      (if e = x then (if (w.body x).kind = .dynamic then g else 0) else 0) := by
  by_cases hx : e = x
  · subst hx
    by_cases hk : (w.body e).kind = .dynamic
    · rw [if_pos ((slot_succ w e e).2 ⟨rfl, hk⟩), if_pos rfl, if_pos hk, h hk]
    · rw [if_neg (fun h => hk ((slot_succ w e e).1 h).2), if_pos rfl, if_neg hk]
  · rw [if_neg (fun h => hx ((slot_succ w e x).1 h).1), if_neg hx]

theorem neg_ite' (p q : Prop) [Decidable p] [Decidable q] (g : V3 T) :
    (if p then (if q then -g else 0) else 0) = -(if p then (if q then g else 0) else 0) := by
  split_ifs <;> simp

/-- The effect of an impulse along a row of a contact is that of the impulse vector. -/
theorem effect_push (w : World T) (m : Manifold T) (c : Contact T) (d : V3 T) (l : T) (e : Nat) :
    ((effect (pairOf w m) (jacOf w m c d) l).1 (e + 1), (effect (pairOf w m) (jacOf w m c d) l).2 (e + 1)) =
      push w m c (V3.smul l d) e := by
  have hi : ∀ x, (w.body x).kind = .dynamic → (w.body x).im = (w.body x).invM := by
    intro x h; simp [Body.im, h]
  have hI : ∀ x, (w.body x).kind = .dynamic → (w.body x).iI = (w.body x).invI := by
    intro x h; simp [Body.iI, h]
  refine Prod.ext ?_ ?_
  · show (if e + 1 = slot w m.a then V3.smul ((w.body m.a).im * l) d else 0) +
      (if e + 1 = slot w m.b then V3.smul ((w.body m.b).im * l) (-d) else 0) =
        (if e = m.a then kick (w.body m.a) (V3.smul l d) else 0) -
          (if e = m.b then kick (w.body m.b) (V3.smul l d) else 0)
    rw [at_succ w e m.a _ (V3.smul (w.body m.a).invM (V3.smul l d))
          (fun h => by rw [hi _ h, smul_smul', mul_comm]),
        at_succ w e m.b _ (-V3.smul (w.body m.b).invM (V3.smul l d))
          (fun h => by rw [hi _ h, smul_neg', smul_smul', mul_comm]), neg_ite', ← sub_eq_add_neg]
    rfl
  · show (if e + 1 = slot w m.a then V3.smul l ((w.body m.a).iI.mulVec (((w.body m.a).arm c.pivotA).cross d))
        else 0) +
      (if e + 1 = slot w m.b then V3.smul l ((w.body m.b).iI.mulVec (-(((w.body m.b).arm c.pivotB).cross d)))
        else 0) =
        (if e = m.a then twist (w.body m.a) ((w.body m.a).arm c.pivotA) (V3.smul l d) else 0) -
          (if e = m.b then twist (w.body m.b) ((w.body m.b).arm c.pivotB) (V3.smul l d) else 0)
    rw [at_succ w e m.a _ ((w.body m.a).invI.mulVec (((w.body m.a).arm c.pivotA).cross (V3.smul l d)))
          (fun h => by rw [hI _ h, cross_smul', mulVec_smul]),
        at_succ w e m.b _ (-(w.body m.b).invI.mulVec (((w.body m.b).arm c.pivotB).cross (V3.smul l d)))
          (fun h => by rw [hI _ h, cross_smul', mulVec_smul, mulVec_neg, smul_neg']), neg_ite',
          ← sub_eq_add_neg]
    rfl

theorem kick_add (b : Body T) (P Q : V3 T) : kick b (P + Q) = kick b P + kick b Q := by
  unfold kick
  split_ifs
  · exact smul_add_right _ _ _
  · simp

theorem twist_add (b : Body T) (r P Q : V3 T) : twist b r (P + Q) = twist b r P + twist b r Q := by
  unfold twist
  split_ifs
  · rw [cross_add, mulVec_add]
  · simp

theorem push_add (w : World T) (m : Manifold T) (c : Contact T) (P Q : V3 T) (e : Nat) :
    push w m c (P + Q) e = push w m c P e + push w m c Q e := by
  unfold push
  simp only [kick_add, twist_add]
  refine Prod.ext ?_ ?_ <;> simp only [Prod.fst_add, Prod.snd_add] <;> split_ifs <;> abel

/-- The effect of the rows of a contact is that of the impulse the contact reports. -/
theorem eff_push (E : Env T) (w : World T) (m : Manifold T) (c : Contact T) (x : CRow T)
    (h : OfContact E w m c x) (e : Nat) :
    (x.eff.1 (e + 1), x.eff.2 (e + 1)) = push w m c (reported E.plane (store c x)) e := by
  unfold reported
  rw [push_add, push_add]
  simp only [store]
  rw [← effect_push, ← effect_push, ← effect_push]
  unfold CRow.eff
  rw [h.J, h.J0, h.J1, h.pair]
  rfl

theorem eff_dummy (E : Env T) (w : World T) (m : Manifold T) (c : Contact T) (x : CRow T)
    (h : OfContact E w m c x) : x.eff.1 0 = 0 ∧ x.eff.2 0 = 0 := by
  unfold CRow.eff
  rw [h.pair]
  have h0 := fun J d => effect_dummy w m J d
  constructor
  · rw [Prod.fst_add, Prod.fst_add, Pi.add_apply, Pi.add_apply, (h0 _ _).1, (h0 _ _).1, (h0 _ _).1]; simp
  · rw [Prod.snd_add, Prod.snd_add, Pi.add_apply, Pi.add_apply, (h0 _ _).2, (h0 _ _).2, (h0 _ _).2]; simp

/-! ### Persisting impulses -/

/-- The entry of body `e`. -/
def entry (u : Vel T) (e : Nat) : V3 T × V3 T := (u.1 (e + 1), u.2 (e + 1))

omit [LinearOrder T] [IsStrictOrderedRing T] in
theorem entry_add (u v : Vel T) (e : Nat) : entry (u + v) e = entry u e + entry v e := rfl

omit [LinearOrder T] [IsStrictOrderedRing T] in
theorem entry_zero (e : Nat) : entry (0 : Vel T) e = 0 := rfl

omit [LinearOrder T] [IsStrictOrderedRing T] in
theorem effs_nil : effs ([] : List (CRow T)) = 0 := rfl

omit [LinearOrder T] [IsStrictOrderedRing T] in
theorem effs_append (xs ys : List (CRow T)) : effs (xs ++ ys) = effs xs + effs ys := by
  simp [effs]

theorem manifold_effs {E : Env T} {w : World T} {m : Manifold T} {cs : List (Contact T)}
    {ys : List (CRow T)} (h : List.Forall₂ (OfContact E w m) cs ys) (e : Nat) :
    entry (effs ys) e =
      ((List.zipWith store cs ys).map fun c => push w m c (reported E.plane c) e).sum ∧
    (effs ys).1 0 = 0 ∧ (effs ys).2 0 = 0 := by
  induction h with
  | nil => exact ⟨rfl, rfl, rfl⟩
  | @cons c y cs ys hc _ ih =>
    have e1 : effs (y :: ys) = y.eff + effs ys := rfl
    rw [e1]
    refine ⟨?_, ?_, ?_⟩
    · rw [entry_add, ih.1]
      show (y.eff.1 (e + 1), y.eff.2 (e + 1)) + _ = _
      rw [eff_push E w m c y hc e]
      rfl
    · rw [Prod.fst_add, Pi.add_apply, ih.2.1, (eff_dummy E w m c y hc).1, add_zero]
    · rw [Prod.snd_add, Pi.add_apply, ih.2.2, (eff_dummy E w m c y hc).2, add_zero]

/-- A contact point after the rows of it were solved. -/
structure Stored (E : Env T) (w : World T) (m : Manifold T) (c c' : Contact T) : Prop where
  rows : ∃ x, OfContact E w m c x ∧ c' = store c x

omit [IsStrictOrderedRing T] in
theorem zip_stored {E : Env T} {w : World T} {m : Manifold T} {cs : List (Contact T)}
    {ys : List (CRow T)} (P : CRow T → Prop) (hP : ∀ y ∈ ys, P y)
    (h : List.Forall₂ (OfContact E w m) cs ys) :
    List.Forall₂ (fun c c' => ∃ x, P x ∧ OfContact E w m c x ∧ c' = store c x) cs
      (List.zipWith store cs ys) := by
  induction h with
  | nil => exact .nil
  | @cons c y cs ys hc _ ih =>
    exact .cons ⟨y, hP y (by simp), hc, rfl⟩ (ih fun z hz => hP z (by simp [hz]))

/-- What the loop that persists impulses leaves behind. -/
theorem persist_spec {E : Env T} {w : World T} (P : CRow T → Prop) {g : List Nat} {xs : List (CRow T)}
    (h : Matches E w g xs) (hP : ∀ y ∈ xs, P y) (hg : g.Nodup) (man : Nat → Option (Manifold T))
    (hman : ∀ i ∈ g, man i = w.man i) :
    ∃ man', persist g xs man = some man' ∧ (∀ i, i ∉ g → man' i = man i) ∧
      (∀ i ∈ g, ∃ m cs, w.man i = some m ∧ man' i = some { m with contacts := cs } ∧
        List.Forall₂ (fun c c' => ∃ x, P x ∧ OfContact E w m c x ∧ c' = store c x) m.contacts cs) ∧
      (∀ e, entry (effs xs) e = (g.map fun i => ((man' i).elim 0 fun m => pushAll E.plane w m e)).sum) ∧
      (effs xs).1 0 = 0 ∧ (effs xs).2 0 = 0 := by
  induction g generalizing xs man with
  | nil =>
    cases h
    exact ⟨man, rfl, fun _ _ => rfl, fun i hi => absurd hi (by simp), fun e => rfl, rfl, rfl⟩
  | cons i g ih =>
    obtain ⟨m, ys, zs, hm, rfl, h1, h2⟩ := h
    have hlen : m.contacts.length = ys.length := h1.length_eq
    have hi : man i = some m := by rw [hman i (by simp), hm]
    obtain ⟨hni, hg'⟩ := List.nodup_cons.1 hg
    set man1 := Function.update man i (some { m with contacts := List.zipWith store m.contacts ys }) with hman1
    obtain ⟨man', p1, p2, p3, p4, p5, p6⟩ := ih h2 (fun y hy => hP y (by simp [hy])) hg' man1 (by
      intro j hj
      have hji : j ≠ i := fun he => hni (he ▸ hj)
      rw [hman1, Function.update_of_ne hji, hman j (by simp [hj])])
    have hmi : man' i = some { m with contacts := List.zipWith store m.contacts ys } := by
      rw [p2 i hni, hman1, Function.update_self]
    refine ⟨man', ?_, ?_, ?_, ?_, ?_, ?_⟩
    · simp only [persist, hi, Option.bind_some, hlen, List.length_append]
      rw [if_neg (by omega), List.drop_left, List.take_left]
      exact p1
    · intro j hj
      simp only [List.mem_cons, not_or] at hj
      rw [p2 j hj.2, hman1, Function.update_of_ne hj.1]
    · intro j hj
      rcases List.mem_cons.1 hj with rfl | hj
      · exact ⟨m, _, hm, hmi, zip_stored P (fun y hy => hP y (by simp [hy])) h1⟩
      · exact p3 j hj
    · intro e
      rw [effs_append, entry_add, p4 e, List.map_cons, List.sum_cons, hmi, (manifold_effs h1 e).1]
      rfl
    · rw [effs_append, Prod.fst_add, Pi.add_apply, p5, (manifold_effs h1 0).2.1, add_zero]
    · rw [effs_append, Prod.snd_add, Pi.add_apply, p6, (manifold_effs h1 0).2.2, add_zero]

/-! ### Applying the changes of velocity -/

/-- The bodies of the manifolds of a group. -/
def members (man : Nat → Option (Manifold T)) (g : List Nat) : List Nat :=
  g.flatMap fun i => (man i).elim [] fun m => [m.a, m.b]

/-- `w'` differs from `w` only in that pending changes of velocity were applied; those of the bodies in `l`
were. -/
structure Applied (w w' : World T) (l : List Nat) : Prop where
  man : w'.man = w.man
  rest : ∀ e, w'.body e = { w.body e with lin := (w'.body e).lin, ang := (w'.body e).ang }
  lin : ∀ e, (w'.body e).lin + w'.delta.1 (e + 1) = (w.body e).lin + w.delta.1 (e + 1)
  ang : ∀ e, (w'.body e).ang + w'.delta.2 (e + 1) = (w.body e).ang + w.delta.2 (e + 1)
  static : ∀ e, (w.body e).kind = .static → w'.body e = w.body e
  zero : ∀ e ∈ l, (w.body e).kind ≠ .static → w'.delta.1 (e + 1) = 0 ∧ w'.delta.2 (e + 1) = 0
  kept : ∀ e, e ∉ l → w'.delta.1 (e + 1) = w.delta.1 (e + 1) ∧ w'.delta.2 (e + 1) = w.delta.2 (e + 1)
  keptZ : ∀ s, w.delta.1 s = 0 → w'.delta.1 s = 0
  keptZ2 : ∀ s, w.delta.2 s = 0 → w'.delta.2 s = 0

theorem Applied.refl (w : World T) : Applied w w [] :=
  ⟨rfl, fun _ => rfl, fun _ => rfl, fun _ => rfl, fun _ _ => rfl, fun e he => absurd he (by simp),
    fun _ _ => ⟨rfl, rfl⟩, fun _ h => h, fun _ h => h⟩

theorem Applied.trans {w w' w'' : World T} {l l' : List Nat} (h : Applied w w' l) (h' : Applied w' w'' l') :
    Applied w w'' (l ++ l') := by
  have hk : ∀ e, (w'.body e).kind = (w.body e).kind := fun e => by rw [h.rest e]
  refine ⟨by rw [h'.man, h.man], ?_, ?_, ?_, ?_, ?_, ?_, ?_, ?_⟩
  · intro e; rw [h'.rest e, h.rest e]
  · intro e; rw [h'.lin, h.lin]
  · intro e; rw [h'.ang, h.ang]
  · intro e he; rw [h'.static e (by rw [hk, he]), h.static e he]
  · intro e he hs
    rcases List.mem_append.1 he with he | he
    · exact ⟨h'.keptZ _ (h.zero e he hs).1, h'.keptZ2 _ (h.zero e he hs).2⟩
    · exact h'.zero e he (by rw [hk]; exact hs)
  · intro e he
    simp only [List.mem_append, not_or] at he
    exact ⟨(h'.kept e he.2).1.trans (h.kept e he.1).1, (h'.kept e he.2).2.trans (h.kept e he.1).2⟩
  · exact fun s hs => h'.keptZ s (h.keptZ s hs)
  · exact fun s hs => h'.keptZ2 s (h.keptZ2 s hs)

theorem applyDelta_spec (w : World T) (x : Nat) : Applied w (applyDelta w x) [x] := by
  unfold applyDelta
  by_cases hs : (w.body x).kind = .static
  · rw [if_pos hs]
    exact ⟨rfl, fun _ => rfl, fun _ => rfl, fun _ => rfl, fun _ _ => rfl,
      fun e he hk => absurd hs (by rw [List.mem_singleton.1 he] at hk; exact hk),
      fun _ _ => ⟨rfl, rfl⟩, fun _ h => h, fun _ h => h⟩
  · rw [if_neg hs]
    have ne1 : ∀ e, e ≠ x → e + 1 ≠ x + 1 := fun e h h' => h (by omega)
    refine ⟨rfl, ?_, ?_, ?_, ?_, ?_, ?_, ?_, ?_⟩ <;> dsimp only
    · intro e
      by_cases he : e = x
      · subst he; rw [Function.update_self]
      · rw [Function.update_of_ne he]
    · intro e
      by_cases he : e = x
      · subst he; rw [Function.update_self, Function.update_self]; simp
      · rw [Function.update_of_ne he, Function.update_of_ne (ne1 e he)]
    · intro e
      by_cases he : e = x
      · subst he; rw [Function.update_self, Function.update_self]; simp
      · rw [Function.update_of_ne he, Function.update_of_ne (ne1 e he)]
    · intro e he
      have : e ≠ x := fun h => hs (h ▸ he)
      rw [Function.update_of_ne this]
    · intro e he _
      rw [List.mem_singleton.1 he, Function.update_self, Function.update_self]
      exact ⟨rfl, rfl⟩
    · intro e he
      have : e ≠ x := fun h => he (by simp [h])
      rw [Function.update_of_ne (ne1 e this), Function.update_of_ne (ne1 e this)]
      exact ⟨rfl, rfl⟩
    · intro s h
      by_cases he : s = x + 1
      · subst he; rw [Function.update_self]
      · rw [Function.update_of_ne he]; exact h
    · intro s h
      by_cases he : s = x + 1
      · subst he; rw [Function.update_self]
      · rw [Function.update_of_ne he]; exact h

theorem applyDeltas_spec (g : List Nat) (w : World T) (h : ∀ i ∈ g, (w.man i).isSome) :
    ∃ w', applyDeltas g w = some w' ∧ Applied w w' (members w.man g) := by
  induction g generalizing w with
  | nil => exact ⟨w, rfl, Applied.refl w⟩
  | cons i g ih =>
    obtain ⟨m, hm⟩ := Option.isSome_iff_exists.1 (h i (by simp))
    have a1 := (applyDelta_spec w m.a).trans (applyDelta_spec (applyDelta w m.a) m.b)
    obtain ⟨w', h1, h2⟩ := ih (applyDelta (applyDelta w m.a) m.b) (by
      intro j hj; rw [a1.man]; exact h j (by simp [hj]))
    refine ⟨w', ?_, ?_⟩
    · simp only [applyDeltas, hm, Option.bind_some, h1]
    · have := a1.trans h2
      rw [a1.man] at this
      simpa [members, hm] using this

omit [IsStrictOrderedRing T] in
theorem pushAll_zero (plane : V3 T → V3 T × V3 T) (w : World T) (m : Manifold T) (e : Nat)
    (h : (e ≠ m.a ∧ e ≠ m.b) ∨ (w.body e).kind ≠ .dynamic) : pushAll plane w m e = 0 := by
  have : ∀ c P, push w m c P e = 0 := by
    intro c P
    unfold push
    rcases h with h | h
    · simp only [if_neg h.1, if_neg h.2, sub_zero]; rfl
    · have ha : e = m.a → (w.body m.a).kind ≠ .dynamic := fun he => he ▸ h
      have hb : e = m.b → (w.body m.b).kind ≠ .dynamic := fun he => he ▸ h
      by_cases h1 : e = m.a <;> by_cases h2 : e = m.b
      · simp only [if_pos h1, if_pos h2, kick, twist, if_neg (ha h1), if_neg (hb h2), sub_zero]; rfl
      · simp only [if_pos h1, if_neg h2, kick, twist, if_neg (ha h1), sub_zero]; rfl
      · simp only [if_neg h1, if_pos h2, kick, twist, if_neg (hb h2), sub_zero]; rfl
      · simp only [if_neg h1, if_neg h2, sub_zero]; rfl
  unfold pushAll
  apply List.sum_eq_zero
  intro x hx
  obtain ⟨c, _, rfl⟩ := List.mem_map.1 hx
  exact this c _

/-- What `solve_manifolds` does. -/
structure GroupDone (E : Env T) (P : CRow T → Prop) (w w' : World T) (g : List Nat) : Prop where
  delta : w'.delta = 0
  body : ∀ e, w'.body e = { w.body e with
    lin := (w.body e).lin + (change E.plane w w'.man g e).1
    ang := (w.body e).ang + (change E.plane w w'.man g e).2 }
  out : ∀ i, i ∉ g → w'.man i = w.man i
  man : ∀ i ∈ g, ∃ m cs, w.man i = some m ∧ w'.man i = some { m with contacts := cs } ∧
    List.Forall₂ (fun c c' => ∃ x, P x ∧ OfContact E w m c x ∧ c' = store c x) m.contacts cs

theorem solveGroup_spec {E : Env T} {w w' : World T} {g : List Nat} (P : CRow T → Prop)
    (hP : ∀ xs, groupRows E w g = some xs → ∀ y ∈ (sweeps E E.individual (xs, w.delta)).1, P y)
    (h0 : w.delta = 0) (hg : g.Nodup) (h : solveGroup E w g = some w') : GroupDone E P w w' g := by
  simp only [solveGroup, Option.bind_eq_some_iff] at h
  obtain ⟨xs, hxs, man, hman, h⟩ := h
  obtain ⟨hM, hz⟩ := groupRows_matches hxs
  obtain ⟨s1, s2⟩ := sweeps_spec E E.individual (xs, w.delta)
  have e0 : effs xs = 0 := by
    have hzero : ∀ p : Pair T, ∀ J : Jac T, effect p J 0 = 0 := by
      intro p J
      have := effect_add p J 0 0
      rw [add_zero] at this
      simpa using this
    apply List.sum_eq_zero
    intro v hv
    obtain ⟨y, hy, rfl⟩ := List.mem_map.1 hv
    obtain ⟨a, b, c⟩ := hz y hy
    simp only [CRow.eff, a, b, c, hzero, add_zero]
  dsimp only at s1 s2 h hman
  rw [e0, add_zero, h0, zero_add] at s2
  obtain ⟨man', p1, p2, p3, p4, p5, p6⟩ := persist_spec P (hM.same s1) (hP xs hxs) hg w.man (fun _ _ => rfl)
  rw [h0] at p1 p4 p5 p6 hman h
  rw [hman] at p1
  simp only [Option.some.injEq] at p1
  subst p1
  obtain ⟨w'', a1, a2⟩ := applyDeltas_spec g
    { w with man := man, delta := (sweeps E E.individual (xs, 0)).2 } (by
      intro i hi
      obtain ⟨m, cs, _, h2, _⟩ := p3 i hi
      simp [h2])
  rw [h] at a1
  simp only [Option.some.injEq] at a1
  subst a1
  have hent : ∀ e, entry (sweeps E E.individual (xs, 0)).2 e = change E.plane w man g e := by
    intro e; rw [s2]; exact p4 e
  have hzero : ∀ e, ((w.body e).kind = .static ∨ e ∉ members man g) → change E.plane w man g e = 0 := by
    intro e he
    apply List.sum_eq_zero
    intro v hv
    obtain ⟨i, hi, rfl⟩ := List.mem_map.1 hv
    obtain ⟨m, cs, _, h2, _⟩ := p3 i hi
    rw [h2]
    apply pushAll_zero
    rcases he with he | he
    · right; rw [he]; simp
    · left
      have : ∀ x ∈ [m.a, m.b], x ∈ members man g := by
        intro x hx
        refine List.mem_flatMap.2 ⟨i, hi, ?_⟩
        rw [h2]; exact hx
      exact ⟨fun hx => he (hx ▸ this m.a (by simp)), fun hx => he (hx ▸ this m.b (by simp))⟩
  have d0 : ∀ e, w'.delta.1 (e + 1) = 0 ∧ w'.delta.2 (e + 1) = 0 := by
    intro e
    by_cases he : (w.body e).kind = .static ∨ e ∉ members man g
    · have h1 := hent e
      rw [hzero e he] at h1
      exact ⟨a2.keptZ _ (congrArg Prod.fst h1), a2.keptZ2 _ (congrArg Prod.snd h1)⟩
    · simp only [not_or, not_not] at he
      exact a2.zero e he.2 he.1
  refine ⟨?_, ?_, ?_, ?_⟩
  · refine Prod.ext (funext fun s => ?_) (funext fun s => ?_)
    · cases s with
      | zero => exact a2.keptZ 0 (by show (sweeps E E.individual (xs, 0)).2.1 0 = 0; rw [s2]; exact p5)
      | succ e => exact (d0 e).1
    · cases s with
      | zero => exact a2.keptZ2 0 (by show (sweeps E E.individual (xs, 0)).2.2 0 = 0; rw [s2]; exact p6)
      | succ e => exact (d0 e).2
  · intro e
    have hl := a2.lin e
    have hr := a2.ang e
    rw [(d0 e).1, add_zero] at hl
    rw [(d0 e).2, add_zero] at hr
    rw [a2.rest e, hl, hr, a2.man, ← hent e]
    rfl
  · intro i hi; rw [a2.man]; exact p2 i hi
  · intro i hi; rw [a2.man]; exact p3 i hi

end Edyn.Restitution
