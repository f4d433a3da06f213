import Verif.Restitution.Props

/-!
# Bouncing (C86)

Two bodies that touch in one point without friction leave with the coefficient of restitution times their
speed of approach; the calls are defined if all contacts have a material; and one group of manifolds reports
exactly the impulses that changed the velocities.
-/

namespace Edyn.Restitution

open Edyn.Math Edyn.Solver

variable {T : Type} [Field T] [LinearOrder T] [IsStrictOrderedRing T]

/-! ### One group -/

/-- **C86.** When the manifolds connected to a body are solved, the velocities of all bodies change by
exactly the impulses the contacts of these manifolds report afterwards. -/
theorem group_reports_impulses (E : Env T) (w w' : World T) (g : List Nat) (h0 : w.delta = 0)
    (hg : g.Nodup) (h : solveGroup E w g = some w') (e : Nat) :
    (w'.body e).lin = (w.body e).lin + (change E.plane w w'.man g e).1 ∧
    (w'.body e).ang = (w.body e).ang + (change E.plane w w'.man g e).2 := by
  have := (solveGroup_spec (fun _ => True) (fun _ _ _ _ => trivial) h0 hg h).body e
  rw [this]
  exact ⟨rfl, rfl⟩

/-! ### The calls are defined -/

/-- Every contact has a material and every manifold a dynamic body. -/
def World.Complete (w : World T) : Prop :=
  ∀ i m, w.man i = some m → (∀ c ∈ m.contacts, c.mat.isSome) ∧
    ((w.body m.a).kind = .dynamic ∨ (w.body m.b).kind = .dynamic)

omit [IsStrictOrderedRing T] in
theorem World.Complete.same {w w' : World T} (h : w.Complete) (hs : World.Same w w') : w'.Complete := by
  intro i m' hm'
  have hr := hs.man i
  rw [hm'] at hr
  cases hw : w.man i with
  | none => rw [hw] at hr; cases hr
  | some m =>
    rw [hw] at hr
    cases hr with
    | some hr =>
      obtain ⟨h1, h2⟩ := h i m hw
      refine ⟨?_, ?_⟩
      · intro c' hc'
        obtain ⟨c, hc, hcs⟩ := forall₂_right hr.2.2.2 hc'
        rw [hcs]; exact h1 c hc
      · rw [hr.1, hr.2.1, (hs.body m.a).1, (hs.body m.b).1]; exact h2

omit [IsStrictOrderedRing T] in
theorem mapM_some {α β : Type} (f : α → Option β) (l : List α) (h : ∀ a ∈ l, (f a).isSome) :
    ∃ r, l.mapM f = some r := by
  induction l with
  | nil => exact ⟨[], rfl⟩
  | cons a l ih =>
    obtain ⟨r, hr⟩ := ih fun x hx => h x (by simp [hx])
    obtain ⟨b, hb⟩ := Option.isSome_iff_exists.1 (h a (by simp))
    exact ⟨b :: r, by simp [List.mapM_cons, hb, hr]⟩

theorem solveGroup_succeeds {E : Env T} {w : World T} {g : List Nat} (hg : g.Nodup) (hc : w.Complete)
    (hm : ∀ i ∈ g, (w.man i).isSome) : ∃ w', solveGroup E w g = some w' := by
  obtain ⟨xss, hxss⟩ := mapM_some (manifoldRows E w) g (by
    intro i hi
    obtain ⟨m, hmi⟩ := Option.isSome_iff_exists.1 (hm i hi)
    obtain ⟨r, hr⟩ := mapM_some (contactRows E w m) m.contacts (by
      intro c hcm
      have := (hc i m hmi).1 c hcm
      simpa [contactRows] using this)
    simp [manifoldRows, hmi, hr])
  have hxs : groupRows E w g = some xss.flatten := by simp [groupRows, hxss]
  obtain ⟨man, p1, _, p3, _⟩ := persist_spec (fun _ => True)
    ((groupRows_matches hxs).1.same (sweeps_spec E E.individual (xss.flatten, w.delta)).1)
    (fun _ _ => trivial) hg w.man (fun _ _ => rfl)
  obtain ⟨w', h1, _⟩ := applyDeltas_spec g
    { w with man := man, delta := (sweeps E E.individual (xss.flatten, w.delta)).2 } (by
      intro i hi
      obtain ⟨m, cs, _, h2, _⟩ := p3 i hi
      simp [h2])
  refine ⟨w', ?_⟩
  unfold solveGroup
  rw [hxs]
  simp only [Option.bind_some]
  rw [p1]
  exact h1

/-- That no component is missing, for every world in which manifolds have a dynamic body. -/
def DefinedFull : Prop :=
  ∀ (E : Env Rat) (islands : List (List Nat)) (w : World Rat), (∀ n, (E.edges n).Nodup) → w.delta = 0 →
    (∀ i m, w.man i = some m → (w.body m.a).kind = .dynamic ∨ (w.body m.b).kind = .dynamic) →
    ∃ w', solveRestitution E islands w = some w'

/-- **C86.** If all contacts have a material and every manifold has a dynamic body, no component is missing
and no assertion fails.  A contact with a body that has no material (a sensor) is not covered:
`sensor_undefined`. -/
theorem restitution_defined_partial (E : Env T) (hE : ∀ n, (E.edges n).Nodup) (islands : List (List Nat))
    (w : World T) (h0 : w.delta = 0) (hc : w.Complete) : ∃ w', solveRestitution E islands w = some w' := by
  let Q : World T → Prop := fun v => World.Same w v ∧ v.delta = 0
  have hnode : ∀ v n, Q v → ∃ v', visitNode E v n = some v' ∧ Q v' := by
    intro v n hv
    have hex : ∃ v', visitNode E v n = some v' := by
      unfold visitNode
      split
      · exact ⟨_, rfl⟩
      · dsimp only
        split
        · exact ⟨_, rfl⟩
        · apply solveGroup_succeeds ((hE n).filter _) (hc.same hv.1)
          intro i hi
          have := (List.mem_filter.1 hi).2
          unfold inGroup at this
          cases hm : v.man i with
          | none => rw [hm] at this; simp at this
          | some m => rfl
    obtain ⟨v', hv'⟩ := hex
    refine ⟨v', hv', ?_⟩
    rcases visitNode_cases hv' with rfl | ⟨_, hs⟩
    · exact hv
    · have := solveGroup_spec (fun _ => True) (fun _ _ _ _ => trivial) hv.2 ((hE n).filter _) hs
      exact ⟨World.same_trans hv.1 this.same, this.delta⟩
  have hfold : ∀ (l : List Nat) v, Q v → ∃ v', l.foldlM (visitNode E) v = some v' ∧ Q v' := by
    intro l
    induction l with
    | nil => intro v hv; exact ⟨v, rfl, hv⟩
    | cons n l ih =>
      intro v hv
      obtain ⟨v1, h1, hv1⟩ := hnode v n hv
      obtain ⟨v2, h2, hv2⟩ := ih v1 hv1
      exact ⟨v2, by simp [List.foldlM_cons, h1, h2], hv2⟩
  have hit : ∀ l v, Q v → ∃ r, iteration E l v = some r ∧ Q r.1 := by
    intro l v hv
    obtain ⟨_, _, h3⟩ := fastest_spec E v l
    unfold iteration
    rcases h3 with h3 | ⟨i, _, m, hm, _, h3⟩
    · rw [h3]; exact ⟨_, rfl, hv⟩
    · rw [h3]
      simp only [hm, Option.bind_some]
      by_cases ht : E.threshold < minRelvel E v m
      · rw [if_pos ht]; exact ⟨_, rfl, hv⟩
      · rw [if_neg ht]
        have hst : ∃ s, startNode v m = some s := by
          have := (hc.same hv.1 i m hm).2
          unfold startNode
          dsimp only
          by_cases hlt : (v.body m.b).v.lengthSqr < (v.body m.a).v.lengthSqr
          · simp only [if_pos hlt]
            rcases this with h | h
            · exact ⟨_, if_pos h⟩
            · by_cases h' : (v.body m.a).kind = .dynamic
              · exact ⟨_, if_pos h'⟩
              · exact ⟨_, by rw [if_neg h', if_pos h]⟩
          · simp only [if_neg hlt]
            rcases this with h | h
            · by_cases h' : (v.body m.b).kind = .dynamic
              · exact ⟨_, if_pos h'⟩
              · exact ⟨_, by rw [if_neg h', if_pos h]⟩
            · exact ⟨_, if_pos h⟩
        obtain ⟨s, hs⟩ := hst
        obtain ⟨v', h1, h2⟩ := hfold (E.visited s) v hv
        exact ⟨(v', false), by simp [hs, h1], h2⟩
  have hpass : ∀ l v, Q v → ∃ r, pass E l v = some r ∧ Q r.1 := by
    intro l
    induction l with
    | nil => intro v hv; exact ⟨_, rfl, hv⟩
    | cons i l ih =>
      intro v hv
      obtain ⟨r1, h1, q1⟩ := hit i v hv
      obtain ⟨r2, h2, q2⟩ := ih r1.1 q1
      exact ⟨(r2.1, r1.2 && r2.2), by simp [pass, h1, h2], q2⟩
  have hpasses : ∀ k v, Q v → ∃ v', passes E islands k v = some v' := by
    intro k
    induction k with
    | zero => intro v _; exact ⟨v, rfl⟩
    | succ k ih =>
      intro v hv
      obtain ⟨r, h1, q⟩ := hpass islands v hv
      simp only [passes, h1, Option.bind_some]
      by_cases hr : r.2 = true
      · rw [if_pos hr]; exact ⟨_, rfl⟩
      · rw [if_neg hr]; exact ih r.1 q
  unfold solveRestitution
  rw [dummies_zero w h0]
  exact hpasses _ w ⟨World.same_refl w, h0⟩

/-! ### One contact without friction -/

omit [LinearOrder T] [IsStrictOrderedRing T] in
theorem speed_eq [LinearOrder T] (w : World T) (m : Manifold T) (c : Contact T) :
    speedAlong w m (jacOf w m c c.normal) = speed (w.body m.a) (w.body m.b) c := by
  simp only [speedAlong, jacOf, speed, V3.dot, V3.cross_x, V3.cross_y, V3.cross_z, V3.add_x, V3.add_y,
    V3.add_z, V3.sub_x, V3.sub_y, V3.sub_z, V3.neg_x, V3.neg_y, V3.neg_z]
  ring

/-- Friction rows without friction do nothing. -/
theorem frictionless (root : T → T) (eps : T) (f : Friction T) (n : Row T) (u : Vel T) (hc : f.coeff = 0)
    (h0 : f.row0.impulse = 0) (h1 : f.row1.impulse = 0) : solveFriction root eps f n u = (f, u) := by
  have hz : ∀ J : Jac T, applyImpulse n.pair J 0 u = u := by
    intro J
    rw [applyImpulse_eq]
    have := effect_add n.pair J 0 0
    rw [add_zero] at this
    have : effect n.pair J 0 = 0 := by simpa using this
    rw [this, add_zero]
  have hf : (⟨⟨f.row0.J, f.row0.effMass, f.row0.rhs, 0⟩, ⟨f.row1.J, f.row1.effMass, f.row1.rhs, 0⟩, 0,
      f.normal⟩ : Friction T) = f := by
    obtain ⟨⟨_, _, _, i0⟩, ⟨_, _, _, i1⟩, co, _⟩ := f
    simp only at h0 h1 hc
    subst h0 h1 hc
    rfl
  simp only [solveFriction, hc, h0, h1, zero_mul, zero_add, mul_zero, ite_self, sub_zero, hz]
  split
  · rw [hf]
  · rename_i h
    have hle := not_lt.1 h
    generalize hd0 : (f.row0.rhs - relSpeed n.pair f.row0.J u) * f.row0.effMass = d0 at *
    generalize hd1 : (f.row1.rhs - relSpeed n.pair f.row1.J u) * f.row1.effMass = d1 at *
    have a0 : d0 = 0 := by
      have := mul_self_nonneg d1
      have h2 : d0 * d0 ≤ 0 := by linarith
      exact mul_self_eq_zero.1 (le_antisymm h2 (mul_self_nonneg _))
    have a1 : d1 = 0 := by
      have := mul_self_nonneg d0
      have h2 : d1 * d1 ≤ 0 := by linarith
      exact mul_self_eq_zero.1 (le_antisymm h2 (mul_self_nonneg _))
    rw [a0, a1, hz, hz, hf]

/-- The reciprocal of the effective mass along the normal of a contact. -/
def invMassAt (w : World T) (m : Manifold T) (c : Contact T) : T :=
  invEffMass (pairOf w m) (jacOf w m c c.normal)

/-- It is positive for bodies with positive masses and inertias. -/
theorem invMassAt_pos (w : World T) (m : Manifold T) (c : Contact T) (hn : c.normal.lengthSqr = 1)
    (hdyn : (w.body m.a).kind = .dynamic ∨ (w.body m.b).kind = .dynamic)
    (hM : ∀ e, (w.body e).kind = .dynamic → 0 < (w.body e).invM)
    (hI : ∀ e, (w.body e).kind = .dynamic → ∀ v : V3 T, 0 ≤ ((w.body e).invI.mulVec v).dot v) :
    0 < invMassAt w m c := by
  have him : ∀ e, 0 ≤ (w.body e).im ∧ ((w.body e).kind = .dynamic → 0 < (w.body e).im) := by
    intro e
    unfold Body.im
    by_cases h : (w.body e).kind = .dynamic
    · rw [if_pos h]; exact ⟨(hM e h).le, fun _ => hM e h⟩
    · rw [if_neg h]; exact ⟨le_refl _, fun h' => absurd h' h⟩
  have hiI : ∀ e, ∀ v : V3 T, 0 ≤ ((w.body e).iI.mulVec v).dot v := by
    intro e v
    unfold Body.iI
    by_cases h : (w.body e).kind = .dynamic
    · rw [if_pos h]; exact hI e h v
    · rw [if_neg h, zero_mulVec, zero_dot']
  have hneg : (-c.normal).dot (-c.normal) = 1 := by
    have : (-c.normal).dot (-c.normal) = c.normal.lengthSqr := by
      simp only [V3.lengthSqr, V3.dot, V3.neg_x, V3.neg_y, V3.neg_z]; ring
    rw [this, hn]
  have hn' : c.normal.dot c.normal = 1 := hn
  simp only [invMassAt, invEffMass, pairOf, jacOf]
  rw [hn', hneg, one_mul, one_mul]
  have p1 := hiI m.a (((w.body m.a).arm c.pivotA).cross c.normal)
  have p2 := hiI m.b (-(((w.body m.b).arm c.pivotB).cross c.normal))
  have p3 := him m.a
  have p4 := him m.b
  rcases hdyn with h | h
  · have := p3.2 h; linarith [p4.1]
  · have := p4.2 h; linarith [p3.1]

omit [IsStrictOrderedRing T] in
theorem slots_ne (w : World T) (m : Manifold T) (hne : m.a ≠ m.b)
    (hdyn : (w.body m.a).kind = .dynamic ∨ (w.body m.b).kind = .dynamic) : slot w m.a ≠ slot w m.b := by
  unfold slot
  by_cases ha : (w.body m.a).kind = .dynamic <;> by_cases hb : (w.body m.b).kind = .dynamic
  · rw [if_pos ha, if_pos hb]; omega
  · rw [if_pos ha, if_neg hb]; omega
  · rw [if_neg ha, if_pos hb]; omega
  · rcases hdyn with h | h <;> contradiction

theorem relSpeed_zero (p : Pair T) (J : Jac T) : relSpeed p J (0 : Vel T) = 0 := by
  have h1 : ∀ x, (0 : Vel T).1 x = 0 := fun _ => rfl
  have h2 : ∀ x, (0 : Vel T).2 x = 0 := fun _ => rfl
  simp [relSpeed, h1, h2, dot_zero']

/-- The rows of the only contact after any positive number of sweeps. -/
theorem sweeps_single (E : Env T) (w : World T) (m : Manifold T) (c : Contact T) (e : T) (he : 0 ≤ e)
    (hmat : c.mat = some ⟨e, 0⟩) (hne : slot w m.a ≠ slot w m.b) (hK : 0 < invMassAt w m c)
    (hv : speed (w.body m.a) (w.body m.b) c ≤ 0)
    (hup : -((1 + e) * speed (w.body m.a) (w.body m.b) c) / invMassAt w m c ≤ E.large) (k : Nat) :
    ∃ x y, contactRows E w m c = some x ∧ CRow.Same x y ∧
      y.n.impulse = -((1 + e) * speed (w.body m.a) (w.body m.b) c) / invMassAt w m c ∧
      y.f.row0.impulse = 0 ∧ y.f.row1.impulse = 0 ∧
      sweeps E (k + 1) ([x], 0) = ([y], effect (pairOf w m) (jacOf w m c c.normal) y.n.impulse) := by
  set v := speed (w.body m.a) (w.body m.b) c with hvd
  set K := invMassAt w m c with hKd
  set l := -((1 + e) * v) / K with hl
  have hl0 : 0 ≤ l := by
    apply div_nonneg _ hK.le
    nlinarith
  obtain ⟨x, hx⟩ : ∃ x, contactRows E w m c = some x := by simp [contactRows, hmat]
  have hx' := hx
  simp only [contactRows, hmat, Option.map_some, Option.some.injEq] at hx'
  have xn : x.n = ⟨jacOf w m c c.normal, 1 / K, -(v * (1 + e)), 0, E.large, 0, pairOf w m⟩ := by
    rw [← hx']
    simp only [hKd, invMassAt, hvd, speed_eq]
  have xf0 : x.f.row0.impulse = 0 := by rw [← hx']; rfl
  have xf1 : x.f.row1.impulse = 0 := by rw [← hx']; rfl
  have xc : x.f.coeff = 0 := by rw [← hx']
  let y : CRow T := ⟨{ x.n with impulse := l }, x.f⟩
  let J := jacOf w m c c.normal
  let u1 := effect (pairOf w m) J l
  have hrel : relSpeed (pairOf w m) J u1 = l * K := by
    have := relSpeed_effect (pairOf w m) J l 0 hne
    rw [zero_add, relSpeed_zero, zero_add] at this
    exact this
  have hlK : l * K = -((1 + e) * v) := by rw [hl, div_mul_cancel₀ _ hK.ne']
  have v1 : visit E x 0 = (y, u1) := by
    have hs : solveRow x.n 0 = ({ x.n with impulse := l }, l) := by
      have hd : (x.n.rhs - relSpeed x.n.pair x.n.J 0) * x.n.effMass = l := by
        rw [relSpeed_zero, xn, hl]; dsimp only; ring
      have hi : x.n.impulse = 0 := by rw [xn]
      have hlo : x.n.lower = 0 := by rw [xn]
      have hupp : x.n.upper = E.large := by rw [xn]
      simp only [solveRow, hd, hi, zero_add, hlo, hupp]
      rw [if_neg (not_lt.2 hl0), if_neg (not_lt.2 hup)]
    unfold visit
    rw [hs]
    dsimp only
    have hap : applyImpulse x.n.pair x.n.J l 0 = u1 := by
      rw [applyImpulse_eq, zero_add, xn]
    rw [hap, frictionless _ _ _ _ _ xc xf0 xf1]
  have v2 : visit E y u1 = (y, u1) := by
    have hs : solveRow y.n u1 = (y.n, 0) := by
      have hd : (y.n.rhs - relSpeed y.n.pair y.n.J u1) * y.n.effMass = 0 := by
        have h1 : y.n.pair = pairOf w m := by show x.n.pair = _; rw [xn]
        have h2 : y.n.J = J := by show x.n.J = _; rw [xn]
        have h3 : y.n.rhs = -(v * (1 + e)) := by show x.n.rhs = _; rw [xn]
        rw [h1, h2, h3, hrel, hlK]; ring
      have hlo : y.n.lower = 0 := by show x.n.lower = 0; rw [xn]
      have hupp : y.n.upper = E.large := by show x.n.upper = _; rw [xn]
      have hi : y.n.impulse = l := rfl
      unfold solveRow
      dsimp only
      rw [hd, add_zero, if_neg (by rw [hlo, hi]; exact not_lt.2 hl0),
        if_neg (by rw [hupp, hi]; exact not_lt.2 hup)]
    unfold visit
    rw [hs]
    dsimp only
    have hap : applyImpulse y.n.pair y.n.J 0 u1 = u1 := by
      rw [applyImpulse_eq]
      have := effect_add y.n.pair y.n.J 0 0
      rw [add_zero] at this
      have : effect y.n.pair y.n.J 0 = 0 := by simpa using this
      rw [this, add_zero]
    rw [hap, frictionless _ _ _ _ _ xc xf0 xf1]
  have s2 : ∀ k, sweeps E k ([y], u1) = ([y], u1) := by
    intro k
    induction k with
    | zero => rfl
    | succ k ih =>
      show sweeps E k (sweep E [y] u1) = _
      have : sweep E [y] u1 = ([y], u1) := by simp only [sweep, v2]
      rw [this, ih]
  refine ⟨x, y, hx, ⟨rfl, rfl⟩, rfl, xf0, xf1, ?_⟩
  show sweeps E k (sweep E [x] 0) = _
  have : sweep E [x] 0 = ([y], u1) := by simp only [sweep, v1]
  rw [this, s2]

/-- The only contact of a pair of bodies that touch nothing else: the situation of `isolated_bounce`. -/
structure Isolated (E : Env T) (w : World T) (i : Nat) (m : Manifold T) (c : Contact T) : Prop where
  man : w.man i = some m
  contacts : m.contacts = [c]
  bouncy : m.bouncy = true
  ne : m.a ≠ m.b
  dynamic : (w.body m.a).kind = .dynamic ∨ (w.body m.b).kind = .dynamic
  edges : ∀ n, n = m.a ∨ n = m.b → E.edges n = [i]
  visited : ∀ s, s = m.a ∨ s = m.b → s ∈ E.visited s ∧ ∀ n ∈ E.visited s, n = m.a ∨ n = m.b

theorem minRelvel_single (E : Env T) (w : World T) (m : Manifold T) (c : Contact T) (h : m.contacts = [c])
    (hb : speed (w.body m.a) (w.body m.b) c ≤ E.big) :
    minRelvel E w m = speed (w.body m.a) (w.body m.b) c := by
  unfold minRelvel
  rw [h]
  simp only [List.foldl_cons, List.foldl_nil, stdMin]
  rw [if_neg (not_lt.2 hb)]

/-- Solving the only manifold. -/
theorem group_single (E : Env T) (w : World T) (i : Nat) (m : Manifold T) (c : Contact T) (e : T)
    (hi : Isolated E w i m c) (he : 0 ≤ e) (hmat : c.mat = some ⟨e, 0⟩) (h0 : w.delta = 0)
    (hind : 0 < E.individual) (hK : 0 < invMassAt w m c) (hv : speed (w.body m.a) (w.body m.b) c ≤ 0)
    (hup : -((1 + e) * speed (w.body m.a) (w.body m.b) c) / invMassAt w m c ≤ E.large) :
    ∃ w', solveGroup E w [i] = some w' ∧ w'.delta = 0 ∧
      w'.man i = some { m with contacts := [{ c with
        imp := -((1 + e) * speed (w.body m.a) (w.body m.b) c) / invMassAt w m c, fimp0 := 0, fimp1 := 0 }] } ∧
      speed (w'.body m.a) (w'.body m.b) c = -(e * speed (w.body m.a) (w.body m.b) c) ∧
      (∀ x, (w'.body x).kind = (w.body x).kind) ∧
      ∀ x, ((w'.body x).lin, (w'.body x).ang) = ((w.body x).lin, (w.body x).ang) +
        push w m c (V3.smul (-((1 + e) * speed (w.body m.a) (w.body m.b) c) / invMassAt w m c) c.normal) x := by
  have hsl := slots_ne w m hi.ne hi.dynamic
  obtain ⟨k, hk⟩ : ∃ k, E.individual = k + 1 := ⟨E.individual - 1, by omega⟩
  obtain ⟨x, y, hx, hxy, hy1, hy2, hy3, hsw⟩ := sweeps_single E w m c e he hmat hsl hK hv hup k
  have hrows : groupRows E w [i] = some [x] := by
    simp [groupRows, manifoldRows, hi.man, hi.contacts, hx]
  have hof := (contactRows_of hx).1
  have hofy := hof.same hxy
  -- the world afterwards
  have hper : persist [i] [y] w.man = some (Function.update w.man i (some { m with contacts := [store c y] })) := by
    simp [persist, hi.man, hi.contacts]
  obtain ⟨w', ha, hap⟩ := applyDeltas_spec [i]
    { w with man := Function.update w.man i (some { m with contacts := [store c y] }),
             delta := effect (pairOf w m) (jacOf w m c c.normal) y.n.impulse } (by
      intro j hj
      rw [List.mem_singleton.1 hj]; simp)
  have hw' : solveGroup E w [i] = some w' := by
    unfold solveGroup
    rw [hrows, h0, hk]
    simp only [Option.bind_some, hsw, hper]
    exact ha
  have hst : w'.man i = some { m with contacts := [store c y] } := by
    rw [hap.man]
    simp
  have hG := solveGroup_spec (fun _ => True) (fun _ _ _ _ => trivial) h0 (by simp) hw'
  set l := -((1 + e) * speed (w.body m.a) (w.body m.b) c) / invMassAt w m c with hl
  have hstore : store c y = { c with imp := l, fimp0 := 0, fimp1 := 0 } := by
    simp only [store, hy1, hy2, hy3]
  have hrep : reported E.plane (store c y) = V3.smul l c.normal := by
    rw [hstore]
    simp only [reported, zero_smul', add_zero]
  have hch : ∀ z, change E.plane w w'.man [i] z = push w m c (V3.smul l c.normal) z := by
    intro z
    simp only [change, List.map_cons, List.map_nil, List.sum_cons, List.sum_nil, add_zero, hst,
      Option.elim_some, pushAll, hrep]
    rfl
  have hk' : ∀ z, (w'.body z).kind = (w.body z).kind := fun z => by rw [hG.body z]
  refine ⟨w', hw', hG.delta, by rw [hst, hstore], ?_, hk', ?_⟩
  · -- the speed afterwards
    have hpush : ∀ z, push w m c (V3.smul l c.normal) z =
        ((effect (pairOf w m) (jacOf w m c c.normal) l).1 (z + 1),
          (effect (pairOf w m) (jacOf w m c c.normal) l).2 (z + 1)) := fun z => (effect_push w m c _ l z).symm
    set u := effect (pairOf w m) (jacOf w m c c.normal) l with hu
    have hvel : ∀ z, (w'.body z).v = (w.body z).v + u.1 (slot w z) ∧
        (w'.body z).w = (w.body z).w + u.2 (slot w z) := by
      intro z
      have hz := hG.body z
      rw [hch z, hpush z] at hz
      have d1 : u.1 0 = 0 := (effect_dummy w m _ l).1
      have d2 : u.2 0 = 0 := (effect_dummy w m _ l).2
      unfold Body.v Body.w
      rw [hk' z]
      by_cases hd : (w.body z).kind = .dynamic
      · have hs : slot w z = z + 1 := by unfold slot; rw [if_pos hd]
        rw [hs, hd, hz]
        simp
      · have hs : slot w z = 0 := by unfold slot; rw [if_neg hd]
        have hsame := (hG.same.body z).2 hd
        rw [hs, d1, d2, hsame, add_zero, add_zero]
        exact ⟨rfl, rfl⟩
    have harm : ∀ z p, (w'.body z).arm p = (w.body z).arm p := by
      intro z p
      unfold Body.arm
      rw [hG.body z]
    have hj : jacOf w' m c c.normal = jacOf w m c c.normal := by
      unfold jacOf
      rw [harm, harm]
    rw [← speed_eq w' m c, hj]
    have hrel : relSpeed (pairOf w m) (jacOf w m c c.normal) u = l * invMassAt w m c := by
      have := relSpeed_effect (pairOf w m) (jacOf w m c c.normal) l 0 hsl
      rw [zero_add, relSpeed_zero, zero_add] at this
      exact this
    have hlK : l * invMassAt w m c = -((1 + e) * speed (w.body m.a) (w.body m.b) c) := by
      rw [hl, div_mul_cancel₀ _ hK.ne']
    have hsum : speedAlong w' m (jacOf w m c c.normal) = speedAlong w m (jacOf w m c c.normal) +
        relSpeed (pairOf w m) (jacOf w m c c.normal) u := by
      simp only [speedAlong, relSpeed, (hvel m.a).1, (hvel m.a).2, (hvel m.b).1, (hvel m.b).2, dot_add_right]
      simp only [pairOf]
      ring
    rw [hsum, hrel, hlK, speed_eq]
    ring
  · intro z
    rw [hG.body z, hch z]
    rfl

/-- The velocities after the bounce of an isolated contact. -/
theorem isolated_bounce_full (E : Env T) (w : World T) (i : Nat) (m : Manifold T) (c : Contact T) (e : T)
    (hi : Isolated E w i m c) (he : 0 ≤ e) (hmat : c.mat = some ⟨e, 0⟩) (h0 : w.delta = 0)
    (hthr : E.threshold < 0) (hbig : 0 < E.big) (hit : 0 < E.iterations) (hind : 0 < E.individual)
    (hK : 0 < invMassAt w m c) (hv : speed (w.body m.a) (w.body m.b) c < E.threshold)
    (hup : -((1 + e) * speed (w.body m.a) (w.body m.b) c) / invMassAt w m c ≤ E.large) :
    ∃ w', solveRestitution E [[i]] w = some w' ∧
      speed (w'.body m.a) (w'.body m.b) c = -(e * speed (w.body m.a) (w.body m.b) c) ∧
      w'.man i = some { m with contacts := [{ c with
        imp := -((1 + e) * speed (w.body m.a) (w.body m.b) c) / invMassAt w m c, fimp0 := 0, fimp1 := 0 }] } ∧
      (∀ x, (w'.body x).kind = (w.body x).kind) ∧
      ∀ x, ((w'.body x).lin, (w'.body x).ang) = ((w.body x).lin, (w.body x).ang) +
        push w m c (V3.smul (-((1 + e) * speed (w.body m.a) (w.body m.b) c) / invMassAt w m c) c.normal) x := by
  set v := speed (w.body m.a) (w.body m.b) c with hvd
  obtain ⟨w', g1, g2, g3, g4, g5, g6⟩ := group_single E w i m c e hi he hmat h0 hind hK
    (hv.le.trans hthr.le) hup
  refine ⟨w', ?_, g4, g3, g5, g6⟩
  have hvb : v ≤ E.big := hv.le.trans (hthr.le.trans hbig.le)
  have hmin : minRelvel E w m = v := minRelvel_single E w m c hi.contacts hvb
  have hpos : 0 ≤ -(e * v) := by
    have : v ≤ 0 := hv.le.trans hthr.le
    nlinarith
  have hslow : AllSlow E [[i]] w' := by
    intro isl hisl j hj m' hm' _ c' hc'
    rw [List.mem_singleton.1 hisl] at hj
    rw [List.mem_singleton.1 hj, g3] at hm'
    simp only [Option.some.injEq] at hm'
    subst hm'
    rw [List.mem_singleton.1 hc']
    have : speed (w'.body m.a) (w'.body m.b) { c with imp := -((1 + e) * v) / invMassAt w m c, fimp0 := 0, fimp1 := 0 } =
        speed (w'.body m.a) (w'.body m.b) c := rfl
    show E.threshold < speed (w'.body m.a) (w'.body m.b) _
    rw [this, g4]
    exact hthr.trans_le hpos
  have hbt : E.threshold < E.big := hthr.trans hbig
  have hin : inGroup E w i = true := by
    unfold inGroup
    rw [hi.man]
    simp [hmin, hv]
  have hnin : inGroup E w' i = false := by
    unfold inGroup
    rw [g3]
    have hs := (slow_iff hbt w' { m with contacts := [{ c with imp := -((1 + e) * v) / invMassAt w m c, fimp0 := 0, fimp1 := 0 }] }).2
      (hslow [i] (by simp) i (by simp) _ g3 hi.bouncy)
    simp only [decide_eq_false_iff_not, not_lt]
    exact hs.le
  have n1 : ∀ n, n = m.a ∨ n = m.b → (w.body n).kind = .dynamic → visitNode E w n = some w' := by
    intro n hn hd
    unfold visitNode
    rw [if_neg (by simp [hd]), hi.edges n hn]
    simp [hin, g1]
  have n2 : ∀ n, (w.body n).kind ≠ .dynamic → visitNode E w n = some w := by
    intro n hd
    unfold visitNode
    rw [if_pos hd]
  have n3 : ∀ n, n = m.a ∨ n = m.b → visitNode E w' n = some w' := by
    intro n hn
    unfold visitNode
    by_cases hd : (w'.body n).kind ≠ .dynamic
    · rw [if_pos hd]
    · rw [if_neg hd, hi.edges n hn]
      simp [hnin]
  have f2 : ∀ l : List Nat, (∀ n ∈ l, n = m.a ∨ n = m.b) → l.foldlM (visitNode E) w' = some w' := by
    intro l
    induction l with
    | nil => intro _; rfl
    | cons n l ih =>
      intro h
      rw [List.foldlM_cons, n3 n (h n (by simp))]
      exact ih fun z hz => h z (by simp [hz])
  have f1 : ∀ l : List Nat, (∀ n ∈ l, n = m.a ∨ n = m.b) → (∃ n ∈ l, (w.body n).kind = .dynamic) →
      l.foldlM (visitNode E) w = some w' := by
    intro l
    induction l with
    | nil => rintro _ ⟨n, hn, _⟩; cases hn
    | cons n l ih =>
      rintro h ⟨z, hz, hd⟩
      rw [List.foldlM_cons]
      by_cases hn : (w.body n).kind = .dynamic
      · rw [n1 n (h n (by simp)) hn]
        exact f2 l fun z hz => h z (by simp [hz])
      · rw [n2 n hn]
        refine ih (fun z hz => h z (by simp [hz])) ⟨z, ?_, hd⟩
        rcases List.mem_cons.1 hz with rfl | hz
        · exact absurd hd hn
        · exact hz
  have hstart : ∃ s, startNode w m = some s ∧ (s = m.a ∨ s = m.b) ∧ (w.body s).kind = .dynamic := by
    unfold startNode
    dsimp only
    by_cases hlt : (w.body m.b).v.lengthSqr < (w.body m.a).v.lengthSqr
    · simp only [if_pos hlt]
      by_cases ha : (w.body m.a).kind = .dynamic
      · exact ⟨m.a, if_pos ha, .inl rfl, ha⟩
      · have hb := hi.dynamic.resolve_left ha
        exact ⟨m.b, by rw [if_neg ha, if_pos hb], .inr rfl, hb⟩
    · simp only [if_neg hlt]
      by_cases hb : (w.body m.b).kind = .dynamic
      · exact ⟨m.b, if_pos hb, .inr rfl, hb⟩
      · have ha := hi.dynamic.resolve_right hb
        exact ⟨m.a, by rw [if_neg hb, if_pos ha], .inl rfl, ha⟩
  obtain ⟨s, hs1, hs2, hs3⟩ := hstart
  have hfast : fastest E w [i] = (v, some i) := by
    have hlt : v < E.big := hv.trans hbt
    unfold fastest
    simp only [List.foldl_cons, List.foldl_nil, hi.man, hi.bouncy, hmin]
    simp [hlt]
  have hiter : iteration E [i] w = some (w', false) := by
    unfold iteration
    rw [hfast]
    simp only [hi.man, Option.bind_some]
    rw [if_neg (not_lt.2 hv.le), hs1]
    simp only [Option.bind_some]
    rw [f1 (E.visited s) (hi.visited s hs2).2 ⟨s, (hi.visited s hs2).1, hs3⟩]
    rfl
  have hpass : pass E [[i]] w = some (w', false) := by
    simp [pass, hiter]
  unfold solveRestitution
  rw [dummies_zero w h0]
  obtain ⟨k, hk⟩ : ∃ k, E.iterations = k + 1 := ⟨E.iterations - 1, by omega⟩
  rw [hk]
  simp only [passes, hpass, Option.bind_some]
  cases k with
  | zero => rfl
  | succ k => simp [passes, pass_slow hbt hslow]

/-- **C86.** Two bodies that touch each other in one point without friction, and nothing else, and approach
faster than the threshold, leave with the coefficient of restitution times the speed of approach.  The
velocities change by the normal impulse, which the contact reports.  (Positive masses and inertias give
`0 < invMassAt`, see `invMassAt_pos`.) -/
theorem isolated_bounce (E : Env T) (w : World T) (i : Nat) (m : Manifold T) (c : Contact T) (e : T)
    (hi : Isolated E w i m c) (he : 0 ≤ e) (hmat : c.mat = some ⟨e, 0⟩) (h0 : w.delta = 0)
    (hthr : E.threshold < 0) (hbig : 0 < E.big) (hit : 0 < E.iterations) (hind : 0 < E.individual)
    (hK : 0 < invMassAt w m c) (hv : speed (w.body m.a) (w.body m.b) c < E.threshold)
    (hup : -((1 + e) * speed (w.body m.a) (w.body m.b) c) / invMassAt w m c ≤ E.large) :
    ∃ w' l, solveRestitution E [[i]] w = some w' ∧
      speed (w'.body m.a) (w'.body m.b) c = -(e * speed (w.body m.a) (w.body m.b) c) ∧
      w'.man i = some { m with contacts := [{ c with imp := l, fimp0 := 0, fimp1 := 0 }] } ∧
      ∀ x, ((w'.body x).lin, (w'.body x).ang) = ((w.body x).lin, (w.body x).ang) +
        push w m c (V3.smul l c.normal) x := by
  obtain ⟨w', h1, h2, h3, _, h4⟩ := isolated_bounce_full E w i m c e hi he hmat h0 hthr hbig hit hind hK hv hup
  exact ⟨w', _, h1, h2, h3, h4⟩

/-! ### Energy -/

/-- Kinetic energy of a body; bodies that are not dynamic do not take part. -/
def energyOf (mass : T) (I : M3 T) (b : Body T) : T :=
  if b.kind = .dynamic then (mass * b.lin.dot b.lin + b.ang.dot (I.mulVec b.ang)) / 2 else 0

/-- `mass` and `I` are the mass and the inertia of the body, if it is dynamic. -/
def Inertial (mass : T) (I : M3 T) (b : Body T) : Prop :=
  b.kind = .dynamic → mass * b.invM = 1 ∧ Symmetric I ∧ ∀ v, I.mulVec (b.invI.mulVec v) = v

omit [IsStrictOrderedRing T] in
theorem smul_mulVec (M : M3 T) (s : T) (v : V3 T) : M.mulVec (v.smul s) = (M.mulVec v).smul s := by
  ext <;> simp only [M3.mulVec, V3.dot, V3.smul] <;> ring

omit [LinearOrder T] [IsStrictOrderedRing T] in
theorem cross_smul (r v : V3 T) (s : T) : r.cross (v.smul s) = (r.cross v).smul s := by
  ext <;> simp only [V3.cross_x, V3.cross_y, V3.cross_z, V3.smul] <;> ring

/-- Energy of a body that takes the impulse `l n` at the offset `r`. -/
theorem energy_push (mass l : T) (I : M3 T) (b b' : Body T) (r n : V3 T) (h : Inertial mass I b)
    (hk : b.kind = .dynamic ∨ b.kind = .static) (hk' : b'.kind = b.kind)
    (hl : b'.lin = b.lin + kick b (V3.smul l n)) (ha : b'.ang = b.ang + twist b r (V3.smul l n)) :
    energyOf mass I b' = energyOf mass I b + (l * (n.dot b.v + (r.cross n).dot b.w) +
      l * l / 2 * (n.dot n * b.im + (b.iI.mulVec (r.cross n)).dot (r.cross n))) := by
  rcases hk with hd | hd
  · obtain ⟨h1, h2, h3⟩ := h hd
    unfold energyOf Body.v Body.w Body.im Body.iI
    rw [hk', if_pos hd, if_pos hd, if_neg (by rw [hd]; simp), if_neg (by rw [hd]; simp), if_pos hd, if_pos hd,
      hl, ha]
    unfold kick twist
    rw [if_pos hd, if_pos hd, body_energy mass I h2, h3]
    simp only [cross_smul, smul_mulVec, dot_smul_right, dot_smul_left]
    rw [dot_comm' n b.lin, dot_comm' (r.cross n) b.ang]
    linear_combination (l * b.lin.dot n + l * l / 2 * b.invM * n.dot n) * h1
  · have hn : ¬ b.kind = .dynamic := by rw [hd]; simp
    unfold energyOf Body.v Body.w Body.im Body.iI
    rw [hk', if_neg hn, if_neg hn, if_pos hd, if_pos hd, if_neg hn, if_neg hn]
    rw [dot_zero', dot_zero', zero_mulVec, zero_dot']
    ring

/-- **C86.** The bounce of `isolated_bounce` takes energy away, and none if the coefficient is 1. -/
theorem isolated_bounce_energy (E : Env T) (w : World T) (i : Nat) (m : Manifold T) (c : Contact T) (e : T)
    (hi : Isolated E w i m c) (he : 0 ≤ e) (he1 : e ≤ 1) (hmat : c.mat = some ⟨e, 0⟩) (h0 : w.delta = 0)
    (hthr : E.threshold < 0) (hbig : 0 < E.big) (hit : 0 < E.iterations) (hind : 0 < E.individual)
    (hK : 0 < invMassAt w m c) (hv : speed (w.body m.a) (w.body m.b) c < E.threshold)
    (hup : -((1 + e) * speed (w.body m.a) (w.body m.b) c) / invMassAt w m c ≤ E.large)
    (mass : Nat → T) (I : Nat → M3 T)
    (hm : ∀ x, x = m.a ∨ x = m.b → Inertial (mass x) (I x) (w.body x) ∧
      ((w.body x).kind = .dynamic ∨ (w.body x).kind = .static)) :
    ∃ w', solveRestitution E [[i]] w = some w' ∧
      energyOf (mass m.a) (I m.a) (w'.body m.a) + energyOf (mass m.b) (I m.b) (w'.body m.b) ≤
        energyOf (mass m.a) (I m.a) (w.body m.a) + energyOf (mass m.b) (I m.b) (w.body m.b) ∧
      (e = 1 → energyOf (mass m.a) (I m.a) (w'.body m.a) + energyOf (mass m.b) (I m.b) (w'.body m.b) =
        energyOf (mass m.a) (I m.a) (w.body m.a) + energyOf (mass m.b) (I m.b) (w.body m.b)) := by
  obtain ⟨w', h1, _, _, h2⟩ := isolated_bounce_full E w i m c e hi he hmat h0 hthr hbig hit hind hK hv hup
  obtain ⟨h3, h4⟩ := h2
  have hvel : ∀ x, (w'.body x).lin = (w.body x).lin + (push w m c (V3.smul (-((1 + e) *
      speed (w.body m.a) (w.body m.b) c) / invMassAt w m c) c.normal) x).1 ∧ (w'.body x).ang = (w.body x).ang +
      (push w m c (V3.smul (-((1 + e) * speed (w.body m.a) (w.body m.b) c) / invMassAt w m c) c.normal) x).2 := by
    intro x
    have := h4 x
    rw [Prod.ext_iff] at this
    exact this
  set l := -((1 + e) * speed (w.body m.a) (w.body m.b) c) / invMassAt w m c with hl
  have hA := energy_push (mass m.a) l (I m.a) (w.body m.a) (w'.body m.a) ((w.body m.a).arm c.pivotA) c.normal
    (hm m.a (.inl rfl)).1 (hm m.a (.inl rfl)).2 (h3 m.a)
    (by rw [(hvel m.a).1]; simp [push, hi.ne]) (by rw [(hvel m.a).2]; simp [push, hi.ne])
  have hkn : ∀ (b : Body T) P, -kick b P = kick b (-P) := by
    intro b P
    unfold kick
    split_ifs
    · ext <;> simp [V3.smul]
    · simp
  have htn : ∀ (b : Body T) r P, -twist b r P = twist b r (-P) := by
    intro b r P
    unfold twist
    split_ifs
    · ext <;> simp only [M3.mulVec, V3.dot, V3.cross_x, V3.cross_y, V3.cross_z, V3.neg_x, V3.neg_y, V3.neg_z] <;> ring
    · simp
  have hsn : -(V3.smul l c.normal) = V3.smul l (-c.normal) := by
    ext <;> simp [V3.smul]
  have hB := energy_push (mass m.b) l (I m.b) (w.body m.b) (w'.body m.b) ((w.body m.b).arm c.pivotB) (-c.normal)
    (hm m.b (.inr rfl)).1 (hm m.b (.inr rfl)).2 (h3 m.b)
    (by rw [(hvel m.b).1, ← hsn, ← hkn]; simp [push, hi.ne.symm, sub_eq_add_neg])
    (by rw [(hvel m.b).2, ← hsn, ← htn]; simp [push, hi.ne.symm, sub_eq_add_neg])
  have hcn : ((w.body m.b).arm c.pivotB).cross (-c.normal) = -(((w.body m.b).arm c.pivotB).cross c.normal) := by
    ext <;> simp only [V3.cross_x, V3.cross_y, V3.cross_z, V3.neg_x, V3.neg_y, V3.neg_z] <;> ring
  rw [hcn] at hB
  have hlK : l * invMassAt w m c = -((1 + e) * speed (w.body m.a) (w.body m.b) c) := by
    rw [hl, div_mul_cancel₀ _ hK.ne']
  have hs := speed_eq w m c
  simp only [speedAlong, jacOf] at hs
  have hKd : invMassAt w m c = invEffMass (pairOf w m) (jacOf w m c c.normal) := rfl
  simp only [invEffMass, pairOf, jacOf] at hKd
  have hsum : energyOf (mass m.a) (I m.a) (w'.body m.a) + energyOf (mass m.b) (I m.b) (w'.body m.b) =
      energyOf (mass m.a) (I m.a) (w.body m.a) + energyOf (mass m.b) (I m.b) (w.body m.b) +
        l * speed (w.body m.a) (w.body m.b) c * (1 - e) / 2 := by
    rw [hA, hB]
    rw [hKd] at hlK
    linear_combination l * hs + l / 2 * hlK
  have hs0 : speed (w.body m.a) (w.body m.b) c ≤ 0 := hv.le.trans hthr.le
  have hl0 : 0 ≤ l := by
    rw [hl]
    apply div_nonneg _ hK.le
    have : 0 ≤ (1 + e) * -speed (w.body m.a) (w.body m.b) c := mul_nonneg (by linarith) (by linarith)
    linarith
  refine ⟨w', h1, ?_, ?_⟩
  · rw [hsum]
    have h5 : 0 ≤ l * -speed (w.body m.a) (w.body m.b) c := mul_nonneg hl0 (by linarith)
    have h6 : 0 ≤ l * -speed (w.body m.a) (w.body m.b) c * (1 - e) := mul_nonneg h5 (by linarith)
    linarith
  · intro h
    rw [hsum, h]
    ring

end Edyn.Restitution
