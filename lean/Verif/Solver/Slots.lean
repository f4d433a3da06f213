import Verif.Solver.PackProps
import Mathlib.Algebra.Order.Group.Defs
import Mathlib.Algebra.Order.Ring.Rat
import Mathlib.Tactic.Tauto

/-!
# Which impulse belongs to which row of a constraint (C38)

For each constraint type: the impulses that the rows made by `prepare` start with, in the order in which
`update_impulse` collects the impulses of a constraint, and `store_applied_impulses`, which puts the
collected impulses back (`src/edyn/constraints/*.cpp`).  Only the parts of `prepare` which decide whether
a row is added and which impulse it starts with are modelled here; the Jacobians are in `Jacobians.lean`.

Scalars are an ordered group `K`.
-/

namespace Edyn.Solver.Slots

variable {K : Type} [AddCommGroup K] [LinearOrder K]

/-- `impulses[row_idx++]`; `none` if it is out of range. -/
def pop : List K → Option (K × List K)
  | [] => none
  | x :: l => some (x, l)

/-- `if (cond) { field = impulses[row_idx++]; }`: the new value of the field and the impulses left. -/
def popIf (b : Prop) [Decidable b] (old : K) (l : List K) : Option (K × List K) :=
  if b then pop l else some (old, l)

/-- An impulse, if there is a row for it. -/
def rowIf (b : Prop) [Decidable b] (x : K) : List K := if b then [x] else []

omit [AddCommGroup K] [LinearOrder K] in
theorem popIf_spec (b : Prop) [Decidable b] (old : K) (l : List K) (x : K) (n : Nat)
    (h : l.length = (rowIf b x).length + n) :
    ∃ v r, popIf b old l = some (v, r) ∧ l = rowIf b v ++ r ∧ r.length = n ∧ (¬ b → v = old) := by
  unfold popIf rowIf at *
  by_cases hb : b
  · rw [if_pos hb] at h
    cases l with
    | nil => simp at h; omega
    | cons v r =>
      refine ⟨v, r, by rw [if_pos hb]; rfl, by rw [if_pos hb]; rfl, ?_, fun h => absurd hb h⟩
      simp at h; omega
  · rw [if_neg hb] at h
    exact ⟨old, l, by rw [if_neg hb], by rw [if_neg hb]; rfl, by simpa using h, fun _ => rfl⟩

omit [AddCommGroup K] [LinearOrder K] in
theorem pop_spec (l : List K) (n : Nat) (h : l.length = n + 1) :
    ∃ v r, pop l = some (v, r) ∧ l = v :: r ∧ r.length = n := by
  cases l with
  | nil => simp at h
  | cons v r => exact ⟨v, r, rfl, rfl, by simpa using h⟩

/-! ### Specification -/

/-- What is asked of a constraint type with `start`, the impulses its rows start with, and `store`: any
list with an impulse for each row can be stored, the constraint's parameters remain as they are, and the
rows then start with the impulses that were stored. -/
def RoundTrip {C P : Type} (start : C → List K) (store : C → List K → Option C) (par : C → P) : Prop :=
  ∀ (c : C) (l : List K), l.length = (start c).length →
    ∃ c', store c l = some c' ∧ start c' = l ∧ par c' = par c

/-! ### Constraints with fixed rows -/

/-- `gravity_constraint.cpp` 20-24 and 30-32; also `distance_constraint.cpp` 23-27 and 33-35. -/
structure One (K : Type) where
  applied : K

def One.start (c : One K) : List K := [c.applied]

def One.store (c : One K) (l : List K) : Option (One K) :=
  match l[0]? with
  | some a => some { c with applied := a }
  | none => none

/-- `soft_distance_constraint.cpp` 40-62 and 65-68. -/
structure Soft (K : Type) where
  spring : K
  damping : K

def Soft.start (c : Soft K) : List K := [c.spring, c.damping]

def Soft.store (c : Soft K) (l : List K) : Option (Soft K) :=
  match l[0]?, l[1]? with
  | some a, some b => some { c with spring := a, damping := b }
  | _, _ => none

/-! ### Cone -/

/-- `cone_constraint.hpp`: the parameters that decide about rows and the impulses. -/
structure Cone (K : Type) where
  bumpStiffness : K
  bumpLength : K
  limit : K
  bump : K

/-- `cone_constraint.cpp` 67-93. -/
def Cone.start (c : Cone K) : List K :=
  [c.limit] ++ rowIf (0 < c.bumpStiffness ∧ 0 < c.bumpLength) c.bump

/-- `cone_constraint.cpp` 96-102. -/
def Cone.store (c : Cone K) (l : List K) : Option (Cone K) :=
  match l[0]? with
  | none => none
  | some a =>
    if 0 < c.bumpStiffness ∧ 0 < c.bumpLength then
      match l[1]? with
      | none => none
      | some b => some { c with limit := a, bump := b }
    else some { c with limit := a }

/-! ### Hinge -/

/-- The parameters of a hinge that decide about rows, with the angle as `prepare` leaves it
(`hinge_constraint.cpp` 79-88; `solve_position` does not change it). -/
structure HingePar (K : Type) where
  angleMin : K
  angleMax : K
  stiffness : K
  torque : K
  damping : K
  bumpStiffness : K
  bumpAngle : K
  angle : K

structure Hinge (K : Type) where
  par : HingePar K
  lin0 : K
  lin1 : K
  lin2 : K
  hinge0 : K
  hinge1 : K
  limit : K
  bump : K
  spring : K
  torque : K

/-- `bump_stop_deflection`, `hinge_constraint.cpp` 118-126 (in `prepare`). -/
def HingePar.deflection (p : HingePar K) : K :=
  if p.angle < p.angleMin + p.bumpAngle then p.angle - (p.angleMin + p.bumpAngle)
  else if p.angleMax - p.bumpAngle < p.angle then p.angle - (p.angleMax - p.bumpAngle)
  else 0

/-- `hinge_constraint.cpp` 40-177. -/
def Hinge.start (c : Hinge K) : List K :=
  [c.lin0, c.lin1, c.lin2, c.hinge0, c.hinge1] ++
  (if c.par.angleMin < c.par.angleMax then
    [c.limit] ++
    (if 0 < c.par.bumpStiffness ∧ 0 < c.par.bumpAngle then rowIf (c.par.deflection ≠ 0) c.bump else [])
  else []) ++
  rowIf (0 < c.par.stiffness) c.spring ++
  rowIf (0 < c.par.torque ∨ 0 < c.par.damping) c.torque

/-- `hinge_constraint.cpp` 215-257; the deflection is computed again (232-242). -/
def Hinge.store (c : Hinge K) (l : List K) : Option (Hinge K) := do
  let (a0, l) ← pop l
  let (a1, l) ← pop l
  let (a2, l) ← pop l
  let (h0, l) ← pop l
  let (h1, l) ← pop l
  let (lim, l) ← popIf (c.par.angleMin < c.par.angleMax) c.limit l
  let (bmp, l) ← popIf (c.par.angleMin < c.par.angleMax ∧
    ((0 < c.par.bumpStiffness ∧ 0 < c.par.bumpAngle) ∧ c.par.deflection ≠ 0)) c.bump l
  let (spr, l) ← popIf (0 < c.par.stiffness) c.spring l
  let (trq, _) ← popIf (0 < c.par.torque ∨ 0 < c.par.damping) c.torque l
  some ⟨c.par, a0, a1, a2, h0, h1, lim, bmp, spr, trq⟩

/-! ### Generic -/

/-- One degree of freedom of a generic constraint, linear or angular (`generic_constraint.hpp` 17-58). -/
structure DofPar (K : Type) where
  limitEnabled : Bool
  min : K
  max : K
  bumpStiffness : K
  bumpLength : K
  springStiffness : K
  friction : K
  damping : K

structure Dof (K : Type) where
  par : DofPar K
  limit : K
  bump : K
  spring : K
  frictionDamping : K

/-- The rows of a degree of freedom, `generic_constraint.cpp` 31-123 (linear) and 162-248 (angular). -/
def Dof.start (d : Dof K) : List K :=
  rowIf (d.par.limitEnabled = true) d.limit ++
  rowIf (d.par.limitEnabled = true ∧ d.par.min < d.par.max ∧ 0 < d.par.bumpStiffness ∧ 0 < d.par.bumpLength) d.bump ++
  rowIf (0 < d.par.springStiffness) d.spring ++
  rowIf (0 < d.par.friction ∨ 0 < d.par.damping) d.frictionDamping

/-- The body of the loops of `store_applied_impulses`, `generic_constraint.cpp` 288-305 and 309-326. -/
def Dof.store (d : Dof K) (l : List K) : Option (Dof K × List K) := do
  let (lim, l) ← popIf (d.par.limitEnabled = true) d.limit l
  let (bmp, l) ← popIf (d.par.limitEnabled = true ∧ d.par.min < d.par.max ∧ 0 < d.par.bumpStiffness ∧
    0 < d.par.bumpLength) d.bump l
  let (spr, l) ← popIf (0 < d.par.springStiffness) d.spring l
  let (frd, l) ← popIf (0 < d.par.friction ∨ 0 < d.par.damping) d.frictionDamping l
  some (⟨d.par, lim, bmp, spr, frd⟩, l)

/-- The degrees of freedom in order: three linear ones and three angular ones. -/
structure Generic (K : Type) where
  dofs : List (Dof K)

/-- `generic_constraint.cpp` 22-124 and 130-249. -/
def Generic.start (c : Generic K) : List K := c.dofs.flatMap Dof.start

def storeDofs : List (Dof K) → List K → Option (List (Dof K) × List K)
  | [], l => some ([], l)
  | d :: ds, l =>
    match d.store l with
    | none => none
    | some (d', l') =>
      match storeDofs ds l' with
      | none => none
      | some (ds', l'') => some (d' :: ds', l'')

/-- `generic_constraint.cpp` 284-328. -/
def Generic.store (c : Generic K) (l : List K) : Option (Generic K) :=
  (storeDofs c.dofs l).map fun r => ⟨r.1⟩

/-! ### CV joint -/

structure CvPar (K : Type) where
  twistMin : K
  twistMax : K
  bumpStiffness : K
  bumpAngle : K
  twistStiffness : K
  twistFriction : K
  twistDamping : K
  bendFriction : K
  bendDamping : K
  bendStiffness : K

structure Cv (K : Type) where
  par : CvPar K
  lin0 : K
  lin1 : K
  lin2 : K
  twistLimit : K
  twistBump : K
  twistSpring : K
  twistFrictionDamping : K
  bendFrictionDamping : K
  bendSpring : K

/-- `cvjoint_constraint.cpp` 58-227. -/
def Cv.start (c : Cv K) : List K :=
  [c.lin0, c.lin1, c.lin2] ++ [c.twistLimit] ++
  rowIf (c.par.twistMin < c.par.twistMax ∧ 0 < c.par.bumpStiffness ∧ 0 < c.par.bumpAngle) c.twistBump ++
  rowIf (c.par.twistMin < c.par.twistMax ∧ 0 < c.par.twistStiffness) c.twistSpring ++
  rowIf (c.par.twistMin < c.par.twistMax ∧ (0 < c.par.twistFriction ∨ 0 < c.par.twistDamping))
    c.twistFrictionDamping ++
  rowIf (0 < c.par.bendFriction ∨ 0 < c.par.bendDamping) c.bendFrictionDamping ++
  rowIf (0 < c.par.bendStiffness) c.bendSpring

/-- `cvjoint_constraint.cpp` 270-300. -/
def Cv.store (c : Cv K) (l : List K) : Option (Cv K) := do
  let (a0, l) ← pop l
  let (a1, l) ← pop l
  let (a2, l) ← pop l
  let (tl, l) ← pop l
  let (tb, l) ← popIf (c.par.twistMin < c.par.twistMax ∧ 0 < c.par.bumpStiffness ∧ 0 < c.par.bumpAngle)
    c.twistBump l
  let (ts, l) ← popIf (c.par.twistMin < c.par.twistMax ∧ 0 < c.par.twistStiffness) c.twistSpring l
  let (tf, l) ← popIf (c.par.twistMin < c.par.twistMax ∧ (0 < c.par.twistFriction ∨ 0 < c.par.twistDamping))
    c.twistFrictionDamping l
  let (bf, l) ← popIf (0 < c.par.bendFriction ∨ 0 < c.par.bendDamping) c.bendFrictionDamping l
  let (bs, _) ← popIf (0 < c.par.bendStiffness) c.bendSpring l
  some ⟨c.par, a0, a1, a2, tl, tb, ts, tf, bf, bs⟩

/-! ### Point -/

/-- `moving` is whether `try_normalize` of the relative angular velocity succeeds. -/
structure PointPar (K : Type) where
  frictionTorque : K
  moving : Bool

structure Point (K : Type) where
  par : PointPar K
  imp0 : K
  imp1 : K
  imp2 : K
  friction : K

/-- `point_constraint.cpp` 22-45. -/
def Point.start (c : Point K) : List K :=
  [c.imp0, c.imp1, c.imp2] ++ rowIf (0 < c.par.frictionTorque ∧ c.par.moving = true) c.friction

/-- `point_constraint.cpp` 48-58. -/
def Point.store (c : Point K) (l : List K) : Option (Point K) := do
  let (a0, l) ← pop l
  let (a1, l) ← pop l
  let (a2, l) ← pop l
  let (f, _) ← popIf (0 < c.par.frictionTorque) c.friction l
  some ⟨c.par, a0, a1, a2, f⟩

/-! ### Contact -/

/-- A contact point's constraint; `contact_constraint` has no rolling and no spinning friction. -/
structure ContactPar (K : Type) where
  rollFriction : K
  spinFriction : K

structure Contact (K : Type) where
  par : ContactPar K
  normal : K
  friction0 : K
  friction1 : K
  roll0 : K
  roll1 : K
  spin : K

/-- The row made by `contact_constraint::prepare` (`contact_constraint.cpp` 28-55): one row with its
friction row. -/
def Contact.row (c : Contact K) : Pack.Elem K (K × K) K := ⟨c.normal, some (c.friction0, c.friction1), none, none⟩

/-- The row made by `contact_extras_constraint::prepare` (`contact_extras_constraint.cpp` 14-78). -/
def Contact.rowExtras (c : Contact K) : Pack.Elem K (K × K) K :=
  { c.row with
    rolling := if 0 < c.par.rollFriction then some (c.roll0, c.roll1) else none
    spinning := if 0 < c.par.spinFriction then some c.spin else none }

/-- The impulses of a row in the order of `update_impulse`, `island_solver.cpp` 189-209. -/
def elemImpulses (e : Pack.Elem K (K × K) K) : List K :=
  e.row :: ((e.friction.map fun f => [f.1, f.2]).getD [] ++ (e.rolling.map fun f => [f.1, f.2]).getD [] ++
    e.spinning.toList)

/-- `contact_constraint.cpp` 92-98. -/
def Contact.store (c : Contact K) (l : List K) : Option (Contact K) := do
  let (n, l) ← pop l
  let (f0, l) ← pop l
  let (f1, _) ← pop l
  some { c with normal := n, friction0 := f0, friction1 := f1 }

/-- `contact_extras_constraint.cpp` 88-103. -/
def Contact.storeExtras (c : Contact K) (l : List K) : Option (Contact K) := do
  let c ← c.store l
  let l := l.drop 3
  let (r0, l) ← popIf (0 < c.par.rollFriction) c.roll0 l
  let (r1, l) ← popIf (0 < c.par.rollFriction) c.roll1 l
  let (s, _) ← popIf (0 < c.par.spinFriction) c.spin l
  some { c with roll0 := r0, roll1 := r1, spin := s }

/-! ### Theorems -/

omit [AddCommGroup K] [LinearOrder K] in
theorem one_round_trip : RoundTrip (K := K) One.start One.store (fun _ => ()) := by
  intro c l h
  match l, h with
  | [a], _ => exact ⟨⟨a⟩, rfl, rfl, rfl⟩

omit [AddCommGroup K] [LinearOrder K] in
theorem soft_round_trip : RoundTrip (K := K) Soft.start Soft.store (fun _ => ()) := by
  intro c l h
  match l, h with
  | [a, b], _ => exact ⟨⟨a, b⟩, rfl, rfl, rfl⟩

theorem cone_round_trip :
    RoundTrip (K := K) Cone.start Cone.store (fun c => (c.bumpStiffness, c.bumpLength)) := by
  intro c l h
  unfold Cone.start rowIf at h
  unfold Cone.store Cone.start rowIf
  by_cases hb : 0 < c.bumpStiffness ∧ 0 < c.bumpLength
  · rw [if_pos hb] at h
    match l, h with
    | [a, b], _ =>
      refine ⟨{ c with limit := a, bump := b }, ?_, ?_, rfl⟩
      · simp only [List.getElem?_cons_zero, if_pos hb]
        rfl
      · simp only [if_pos hb]; rfl
  · rw [if_neg hb] at h
    match l, h with
    | [a], _ =>
      refine ⟨{ c with limit := a }, ?_, ?_, rfl⟩
      · simp only [List.getElem?_cons_zero, if_neg hb]
      · simp only [if_neg hb]; rfl

omit [AddCommGroup K] [LinearOrder K] in
theorem rowIf_nested (a b : Prop) [Decidable a] [Decidable b] (d : Prop) [Decidable d] (x y : K) :
    (if a then [x] ++ (if b then rowIf d y else []) else []) = rowIf a x ++ rowIf (a ∧ (b ∧ d)) y := by
  unfold rowIf
  by_cases ha : a <;> by_cases hb : b <;> by_cases hd : d <;> simp [ha, hb, hd]

theorem hinge_round_trip : RoundTrip (K := K) Hinge.start Hinge.store Hinge.par := by
  intro c l h
  unfold Hinge.start at h
  rw [rowIf_nested] at h
  simp only [List.length_append, List.length_cons, List.length_nil] at h
  replace h : l.length =
    ((rowIf (c.par.angleMin < c.par.angleMax) c.limit).length +
      ((rowIf (c.par.angleMin < c.par.angleMax ∧ ((0 < c.par.bumpStiffness ∧ 0 < c.par.bumpAngle) ∧
          c.par.deflection ≠ 0)) c.bump).length +
        ((rowIf (0 < c.par.stiffness) c.spring).length +
          ((rowIf (0 < c.par.torque ∨ 0 < c.par.damping) c.torque).length + 0)))) + 1 + 1 + 1 + 1 + 1 := by rw [h]; omega
  obtain ⟨a0, l1, e0, rfl, hl1⟩ := pop_spec l _ h
  obtain ⟨a1, l2, e1, rfl, hl2⟩ := pop_spec l1 _ hl1
  obtain ⟨a2, l3, e2, rfl, hl3⟩ := pop_spec l2 _ hl2
  obtain ⟨h0, l4, e3, rfl, hl4⟩ := pop_spec l3 _ hl3
  obtain ⟨h1, l5, e4, rfl, hl5⟩ := pop_spec l4 _ hl4
  obtain ⟨lim, l6, e5, rfl, hl6, -⟩ := popIf_spec _ c.limit l5 _ _ hl5
  obtain ⟨bmp, l7, e6, rfl, hl7, -⟩ := popIf_spec _ c.bump l6 _ _ hl6
  obtain ⟨spr, l8, e7, rfl, hl8, -⟩ := popIf_spec _ c.spring l7 _ _ hl7
  obtain ⟨trq, l9, e8, rfl, hl9, -⟩ := popIf_spec _ c.torque l8 _ _ hl8
  have : l9 = [] := List.length_eq_zero_iff.mp hl9
  subst this
  refine ⟨⟨c.par, a0, a1, a2, h0, h1, lim, bmp, spr, trq⟩, ?_, ?_, rfl⟩
  · unfold Hinge.store
    simp only [e0, e1, e2, e3, e4, e5, e6, e7, e8, Option.bind_eq_bind, Option.bind_some]
  · unfold Hinge.start
    rw [rowIf_nested]
    simp

theorem dof_round_trip (d : Dof K) (l : List K) (n : Nat) (h : l.length = d.start.length + n) :
    ∃ d' r, d.store l = some (d', r) ∧ l = d'.start ++ r ∧ r.length = n ∧ d'.par = d.par := by
  unfold Dof.start at h
  simp only [List.length_append] at h
  obtain ⟨lim, l1, e1, rfl, hl1, -⟩ := popIf_spec (d.par.limitEnabled = true) d.limit l d.limit
    ((rowIf (d.par.limitEnabled = true ∧ d.par.min < d.par.max ∧ 0 < d.par.bumpStiffness ∧
        0 < d.par.bumpLength) d.bump).length +
      ((rowIf (0 < d.par.springStiffness) d.spring).length +
        ((rowIf (0 < d.par.friction ∨ 0 < d.par.damping) d.frictionDamping).length + n))) (by rw [h]; omega)
  obtain ⟨bmp, l2, e2, rfl, hl2, -⟩ := popIf_spec _ d.bump l1 _ _ hl1
  obtain ⟨spr, l3, e3, rfl, hl3, -⟩ := popIf_spec _ d.spring l2 _ _ hl2
  obtain ⟨frd, l4, e4, rfl, hl4, -⟩ := popIf_spec _ d.frictionDamping l3 _ _ hl3
  refine ⟨⟨d.par, lim, bmp, spr, frd⟩, l4, ?_, ?_, hl4, rfl⟩
  · unfold Dof.store
    simp only [e1, e2, e3, e4, Option.bind_eq_bind, Option.bind_some]
  · unfold Dof.start
    simp

theorem storeDofs_round_trip (ds : List (Dof K)) (l : List K) (h : l.length = (ds.flatMap Dof.start).length) :
    ∃ ds', storeDofs ds l = some (ds', []) ∧ ds'.flatMap Dof.start = l ∧ ds'.map Dof.par = ds.map Dof.par := by
  induction ds generalizing l with
  | nil =>
    have : l = [] := List.length_eq_zero_iff.mp (by simpa using h)
    subst this
    exact ⟨[], rfl, rfl, rfl⟩
  | cons d ds ih =>
    rw [List.flatMap_cons, List.length_append] at h
    obtain ⟨d', r, e1, rfl, h2, h3⟩ := dof_round_trip d l _ h
    obtain ⟨ds', e2, h4, h5⟩ := ih r h2
    refine ⟨d' :: ds', ?_, ?_, ?_⟩
    · rw [storeDofs, e1]
      simp only
      rw [e2]
    · rw [List.flatMap_cons, h4]
    · rw [List.map_cons, List.map_cons, h3, h5]

theorem generic_round_trip :
    RoundTrip (K := K) Generic.start Generic.store (fun c => c.dofs.map Dof.par) := by
  intro c l h
  obtain ⟨ds', e, h1, h2⟩ := storeDofs_round_trip c.dofs l h
  exact ⟨⟨ds'⟩, by rw [Generic.store, e]; rfl, h1, h2⟩

theorem cv_round_trip : RoundTrip (K := K) Cv.start Cv.store Cv.par := by
  intro c l h
  unfold Cv.start at h
  simp only [List.length_append, List.length_cons, List.length_nil] at h
  replace h : l.length =
    ((rowIf (c.par.twistMin < c.par.twistMax ∧ 0 < c.par.bumpStiffness ∧ 0 < c.par.bumpAngle) c.twistBump).length +
      ((rowIf (c.par.twistMin < c.par.twistMax ∧ 0 < c.par.twistStiffness) c.twistSpring).length +
        ((rowIf (c.par.twistMin < c.par.twistMax ∧ (0 < c.par.twistFriction ∨ 0 < c.par.twistDamping))
          c.twistFrictionDamping).length +
          ((rowIf (0 < c.par.bendFriction ∨ 0 < c.par.bendDamping) c.bendFrictionDamping).length +
            ((rowIf (0 < c.par.bendStiffness) c.bendSpring).length + 0))))) + 1 + 1 + 1 + 1 := by rw [h]; omega
  obtain ⟨a0, l1, e0, rfl, hl1⟩ := pop_spec l _ h
  obtain ⟨a1, l2, e1, rfl, hl2⟩ := pop_spec l1 _ hl1
  obtain ⟨a2, l3, e2, rfl, hl3⟩ := pop_spec l2 _ hl2
  obtain ⟨tl, l4, e3, rfl, hl4⟩ := pop_spec l3 _ hl3
  obtain ⟨tb, l5, e4, rfl, hl5, -⟩ := popIf_spec _ c.twistBump l4 _ _ hl4
  obtain ⟨ts, l6, e5, rfl, hl6, -⟩ := popIf_spec _ c.twistSpring l5 _ _ hl5
  obtain ⟨tf, l7, e6, rfl, hl7, -⟩ := popIf_spec _ c.twistFrictionDamping l6 _ _ hl6
  obtain ⟨bf, l8, e7, rfl, hl8, -⟩ := popIf_spec _ c.bendFrictionDamping l7 _ _ hl7
  obtain ⟨bs, l9, e8, rfl, hl9, -⟩ := popIf_spec _ c.bendSpring l8 _ _ hl8
  have : l9 = [] := List.length_eq_zero_iff.mp hl9
  subst this
  refine ⟨⟨c.par, a0, a1, a2, tl, tb, ts, tf, bf, bs⟩, ?_, ?_, rfl⟩
  · unfold Cv.store
    simp only [e0, e1, e2, e3, e4, e5, e6, e7, e8, Option.bind_eq_bind, Option.bind_some]
  · unfold Cv.start
    simp

/-- A point constraint: without friction torque, or with bodies that rotate relative to each other. -/
theorem point_round_trip_partial (c : Point K) (l : List K) (h : l.length = c.start.length)
    (hm : 0 < c.par.frictionTorque → c.par.moving = true) :
    ∃ c', c.store l = some c' ∧ c'.start = l ∧ c'.par = c.par := by
  have hiff : (0 < c.par.frictionTorque ∧ c.par.moving = true) ↔ 0 < c.par.frictionTorque := by tauto
  unfold Point.start at h
  simp only [rowIf, hiff] at h
  change _ = ([c.imp0, c.imp1, c.imp2] ++ rowIf (0 < c.par.frictionTorque) c.friction).length at h
  simp only [List.length_append, List.length_cons, List.length_nil] at h
  replace h : l.length =
    ((rowIf (0 < c.par.frictionTorque) c.friction).length + 0) + 1 + 1 + 1 := by rw [h]; omega
  obtain ⟨a0, l1, e0, rfl, hl1⟩ := pop_spec l _ h
  obtain ⟨a1, l2, e1, rfl, hl2⟩ := pop_spec l1 _ hl1
  obtain ⟨a2, l3, e2, rfl, hl3⟩ := pop_spec l2 _ hl2
  obtain ⟨f, l4, e3, rfl, hl4, -⟩ := popIf_spec (0 < c.par.frictionTorque) c.friction l3 c.friction 0 hl3
  have : l4 = [] := List.length_eq_zero_iff.mp hl4
  subst this
  refine ⟨⟨c.par, a0, a1, a2, f⟩, ?_, ?_, rfl⟩
  · unfold Point.store
    simp only [e0, e1, e2, e3, Option.bind_eq_bind, Option.bind_some]
  · unfold Point.start
    simp only [rowIf, hiff]
    simp

/-- The full statement for point constraints, which does not hold. -/
def PointFullStatement : Prop := RoundTrip (K := ℚ) Point.start Point.store Point.par

/-- **Finding**.  A point constraint with friction torque between bodies that do not rotate relative to
each other makes three rows, and then reads a fourth impulse: past the end of the vector. -/
theorem point_reads_past_the_end : ¬ PointFullStatement := by
  intro h
  obtain ⟨c', h1, -⟩ := h ⟨⟨1, false⟩, 0, 0, 0, 0⟩ [1, 2, 3] rfl
  have : (Point.store (K := ℚ) ⟨⟨1, false⟩, 0, 0, 0, 0⟩ [1, 2, 3]).isSome = false := by decide +kernel
  rw [h1] at this
  simp at this

theorem contact_round_trip :
    RoundTrip (K := K) (fun c => elemImpulses c.row) Contact.store
      (fun c => (c.par, c.roll0, c.roll1, c.spin)) := by
  intro c l h
  match l, h with
  | [a, b, d], _ => exact ⟨{ c with normal := a, friction0 := b, friction1 := d }, rfl, rfl, rfl⟩

theorem extras_impulses (c : Contact K) : elemImpulses c.rowExtras =
    [c.normal, c.friction0, c.friction1] ++ (rowIf (0 < c.par.rollFriction) c.roll0 ++
      (rowIf (0 < c.par.rollFriction) c.roll1 ++ rowIf (0 < c.par.spinFriction) c.spin)) := by
  unfold elemImpulses Contact.rowExtras Contact.row rowIf
  by_cases h1 : 0 < c.par.rollFriction <;> by_cases h2 : 0 < c.par.spinFriction <;> simp [h1, h2]

theorem contact_extras_round_trip :
    RoundTrip (K := K) (fun c => elemImpulses c.rowExtras) Contact.storeExtras Contact.par := by
  intro c l h
  simp only at h
  rw [extras_impulses] at h
  simp only [List.length_append, List.length_cons, List.length_nil] at h
  replace h : l.length = ((rowIf (0 < c.par.rollFriction) c.roll0).length +
    ((rowIf (0 < c.par.rollFriction) c.roll1).length + ((rowIf (0 < c.par.spinFriction) c.spin).length + 0))) + 1 + 1 + 1 := by
    rw [h]; omega
  obtain ⟨n, l1, e0, rfl, hl1⟩ := pop_spec l _ h
  obtain ⟨f0, l2, e1, rfl, hl2⟩ := pop_spec l1 _ hl1
  obtain ⟨f1, l3, e2, rfl, hl3⟩ := pop_spec l2 _ hl2
  obtain ⟨r0, l4, e3, rfl, hl4, -⟩ := popIf_spec _ c.roll0 l3 _ _ hl3
  obtain ⟨r1, l5, e4, rfl, hl5, -⟩ := popIf_spec _ c.roll1 l4 _ _ hl4
  obtain ⟨s, l6, e5, rfl, hl6, -⟩ := popIf_spec _ c.spin l5 _ _ hl5
  have : l6 = [] := List.length_eq_zero_iff.mp hl6
  subst this
  refine ⟨⟨c.par, n, f0, f1, r0, r1, s⟩, ?_, ?_, rfl⟩
  · unfold Contact.storeExtras Contact.store
    simp only [e0, e1, e2, Option.bind_eq_bind, Option.bind_some, List.drop_succ_cons, List.drop_zero,
      e3, e4, e5]
  · simp only
    rw [extras_impulses]
    simp

/-! ### Numbers of rows -/

omit [AddCommGroup K] [LinearOrder K] in
theorem rowIf_length (b : Prop) [Decidable b] (x : K) : (rowIf b x).length ≤ 1 := by
  unfold rowIf
  split <;> simp

/-- Every constraint other than a generic one makes at most 9 rows, so that it fits the 16 rows an entity
may have. -/
theorem rows_fit (h : Hinge K) (v : Cv K) (p : Point K) (d : Cone K) :
    h.start.length ≤ 9 ∧ v.start.length ≤ 9 ∧ p.start.length ≤ 4 ∧ d.start.length ≤ 2 := by
  refine ⟨?_, ?_, ?_, ?_⟩
  · unfold Hinge.start
    rw [rowIf_nested]
    simp only [List.length_append, List.length_cons, List.length_nil]
    have h1 := rowIf_length (h.par.angleMin < h.par.angleMax) h.limit
    have h2 := rowIf_length (h.par.angleMin < h.par.angleMax ∧
      ((0 < h.par.bumpStiffness ∧ 0 < h.par.bumpAngle) ∧ h.par.deflection ≠ 0)) h.bump
    have h3 := rowIf_length (0 < h.par.stiffness) h.spring
    have h4 := rowIf_length (0 < h.par.torque ∨ 0 < h.par.damping) h.torque
    omega
  · unfold Cv.start
    simp only [List.length_append, List.length_cons, List.length_nil]
    have h1 := rowIf_length (v.par.twistMin < v.par.twistMax ∧ 0 < v.par.bumpStiffness ∧ 0 < v.par.bumpAngle) v.twistBump
    have h2 := rowIf_length (v.par.twistMin < v.par.twistMax ∧ 0 < v.par.twistStiffness) v.twistSpring
    have h3 := rowIf_length (v.par.twistMin < v.par.twistMax ∧ (0 < v.par.twistFriction ∨ 0 < v.par.twistDamping)) v.twistFrictionDamping
    have h4 := rowIf_length (0 < v.par.bendFriction ∨ 0 < v.par.bendDamping) v.bendFrictionDamping
    have h5 := rowIf_length (0 < v.par.bendStiffness) v.bendSpring
    omega
  · unfold Point.start
    simp only [List.length_append, List.length_cons, List.length_nil]
    have h1 := rowIf_length (0 < p.par.frictionTorque ∧ p.par.moving = true) p.friction
    omega
  · unfold Cone.start
    simp only [List.length_append, List.length_cons, List.length_nil]
    have h1 := rowIf_length (0 < d.bumpStiffness ∧ 0 < d.bumpLength) d.bump
    omega

/-- A degree of freedom with limits, bump stops, spring and damping. -/
def fullDof : Dof ℚ := ⟨⟨true, 0, 1, 1, 1, 1, 1, 1⟩, 0, 0, 0, 0⟩

/-- **Finding**.  A generic constraint with all features on five of its six degrees of freedom makes 20
rows, and the cache of 16 rows overflows: preparing it fails the assertion in `add_row`. -/
theorem generic_overflows :
    (Generic.start (K := ℚ) ⟨List.replicate 5 fullDof⟩).length = 20 ∧
    (Pack.prepare (R := ℚ) (F := ℚ × ℚ) (S := ℚ)
      (fun t => if t = 4 then some ((Generic.start (K := ℚ) ⟨List.replicate 5 fullDof⟩).map
        fun x => ⟨x, none, none, none⟩) else none) (List.range 10) Pack.Prep.clear).isSome = false := by
  decide +kernel

/-- **Finding**.  An entity with one constraint of each of the ten types (or of any nine) exceeds the room
for eight counts of rows. -/
theorem too_many_types :
    (Pack.prepare (R := ℚ) (F := ℚ × ℚ) (S := ℚ)
      (fun _ => some [⟨0, none, none, none⟩]) (List.range 10) Pack.Prep.clear).isSome = false ∧
    (Pack.prepare (R := ℚ) (F := ℚ × ℚ) (S := ℚ)
      (fun _ => some [⟨0, none, none, none⟩]) (List.range 8) Pack.Prep.clear).isSome = true := by
  decide +kernel

/-! ### Examples -/

/-- A hinge with limits, a bump stop in contact and damping. -/
def hingeEx : Hinge ℚ := ⟨⟨-1, 1, 0, 0, 2, 5, 1/4, 9/10⟩, 1, 2, 3, 4, 5, 6, 7, 8, 9⟩

example : hingeEx.start = [1, 2, 3, 4, 5, 6, 7, 9] := by decide +kernel

example : (hingeEx.store [10, 11, 12, 13, 14, 15, 16, 17]).map Hinge.start =
    some [10, 11, 12, 13, 14, 15, 16, 17] := by decide +kernel

/-- Two entities: a hinge, and a body pair in contact with rolling friction which also has a distance
constraint; their rows are packed by type. -/
def conEx : Pack.Cons ℚ (ℚ × ℚ) ℚ := fun e t =>
  if e = 7 ∧ t = 3 then some (hingeEx.start.map fun x => ⟨x, none, none, none⟩)
  else if e = 9 ∧ t = 1 then some [⟨50, none, none, none⟩]
  else if e = 9 ∧ t = 9 then some [(⟨⟨1, 0⟩, 20, 21, 22, 23, 24, 25⟩ : Contact ℚ).rowExtras]
  else none

example : (Pack.prepare (conEx 7) (List.range 10) Pack.Prep.clear).isSome = true ∧
    (Pack.prepare (conEx 9) (List.range 10) Pack.Prep.clear).isSome = true := by decide +kernel

example : Pack.labels conEx [7, 9] (List.range 10) =
    [(9, 1, 0), (7, 3, 0), (7, 3, 1), (7, 3, 2), (7, 3, 3), (7, 3, 4), (7, 3, 5), (7, 3, 6), (7, 3, 7),
     (9, 9, 0)] := by decide +kernel

/-- The packed cache of the example, and what is given back from it unchanged. -/
example :
    ((Pack.prepare (conEx 7) (List.range 10) Pack.Prep.clear).bind fun p7 =>
      (Pack.prepare (conEx 9) (List.range 10) Pack.Prep.clear).bind fun p9 =>
      (Pack.packRows conEx [7, 9] (List.range 10)
        (fun e => if e = 7 then p7 else p9, Pack.Cache.empty)).bind fun r =>
      Pack.assign (id : ℚ → ℚ) (id : ℚ × ℚ → ℚ × ℚ) (id : ℚ → ℚ) r.2.1 ((List.range 10).zip r.2.2) ⟨0, 0, 0, 0, 0⟩) =
    some [((9, 1), [50]), ((7, 3), [1, 2, 3, 4, 5, 6, 7, 9]), ((9, 9), [20, 21, 22, 23, 24])] := by
  decide +kernel

end Edyn.Solver.Slots
