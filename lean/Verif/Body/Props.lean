import Verif.Body.Model

/-!
# Rigid bodies stay consistent

What holds for the components of a body created by `make_rigidbody` after any sequence of operations, what impulses do to it,
and how the centre of mass may be moved.
-/

namespace Edyn.Body

open Edyn.Math hiding lengthSqr_nonneg
open V3

noncomputable section

/-! ### Specification -/

/-- The components of a body which must agree do. -/
structure Consistent (b : Rb) : Prop where
  /-- It has a position and an orientation. -/
  placed : b.position.isSome ∧ b.orientation.isSome
  /-- It is of exactly one kind. -/
  kind : (b.dynamicTag ∧ ¬b.kinematicTag ∧ ¬b.staticTag) ∨ (¬b.dynamicTag ∧ b.kinematicTag ∧ ¬b.staticTag) ∨
    (¬b.dynamicTag ∧ ¬b.kinematicTag ∧ b.staticTag)
  /-- It takes part in islands if it is dynamic, and connects them only then. -/
  graph : b.proceduralTag = b.dynamicTag ∧ b.resident = b.dynamicTag ∧ b.multiResident = !b.dynamicTag ∧
    b.node = some (!b.dynamicTag)
  /-- A dynamic body has everything the solver reads. -/
  dynamic : b.dynamicTag → b.mass.isSome ∧ b.inertia.isSome ∧ b.worldInv.isSome ∧ b.linvel.isSome ∧ b.angvel.isSome
  /-- Its mass is positive, and its inverse mass is the inverse of it. -/
  mass : match b.mass, b.massInv with
    | some m, some i => 0 < m ∧ m * i = 1
    | none, none => True
    | _, _ => False
  /-- Its inverse inertia is the inverse of its inertia. -/
  inertia : match b.inertia, b.inertiaInv with
    | some i, some j => i * j = 1 ∧ j * i = 1
    | none, none => True
    | _, _ => False
  /-- It has at most one shape, which is the one its index tells, and a bounding box if it has a shape. -/
  shape : (∀ t, (b.shapes t).isSome ↔ b.shapeIndex = some t) ∧ (b.aabb.isSome ↔ b.shapeIndex.isSome)
  /-- It only rolls if it has a shape. -/
  rolls : b.shapeIndex = none → b.rollingTag = false ∧ b.rollDir = none
  /-- Its origin is stored if its centre of mass is elsewhere. -/
  origin : b.origin.isSome ↔ b.com.isSome
  com : b.com ≠ some 0
  tag : b.bodyTag

/-- What is derived from the rest is up to date. -/
structure Current (env : Env) (b : Rb) : Prop where
  /-- The inverse inertia in world space of a dynamic body is that of its inertia at its orientation. -/
  world : ∀ orn inv w, b.dynamicTag → b.orientation = some orn → b.inertiaInv = some inv → b.worldInv = some w →
    w = toWorld orn inv
  /-- The stored origin is where the origin is. -/
  stored : ∀ o, b.origin = some o → getOrigin b = some o
  /-- The bounding box is that of the shape of the body at its origin. -/
  aabb : ∀ t value orn o, ¬b.staticTag → b.shapeIndex = some t → b.shapes t = some value → b.orientation = some orn →
    getOrigin b = some o → b.aabb = some (env.aabb ⟨t, value⟩ o orn)

/-- The body suits its kind. -/
structure Suited (env : Env) (b : Rb) : Prop where
  /-- Bodies which move have shapes which may. -/
  moves : ¬b.staticTag → ∀ t, b.shapeIndex = some t → env.staticOnly t = false
  /-- A dynamic body is marked as rolling exactly if its shape rolls. -/
  rolling : b.dynamicTag → (b.rollingTag ↔ ∃ t, b.shapeIndex = some t ∧ env.rolling t)
  /-- It has the roll direction of its shape. -/
  rollDir : b.dynamicTag → ∀ t value, b.shapeIndex = some t → b.shapes t = some value →
    b.rollDir = if env.rolling t ∧ env.rollDir ⟨t, value⟩ ≠ 0 then some (env.rollDir ⟨t, value⟩) else none
  /-- Bodies which move have velocities. -/
  velocity : ¬b.staticTag → b.linvel.isSome ∧ b.angvel.isSome

/-- The full property: a body is consistent in every respect after every sequence of operations. -/
def BodyFull : Prop :=
  ∀ (env : Env) (d : Def) (b₀ b : Rb) (ops : List Op), 0 ≤ env.eps → make env d {} = some b₀ → run env ops b₀ = some b →
    Consistent b ∧ Current env b ∧ Suited env b

/-! ### Creation -/

theorem inverse_some {i j : M3 ℝ} (h : inverse? i = some j) : i * j = 1 ∧ j * i = 1 := by
  simp only [inverse?] at h
  split at h
  · rename_i hc
    injection h with h
    subst h
    exact M3.inverseSymmetric_spec i hc.1 hc.2.1 hc.2.2.1 hc.2.2.2
  · cases h

/-- The stages of `make`. -/
theorem make_some {env : Env} {d : Def} {b b' : Rb} (h : make env d b = some b') :
    ∃ b1 b2 b3 b4 b5, makeMass env d { b with position := some d.position, orientation := some d.orientation } = some b1 ∧
      makeVel d b1 = some b2 ∧ makeCom d b2 = some b3 ∧
      makeLook env d b3 = some b4 ∧ makeShape env d b4 = some b5 ∧ makeTags env d b5 = some b' := by
  simp only [make] at h
  split at h
  · cases h
  simp only [Option.bind_eq_some_iff] at h
  obtain ⟨b1, h1, b2, h2, b3, h3, b4, h4, b5, h5, h6⟩ := h
  exact ⟨b1, b2, b3, b4, b5, h1, h2, h3, h4, h5, h6⟩

/-- What `apply_center_of_mass` does to a body whose origin is stored exactly if its centre of mass is elsewhere. -/
theorem applyCom_eq {c : V3 ℝ} {b b' : Rb} (hs : b.origin.isSome ↔ b.com.isSome) (h : applyCom c b = some b') :
    ∃ pos orn v w, b.position = some pos ∧ b.orientation = some orn ∧ b.linvel = some v ∧ b.angvel = some w ∧
      b' = { b with
        position := some (toWorldSpace c (toWorldSpace (-(b.com.getD 0)) pos orn) orn)
        linvel := some (v + cross w (toWorldSpace c (toWorldSpace (-(b.com.getD 0)) pos orn) orn - pos))
        com := if c = 0 then none else some c
        origin := if c = 0 then none else some (toWorldSpace (-(b.com.getD 0)) pos orn) } := by
  simp only [applyCom, Option.bind_eq_some_iff] at h
  obtain ⟨pos, hp, orn, ho, v, hv, w, hw, h⟩ := h
  refine ⟨pos, orn, v, w, hp, ho, hv, hw, ?_⟩
  cases hcom : b.com <;> cases hor : b.origin <;> simp only [hcom, hor, Option.isSome_none, Option.isSome_some] at hs h
  · by_cases hc : c = 0
    · subst hc
      simp only [ne_eq, not_true_eq_false, if_false, Option.some.injEq] at h
      subst h
      ext1 <;> simp [hcom, hor]
    · simp only [ne_eq, hc, not_false_eq_true, if_true, Option.some.injEq, Bool.false_eq_true, if_false] at h
      subst h
      ext1 <;> simp [hc]
  · simp at hs
  · simp at hs
  · by_cases hc : c = 0
    · subst hc
      simp only [ne_eq, not_true_eq_false, if_false, Option.some.injEq] at h
      subst h
      ext1 <;> simp
    · simp only [ne_eq, hc, not_false_eq_true, if_true, Option.some.injEq] at h
      subst h
      ext1 <;> simp [hc]

/-- Bodies with a mass have inertia and velocities. -/
def Massive (b : Rb) : Prop :=
  b.mass.isSome → b.inertia.isSome ∧ b.worldInv.isSome ∧ b.linvel.isSome ∧ b.angvel.isSome

/-- What is known about a body before its shape and tags are assigned. -/
structure Begun (d : Def) (b : Rb) : Prop where
  placed : b.position.isSome ∧ b.orientation.isSome
  dynamic : d.kind = .dynamic →
    b.mass.isSome ∧ b.inertia.isSome ∧ b.worldInv.isSome ∧ b.linvel.isSome ∧ b.angvel.isSome
  mass : match b.mass, b.massInv with
    | some m, some i => 0 < m ∧ m * i = 1
    | none, none => True
    | _, _ => False
  inertia : match b.inertia, b.inertiaInv with
    | some i, some j => i * j = 1 ∧ j * i = 1
    | none, none => True
    | _, _ => False
  shapes : b.shapes = (fun _ => none) ∧ b.shapeIndex = none ∧ b.aabb = none ∧ b.rollingTag = false ∧ b.rollDir = none
  origin : b.origin.isSome ↔ b.com.isSome
  com : b.com ≠ some 0
  massive : Massive b
  moving : d.kind ≠ .static → b.linvel.isSome ∧ b.angvel.isSome

theorem begun_two {env : Env} (he : 0 ≤ env.eps) {d : Def} {b1 b2 : Rb}
    (h1 : makeMass env d { position := some d.position, orientation := some d.orientation } = some b1)
    (h2 : makeVel d b1 = some b2) : Begun d b2 ∧ b2.com = none ∧ b2.origin = none := by
  simp only [makeMass] at h1
  split at h1
  · rename_i hk
    injection h1 with h1
    subst h1
    simp only [makeVel] at h2
    split at h2
    · injection h2 with h2
      subst h2
      exact ⟨⟨by simp, fun h => absurd h hk, by simp, by simp, by simp, by simp, by simp, by simp [Massive], by simp_all⟩, rfl, rfl⟩
    · simp only [Option.isSome_none, Bool.or_self, Bool.false_eq_true, if_false, Option.some.injEq] at h2
      subst h2
      exact ⟨⟨by simp, fun h => absurd h hk, by simp, by simp, by simp, by simp, by simp, by simp [Massive], by simp⟩, rfl, rfl⟩
  · rename_i hk
    push Not at hk
    split at h1
    · cases h1
    rename_i hm
    push Not at hm
    simp only [Option.isSome_none, Bool.or_self, Bool.false_eq_true, if_false, Option.bind_eq_some_iff] at h1
    obtain ⟨i, _, inv, hinv, h1⟩ := h1
    injection h1 with h1
    subst h1
    simp only [makeVel, hk, reduceCtorEq, if_false, Option.isSome_none, Bool.or_self, Bool.false_eq_true,
      Option.some.injEq] at h2
    subst h2
    have h0 : 0 < d.mass := lt_of_le_of_lt he hm.1
    refine ⟨⟨by simp, by simp, ⟨h0, ?_⟩, inverse_some hinv, by simp, by simp, by simp, by simp [Massive], by simp⟩, rfl, rfl⟩
    field_simp

theorem begun_com {d : Def} {c : V3 ℝ} {b b' : Rb} (hb : Begun d b) (h : applyCom c b = some b') : Begun d b' := by
  obtain ⟨pos, orn, v, w, hp, ho, hv, hw, e⟩ := applyCom_eq hb.origin h
  subst e
  refine ⟨⟨rfl, hb.placed.2⟩, fun hk => ?_, hb.mass, hb.inertia, hb.shapes, ?_, ?_,
    fun h => ⟨(hb.massive h).1, (hb.massive h).2.1, rfl, (hb.massive h).2.2.2⟩, fun h => ⟨rfl, (hb.moving h).2⟩⟩
  · have := hb.dynamic hk
    exact ⟨this.1, this.2.1, this.2.2.1, rfl, this.2.2.2.2⟩
  · by_cases hc : c = 0 <;> simp [hc]
  · by_cases hc : c = 0 <;> simp [hc]

theorem begun_look {env : Env} {d : Def} {b b' : Rb} (hb : Begun d b) (h : makeLook env d b = some b') : Begun d b' := by
  simp only [makeLook] at h
  split at h
  · cases h
  injection h with h
  subst h
  exact ⟨hb.placed, hb.dynamic, hb.mass, hb.inertia, hb.shapes, hb.origin, hb.com, hb.massive, hb.moving⟩

/-- The shape of a new body. -/
theorem makeShape_some {env : Env} {d : Def} {b b' : Rb} (hb : Begun d b) (h : makeShape env d b = some b') :
    b' = { b with
      shapes := fun t => if (d.shape.map (·.type)) = some t then d.shape.map (·.value) else none
      shapeIndex := d.shape.map (·.type)
      aabb := d.shape.map fun s => env.aabb s d.position d.orientation
      rollingTag := d.kind = .dynamic ∧ ∃ s, d.shape = some s ∧ env.rolling s.type
      rollDir := b'.rollDir
      filter := b'.filter } ∧ (d.shape = none → b'.rollDir = none) ∧
    (∀ s, d.shape = some s → d.kind ≠ .static → env.staticOnly s.type = false) ∧
    (∀ s, d.shape = some s → d.kind = .dynamic →
      b'.rollDir = if env.rolling s.type ∧ env.rollDir s ≠ 0 then some (env.rollDir s) else none) := by
  obtain ⟨hs1, hs2, hs3, hs4, hs5⟩ := hb.shapes
  cases hs : d.shape with
  | none =>
    simp only [makeShape, hs, Option.some.injEq] at h
    subst h
    refine ⟨?_, fun _ => hs5, by simp, by simp⟩
    ext1 <;> simp [hs1, hs2, hs3, hs4, hs5]
  | some s =>
    simp only [makeShape, hs] at h
    split at h
    · cases h
    rename_i hst
    rw [hs1, hs2, hs3, hs4, hs5] at h
    simp only [Option.isSome_none, Bool.or_self, Bool.false_or] at h
    split at h
    · cases h
    injection h with h
    refine ⟨?_, by simp, ?_, ?_⟩
    · subst h
      by_cases hk : d.kind = .dynamic <;> by_cases hr : env.rolling s.type = true <;>
        simp only [hk, if_true, if_false, makeRoll, hr] <;> ext1 <;> simp [hr, hs4] <;> (try funext t) <;> grind
    · intro s' e hk
      injection e with e
      subst e
      by_contra hn
      exact hst ⟨hk, by simpa using hn⟩
    · intro s' e hk
      injection e with e
      subst e h
      rw [if_pos hk]
      by_cases hr : env.rolling s.type = true <;> by_cases h0 : env.rollDir s = 0 <;> simp [makeRoll, hr, h0, hs5]

/-- A body made on an entity without components is consistent and suits its kind. -/
theorem make_consistent {env : Env} (he : 0 ≤ env.eps) {d : Def} {b : Rb} (h : make env d {} = some b) :
    Consistent b ∧ Massive b ∧ Suited env b := by
  obtain ⟨b1, b2, b3, b4, b5, h1, h2, h3, h4, h5, h6⟩ := make_some h
  have hb2 := (begun_two he h1 h2).1
  have hb3 : Begun d b3 := by
    simp only [makeCom] at h3
    cases hc : d.com with
    | none => rw [hc] at h3; injection h3 with h3; subst h3; exact hb2
    | some c => rw [hc] at h3; exact begun_com hb2 h3
  have hb4 := begun_look hb3 h4
  obtain ⟨e5, hr5, hst5, hd5⟩ := makeShape_some hb4 h5
  simp only [makeTags] at h6
  split at h6
  · cases h6
  injection h6 with h6
  subst h6
  rw [e5]
  refine ⟨?_, hb4.massive, ?_⟩
  · refine ⟨hb4.placed, ?_, ?_, fun hk => hb4.dynamic (by simpa using hk), hb4.mass, hb4.inertia, ?_, ?_, hb4.origin, hb4.com,
      rfl⟩
    · cases d.kind <;> simp
    · cases d.kind <;> simp
    · constructor
      · intro t
        cases hs : d.shape with
        | none => simp
        | some s => by_cases ht : s.type = t <;> simp [ht]
      · cases hs : d.shape <;> simp
    · intro hn
      have hs : d.shape = none := by simpa using hn
      refine ⟨by simp [hs], hr5 hs⟩
  · refine ⟨fun hk t ht => ?_, fun hk => ?_, fun hk t value ht hv => ?_, fun hk => hb4.moving (by simpa using hk)⟩
    · simp only [Option.map_eq_some_iff] at ht
      obtain ⟨s, hs, rfl⟩ := ht
      exact hst5 s hs (by simpa using hk)
    · have hk : d.kind = .dynamic := by simpa using hk
      simp only [hk, true_and, decide_eq_true_eq, Option.map_eq_some_iff]
      grind
    · simp only [Option.map_eq_some_iff] at ht
      obtain ⟨s, hs, rfl⟩ := ht
      simp only [hs, Option.map_some, if_true, Option.some.injEq] at hv
      subst hv
      exact hd5 s hs (by simpa using hk)

/-! ### Operations -/

theorem Consistent.velocities {b : Rb} (hc : Consistent b) {v w : V3 ℝ} :
    Consistent { b with linvel := some v, angvel := some w } :=
  ⟨hc.placed, hc.kind, hc.graph, fun h => ⟨(hc.dynamic h).1, (hc.dynamic h).2.1, (hc.dynamic h).2.2.1, rfl, rfl⟩, hc.mass,
    hc.inertia, hc.shape, hc.rolls, hc.origin, hc.com, hc.tag⟩

theorem Consistent.moved {b : Rb} (hc : Consistent b) {p : V3 ℝ} {q : Quat ℝ} :
    Consistent { b with position := some p, orientation := some q } :=
  ⟨⟨rfl, rfl⟩, hc.kind, hc.graph, hc.dynamic, hc.mass, hc.inertia, hc.shape, hc.rolls, hc.origin, hc.com, hc.tag⟩

theorem Consistent.comMoved {b b' : Rb} (hc : Consistent b) {c : V3 ℝ} (h : applyCom c b = some b') : Consistent b' := by
  obtain ⟨pos, orn, v, w, hp, ho, hv, hw, e⟩ := applyCom_eq hc.origin h
  subst e
  refine ⟨⟨rfl, hc.placed.2⟩, hc.kind, hc.graph, fun hk => ?_, hc.mass, hc.inertia, hc.shape, hc.rolls, ?_, ?_, hc.tag⟩
  · have := hc.dynamic hk
    exact ⟨this.1, this.2.1, this.2.2.1, rfl, this.2.2.2.2⟩
  · by_cases h0 : c = 0 <;> simp [h0]
  · by_cases h0 : c = 0 <;> simp [h0]

theorem Consistent.dropped {b b' : Rb} (hc : Consistent b) (h : dropShape b = some b') :
    Consistent b' ∧ b' = { b with shapes := fun _ => none, shapeIndex := none, aabb := none, rollingTag := false,
                                  rollDir := none } := by
  have hs := hc.shape.1
  have ha := hc.shape.2
  have hr := hc.rolls
  have e : b' = { b with shapes := fun _ => none, shapeIndex := none, aabb := none, rollingTag := false, rollDir := none } := by
    cases hi : b.shapeIndex with
    | none =>
      simp only [dropShape, hi, Option.some.injEq] at h
      subst h
      rw [hi] at hs ha
      have hsh : b.shapes = fun _ => none := by
        funext t
        have := (hs t).not.2 (by simp)
        simpa using this
      ext1 <;> simp_all
    | some t =>
      simp only [dropShape, hi] at h
      split at h
      · cases h
      injection h with h
      subst h
      rw [hi] at hs
      ext1 <;> simp only []
      funext t'
      by_cases ht : t' = t
      · rw [if_pos ht]
      · rw [if_neg ht]
        have := (hs t').not.2 (by simpa using fun e => ht e.symm)
        simpa using this
  refine ⟨?_, e⟩
  subst e
  exact ⟨hc.placed, hc.kind, hc.graph, hc.dynamic, hc.mass, hc.inertia, by simp, by simp, hc.origin, hc.com, hc.tag⟩

/-- What `rigidbody_assign_shape` does to a consistent body. -/
theorem assignShape_some {env : Env} {s : Shape} {b b' : Rb} (hc : Consistent b) (h : assignShape env s b = some b') :
    ∃ aabb, b' = assignRoll env s { b with
      shapes := fun t => if t = s.type then some s.value else none, shapeIndex := some s.type, aabb := some aabb } ∧
      (b.staticTag = false → env.staticOnly s.type = false) ∧
      (∀ pos orn, b.shapeIndex = none → b.position = some pos → b.orientation = some orn → aabb = env.aabb s pos orn) ∧
      (b.shapeIndex.isSome → b.aabb = some aabb) := by
  have hs := hc.shape.1
  have ha := hc.shape.2
  simp only [assignShape] at h
  split at h
  · cases h
  rename_i hst
  have hst' : b.staticTag = false → env.staticOnly s.type = false := by
    intro hb
    simpa [hb] using hst
  have none_of : ∀ t t', b.shapeIndex = some t → t' ≠ t → b.shapes t' = none := by
    intro t t' hi ht
    have := (hs t').not.2 (by rw [hi]; simpa using fun e => ht e.symm)
    simpa using this
  cases hi : b.shapeIndex with
  | none =>
    simp only [hi] at h
    split at h
    · cases h
    simp only [Option.map_eq_some_iff, Option.bind_eq_some_iff] at h
    obtain ⟨b1, ⟨pos, hp, orn, ho, h1⟩, h2⟩ := h
    refine ⟨env.aabb s pos orn, ?_, hst', ?_, by simp⟩
    · rw [← h2, ← h1]
      congr 1
      ext1 <;> simp only []
      funext t'
      by_cases ht : t' = s.type
      · rw [if_pos ht, if_pos ht]
      · rw [if_neg ht, if_neg ht]
        have := (hs t').not.2 (by rw [hi]; simp)
        simpa using this
    · intro pos' orn' _ hp' ho'
      rw [hp] at hp'; rw [ho] at ho'
      injection hp' with hp'; injection ho' with ho'
      rw [hp', ho']
  | some t =>
    have hab : b.aabb.isSome := ha.2 (by rw [hi]; rfl)
    obtain ⟨aabb, hab⟩ := Option.isSome_iff_exists.1 hab
    simp only [hi] at h
    refine ⟨aabb, ?_, hst', by simp, fun _ => hab⟩
    rw [Option.map_eq_some_iff] at h
    obtain ⟨b1, h1, h2⟩ := h
    rw [← h2]
    congr 1
    split at h1
    · rename_i ht
      split at h1
      · injection h1 with h1
        rw [← h1]
        ext1 <;> simp only [hi, ht, hab]
        funext t'
        by_cases h' : t' = s.type
        · rw [if_pos h', if_pos h']
        · rw [if_neg h', if_neg h', none_of t t' hi (by rwa [ht])]
      · cases h1
    · split at h1
      · cases h1
      · injection h1 with h1
        rw [← h1]
        ext1 <;> simp only [hab]
        funext t'
        by_cases h' : t' = s.type
        · rw [if_pos h', if_pos h']
        · rw [if_neg h', if_neg h']
          by_cases h'' : t' = t
          · rw [if_pos h'']
          · rw [if_neg h'', none_of t t' hi h'']

theorem Consistent.shaped {env : Env} {s : Option Shape} {b b' : Rb} (hc : Consistent b) (h : setShape env s b = some b') :
    Consistent b' := by
  cases s with
  | none => exact (hc.dropped h).1
  | some s =>
    obtain ⟨aabb, e, -, -, -⟩ := assignShape_some hc h
    subst e
    have key : Consistent { b with
        shapes := fun t => if t = s.type then some s.value else none, shapeIndex := some s.type, aabb := some aabb } :=
      ⟨hc.placed, hc.kind, hc.graph, hc.dynamic, hc.mass, hc.inertia, by
        constructor
        · intro t
          by_cases ht : t = s.type
          · simp [ht]
          · simp only [if_neg ht, Option.isSome_none, Bool.false_eq_true, Option.some.injEq, false_iff]
            exact fun e => ht e.symm
        · simp, by simp, hc.origin, hc.com, hc.tag⟩
    simp only [assignRoll]
    split
    · split <;>
      exact ⟨key.placed, key.kind, key.graph, key.dynamic, key.mass, key.inertia, key.shape, by simp, key.origin, key.com,
        key.tag⟩
    · exact key

theorem Consistent.kinded {env : Env} {k : Kind} {b b' : Rb} (hc : Consistent b) (hv : b.mass.isSome →
      b.inertia.isSome ∧ b.worldInv.isSome ∧ b.linvel.isSome ∧ b.angvel.isSome) (h : setKind env k b = some b') :
    Consistent b' := by
  simp only [setKind] at h
  split at h
  · rename_i hs
    injection h with h
    subst h
    refine ⟨hc.placed, ?_, ?_, ?_, hc.mass, hc.inertia, hc.shape, hc.rolls, hc.origin, hc.com, hc.tag⟩
    · cases k <;> simp [replaceTags]
    · cases k <;> simp [replaceTags]
    · intro hk
      have hk : k = .dynamic := by simpa [replaceTags] using hk
      have hm : b.mass.isSome := by
        simp only [supports, hk, if_true, replaceTags, Bool.and_eq_true] at hs
        cases hm : b.mass with
        | none => rw [hm] at hs; simp at hs
        | some m => rfl
      exact ⟨hm, hv hm⟩
  · cases h

theorem updateOrigin_eq (b : Rb) : updateOrigin b = { b with origin := (updateOrigin b).origin } ∧
    ((updateOrigin b).origin.isSome ↔ b.origin.isSome) := by
  cases hp : b.position <;> cases ho : b.orientation <;> cases hc : b.com <;> cases hor : b.origin <;>
    simp [updateOrigin, hp, ho, hc, hor] <;> ext1 <;> simp [hp, ho, hc, hor]

theorem updateAabb_eq (env : Env) (b : Rb) : updateAabb env b = { b with aabb := (updateAabb env b).aabb } ∧
    ((updateAabb env b).aabb.isSome ↔ b.aabb.isSome) := by
  simp only [updateAabb]
  split
  · split
    · split
      · split
        · exact ⟨rfl, Iff.rfl⟩
        · rename_i h _ _ _ _
          exact ⟨rfl, by simp [h]⟩
      · exact ⟨rfl, Iff.rfl⟩
    · exact ⟨rfl, Iff.rfl⟩
  · exact ⟨rfl, Iff.rfl⟩

theorem updateInertia_eq (b : Rb) : updateInertia b = { b with worldInv := (updateInertia b).worldInv } ∧
    ((updateInertia b).worldInv.isSome ↔ b.worldInv.isSome) := by
  simp only [updateInertia]
  split
  · split
    · rename_i h
      exact ⟨rfl, by simp [h]⟩
    · exact ⟨rfl, Iff.rfl⟩
  · exact ⟨rfl, Iff.rfl⟩

theorem Consistent.updated {env : Env} {b : Rb} (hc : Consistent b) :
    Consistent (updateInertia (updateAabb env (updateOrigin b))) := by
  have h1 : Consistent (updateOrigin b) := by
    rw [(updateOrigin_eq b).1]
    exact ⟨hc.placed, hc.kind, hc.graph, hc.dynamic, hc.mass, hc.inertia, hc.shape, hc.rolls,
      (updateOrigin_eq b).2.trans hc.origin, hc.com, hc.tag⟩
  generalize updateOrigin b = b1 at h1
  have h2 : Consistent (updateAabb env b1) := by
    rw [(updateAabb_eq env b1).1]
    exact ⟨h1.placed, h1.kind, h1.graph, h1.dynamic, h1.mass, h1.inertia,
      ⟨h1.shape.1, (updateAabb_eq env b1).2.trans h1.shape.2⟩, h1.rolls, h1.origin, h1.com, h1.tag⟩
  generalize updateAabb env b1 = b2 at h2
  rw [(updateInertia_eq b2).1]
  exact ⟨h2.placed, h2.kind, h2.graph, fun hk => ⟨(h2.dynamic hk).1, (h2.dynamic hk).2.1,
    (updateInertia_eq b2).2.2 (h2.dynamic hk).2.2.1, (h2.dynamic hk).2.2.2⟩, h2.mass, h2.inertia, h2.shape, h2.rolls,
    h2.origin, h2.com, h2.tag⟩

theorem Massive.updated {env : Env} {b : Rb} (hm : Massive b) :
    Massive (updateInertia (updateAabb env (updateOrigin b))) := by
  have h1 : Massive (updateOrigin b) := by rw [(updateOrigin_eq b).1]; exact hm
  generalize updateOrigin b = b1 at h1
  have h2 : Massive (updateAabb env b1) := by rw [(updateAabb_eq env b1).1]; exact h1
  generalize updateAabb env b1 = b2 at h2
  rw [(updateInertia_eq b2).1]
  intro h
  exact ⟨(h2 h).1, (updateInertia_eq b2).2.2 (h2 h).2.1, (h2 h).2.2⟩

theorem apply_consistent {env : Env} (he : 0 ≤ env.eps) {op : Op} {b b' : Rb} (hc : Consistent b) (hm : Massive b)
    (h : apply env op b = some b') : Consistent b' ∧ Massive b' := by
  cases op with
  | impulse j rel =>
    simp only [apply, applyImpulse, Option.bind_eq_some_iff, Option.some.injEq] at h
    obtain ⟨_, _, _, _, v, hv, w, hw, rfl⟩ := h
    exact ⟨hc.velocities, fun h => ⟨(hm h).1, (hm h).2.1, rfl, rfl⟩⟩
  | torque t =>
    simp only [apply, applyTorque, Option.bind_eq_some_iff, Option.some.injEq] at h
    obtain ⟨_, _, w, hw, rfl⟩ := h
    refine ⟨⟨hc.placed, hc.kind, hc.graph, fun hk => ?_, hc.mass, hc.inertia, hc.shape, hc.rolls, hc.origin, hc.com,
      hc.tag⟩, fun h => ⟨(hm h).1, (hm h).2.1, (hm h).2.2.1, rfl⟩⟩
    have := hc.dynamic hk
    exact ⟨this.1, this.2.1, this.2.2.1, this.2.2.2.1, rfl⟩
  | kinPos pos dt =>
    simp only [apply, setKinPos] at h
    split at h
    · cases h
    simp only [Option.bind_eq_some_iff, Option.some.injEq] at h
    obtain ⟨p, hp, v, hv, rfl⟩ := h
    refine ⟨⟨⟨rfl, hc.placed.2⟩, hc.kind, hc.graph, fun hk => ?_, hc.mass, hc.inertia, hc.shape, hc.rolls, hc.origin,
      hc.com, hc.tag⟩, fun h => ⟨(hm h).1, (hm h).2.1, rfl, (hm h).2.2.2⟩⟩
    have := hc.dynamic hk
    exact ⟨this.1, this.2.1, this.2.2.1, rfl, this.2.2.2.2⟩
  | kinOrn orn dt =>
    simp only [apply, setKinOrn] at h
    split at h
    · cases h
    simp only [Option.bind_eq_some_iff, Option.some.injEq] at h
    obtain ⟨p, hp, v, hv, w, hw, rfl⟩ := h
    refine ⟨⟨⟨hc.placed.1, rfl⟩, hc.kind, hc.graph, fun hk => ?_, hc.mass, hc.inertia, hc.shape, hc.rolls, hc.origin,
      hc.com, hc.tag⟩, fun h => ⟨(hm h).1, (hm h).2.1, (hm h).2.2.1, rfl⟩⟩
    have := hc.dynamic hk
    exact ⟨this.1, this.2.1, this.2.2.1, this.2.2.2.1, rfl⟩
  | mass m =>
    simp only [apply, setMass] at h
    split at h
    · rename_i hs
      injection h with h
      subst h
      have h0 : 0 < m := lt_of_le_of_lt he hs.1
      refine ⟨⟨hc.placed, hc.kind, hc.graph, fun hk => ⟨rfl, (hc.dynamic hk).2⟩, ⟨h0, by field_simp⟩, hc.inertia, hc.shape,
        hc.rolls, hc.origin, hc.com, hc.tag⟩, fun _ => hm hs.2.2.2.1⟩
    · cases h
  | inertia i =>
    simp only [apply, setInertia] at h
    split at h
    · rename_i hs
      rw [Option.map_eq_some_iff] at h
      obtain ⟨j, hj, rfl⟩ := h
      refine ⟨⟨hc.placed, hc.kind, hc.graph, fun hk => ?_, hc.mass, inverse_some hj, hc.shape, hc.rolls, hc.origin,
        hc.com, hc.tag⟩, fun h => ⟨rfl, (hm h).2⟩⟩
      have := hc.dynamic hk
      exact ⟨this.1, rfl, this.2.2⟩
    · cases h
  | com c =>
    refine ⟨hc.comMoved h, ?_⟩
    obtain ⟨pos, orn, v, w, hp, ho, hv, hw, e⟩ := applyCom_eq hc.origin h
    subst e
    exact fun h => ⟨(hm h).1, (hm h).2.1, rfl, (hm h).2.2.2⟩
  | origin o =>
    simp only [apply, setOrigin] at h
    cases hcom : b.com with
    | none =>
      simp only [hcom, Option.map_eq_some_iff] at h
      obtain ⟨p, hp, rfl⟩ := h
      exact ⟨⟨⟨rfl, hc.placed.2⟩, hc.kind, hc.graph, hc.dynamic, hc.mass, hc.inertia, hc.shape, hc.rolls,
        by simpa [hcom] using hc.origin, by simp, hc.tag⟩, hm⟩
    | some c =>
      simp only [hcom, Option.bind_eq_some_iff] at h
      obtain ⟨p, hp, q, hq, h⟩ := h
      split at h
      · injection h with h
        subst h
        exact ⟨⟨⟨rfl, hc.placed.2⟩, hc.kind, hc.graph, hc.dynamic, hc.mass, hc.inertia, hc.shape, hc.rolls, by simp,
          by simpa [hcom] using hc.com, hc.tag⟩, hm⟩
      · cases h
  | shape s =>
    refine ⟨hc.shaped h, ?_⟩
    cases s with
    | none =>
      obtain ⟨-, e⟩ := hc.dropped h
      subst e
      exact hm
    | some s =>
      obtain ⟨aabb, e, -⟩ := assignShape_some hc h
      subst e
      simp only [assignRoll]
      split
      · split <;> exact hm
      · exact hm
  | kind k =>
    refine ⟨hc.kinded hm h, ?_⟩
    simp only [apply, setKind] at h
    split at h
    · injection h with h
      subst h
      exact hm
    · cases h
  | step pos orn v w =>
    simp only [apply, Option.some.injEq, step] at h
    subst h
    have key : ∀ x : Rb, Consistent x → Massive x → Consistent (updateInertia (updateAabb env (updateOrigin x))) ∧
        Massive (updateInertia (updateAabb env (updateOrigin x))) := fun x h1 h2 => ⟨h1.updated, h2.updated⟩
    apply key
    · split
      · exact hc.moved.velocities
      · exact hc
    · split
      · exact fun h => ⟨(hm h).1, (hm h).2.1, rfl, rfl⟩
      · exact hm

/-- **C80** A body made by `make_rigidbody` stays consistent whatever is done to it: and if it has a mass, it has inertia and
velocities.  Missing from `BodyFull`: the inverse
inertia in world space is behind until the next step, and changes of kind can leave shapes and rolling marks which do not
suit the body (`Verif.Body.Findings`). -/
theorem body_consistent_partial (env : Env) (d : Def) (b₀ b : Rb) (ops : List Op) (he : 0 ≤ env.eps)
    (hm : make env d {} = some b₀) (hr : run env ops b₀ = some b) : Consistent b ∧ Massive b := by
  obtain ⟨h0, h1, -⟩ := make_consistent he hm
  clear hm
  induction ops generalizing b₀ with
  | nil => injection hr with hr; subst hr; exact ⟨h0, h1⟩
  | cons op ops ih =>
    simp only [run, Option.bind_eq_some_iff] at hr
    obtain ⟨b1, hb1, hr⟩ := hr
    have := apply_consistent he h0 h1 hb1
    exact ih b1 hr this.1 this.2

theorem Suited.of_eq {env : Env} {b b' : Rb} (h : Suited env b) (h1 : b'.staticTag = b.staticTag)
    (h2 : b'.dynamicTag = b.dynamicTag) (h3 : b'.shapeIndex = b.shapeIndex) (h4 : b'.shapes = b.shapes)
    (h5 : b'.rollingTag = b.rollingTag) (h6 : b'.rollDir = b.rollDir) (h7 : b.linvel.isSome → b'.linvel.isSome)
    (h8 : b.angvel.isSome → b'.angvel.isSome) : Suited env b' := by
  refine ⟨?_, ?_, ?_, ?_⟩
  · rw [h1, h3]; exact h.moves
  · rw [h2, h3, h5]; exact h.rolling
  · rw [h2, h3, h4, h6]; exact h.rollDir
  · rw [h1]; exact fun hk => ⟨h7 (h.velocity hk).1, h8 (h.velocity hk).2⟩

theorem apply_suited {env : Env} {op : Op} {b b' : Rb} (hc : Consistent b) (hs : Suited env b)
    (hop : ∀ k, op ≠ .kind k) (h : apply env op b = some b') : Suited env b' := by
  cases op with
  | impulse j rel =>
    simp only [apply, applyImpulse, Option.bind_eq_some_iff, Option.some.injEq] at h
    obtain ⟨_, _, _, _, v, hv, w, hw, rfl⟩ := h
    exact hs.of_eq rfl rfl rfl rfl rfl rfl (fun _ => rfl) (fun _ => rfl)
  | torque t =>
    simp only [apply, applyTorque, Option.bind_eq_some_iff, Option.some.injEq] at h
    obtain ⟨_, _, w, hw, rfl⟩ := h
    exact hs.of_eq rfl rfl rfl rfl rfl rfl id (fun _ => rfl)
  | kinPos pos dt =>
    simp only [apply, setKinPos] at h
    split at h
    · cases h
    simp only [Option.bind_eq_some_iff, Option.some.injEq] at h
    obtain ⟨p, hp, v, hv, rfl⟩ := h
    exact hs.of_eq rfl rfl rfl rfl rfl rfl (fun _ => rfl) id
  | kinOrn orn dt =>
    simp only [apply, setKinOrn] at h
    split at h
    · cases h
    simp only [Option.bind_eq_some_iff, Option.some.injEq] at h
    obtain ⟨p, hp, v, hv, w, hw, rfl⟩ := h
    exact hs.of_eq rfl rfl rfl rfl rfl rfl id (fun _ => rfl)
  | mass m =>
    simp only [apply, setMass] at h
    split at h
    · injection h with h
      subst h
      exact hs.of_eq rfl rfl rfl rfl rfl rfl id id
    · cases h
  | inertia i =>
    simp only [apply, setInertia] at h
    split at h
    · rw [Option.map_eq_some_iff] at h
      obtain ⟨j, hj, rfl⟩ := h
      exact hs.of_eq rfl rfl rfl rfl rfl rfl id id
    · cases h
  | com c =>
    obtain ⟨pos, orn, v, w, hp, ho, hv, hw, e⟩ := applyCom_eq hc.origin h
    subst e
    exact hs.of_eq rfl rfl rfl rfl rfl rfl (fun _ => rfl) id
  | origin o =>
    simp only [apply, setOrigin] at h
    cases hcom : b.com with
    | none =>
      simp only [hcom, Option.map_eq_some_iff] at h
      obtain ⟨p, hp, rfl⟩ := h
      exact hs.of_eq rfl rfl rfl rfl rfl rfl id id
    | some c =>
      simp only [hcom, Option.bind_eq_some_iff] at h
      obtain ⟨p, hp, q, hq, h⟩ := h
      split at h
      · injection h with h
        subst h
        exact hs.of_eq rfl rfl rfl rfl rfl rfl id id
      · cases h
  | shape s =>
    cases s with
    | none =>
      obtain ⟨-, e⟩ := hc.dropped h
      subst e
      exact ⟨by simp, by simp, by simp, hs.velocity⟩
    | some s =>
      obtain ⟨aabb, e, hst, -⟩ := assignShape_some hc h
      subst e
      simp only [assignRoll]
      split
      · rename_i hd
        have hd : b.dynamicTag = true := hd
        split
        · rename_i hr
          refine ⟨fun hk t ht => ?_, fun _ => ?_, fun _ t value ht hv => ?_, hs.velocity⟩
          · injection ht with ht
            subst ht
            exact hst (by simpa using hk)
          · simp [hr]
          · injection ht with ht
            subst ht
            simp only [if_true, Option.some.injEq] at hv
            subst hv
            simp [hr]
        · rename_i hr
          refine ⟨fun hk t ht => ?_, fun _ => ?_, fun _ t value ht hv => ?_, hs.velocity⟩
          · injection ht with ht
            subst ht
            exact hst (by simpa using hk)
          · simpa using hr
          · injection ht with ht
            subst ht
            simp [hr]
      · rename_i hd
        refine ⟨fun hk t ht => ?_, fun h => absurd h hd, fun h => absurd h hd, hs.velocity⟩
        injection ht with ht
        subst ht
        exact hst (by simpa using hk)
  | kind k => exact absurd rfl (hop k)
  | step pos orn v w =>
    simp only [apply, Option.some.injEq, step] at h
    have key : ∀ x : Rb, Suited env x → Suited env (updateInertia (updateAabb env (updateOrigin x))) := by
      intro x hx
      rw [(updateInertia_eq _).1, (updateAabb_eq env _).1, (updateOrigin_eq _).1]
      exact hx.of_eq rfl rfl rfl rfl rfl rfl id id
    subst h
    apply key
    split
    · exact hs.of_eq rfl rfl rfl rfl rfl rfl (fun _ => rfl) (fun _ => rfl)
    · exact hs

/-- **C80** A body whose kind is not changed suits its kind whatever else is done to it. -/
theorem body_suited (env : Env) (d : Def) (b₀ b : Rb) (ops : List Op) (he : 0 ≤ env.eps)
    (hm : make env d {} = some b₀) (hops : ∀ k, Op.kind k ∉ ops) (hr : run env ops b₀ = some b) : Suited env b := by
  obtain ⟨h0, h1, h2⟩ := make_consistent he hm
  clear hm
  induction ops generalizing b₀ with
  | nil => injection hr with hr; subst hr; exact h2
  | cons op ops ih =>
    simp only [run, Option.bind_eq_some_iff] at hr
    obtain ⟨b1, hb1, hr⟩ := hr
    have := apply_consistent he h0 h1 hb1
    exact ih b1 (fun k hk => hops k (List.mem_cons_of_mem _ hk)) hr this.1 this.2
      (apply_suited h0 h2 (fun k e => hops k (e ▸ List.mem_cons_self)) hb1)

/-- **C80** Whatever was done to a body, what is derived is up to date after a step of the simulation. -/
theorem current_after_step {env : Env} {b : Rb} (hc : Consistent b) (hs : Suited env b) (pos : V3 ℝ) (orn : Quat ℝ)
    (v w : V3 ℝ) : Current env (step env pos orn v w b) := by
  have key : ∀ x : Rb, Consistent x → Suited env x →
      Current env (updateInertia (updateAabb env (updateOrigin x))) := by
    intro x hx hsx
    obtain ⟨p, hp⟩ := Option.isSome_iff_exists.1 hx.placed.1
    obtain ⟨q, hq⟩ := Option.isSome_iff_exists.1 hx.placed.2
    have ho : ∀ o, (updateOrigin x).origin = some o → getOrigin (updateOrigin x) = some o := by
      intro o h
      have := hx.origin
      cases hc : x.com <;> cases hor : x.origin <;> simp only [hc, hor] at this <;> try simp at this
      · simp [updateOrigin, hp, hq, hc, hor] at h
      · simp only [updateOrigin, hp, hq, hc, hor, Option.some.injEq, getOrigin, Option.bind_some, Option.map_some] at h ⊢
        exact h
    have hg : ∀ o, getOrigin (updateOrigin x) = some o → (updateOrigin x).origin.getD p = o := by
      intro o h
      have := hx.origin
      cases hc : x.com <;> cases hor : x.origin <;> simp only [hc, hor] at this <;> try simp at this
      · simp only [updateOrigin, hp, hq, hc, hor, getOrigin, Option.some.injEq, Option.getD_none] at h ⊢
        exact h
      · simp only [updateOrigin, hp, hq, hc, hor, Option.some.injEq, getOrigin, Option.bind_some, Option.map_some,
          Option.getD_some] at h ⊢
        exact h
    have h1 : updateOrigin x = { x with origin := (updateOrigin x).origin } := (updateOrigin_eq x).1
    generalize updateOrigin x = y at ho hg h1
    have hy1 : y.position = some p := by rw [h1]; exact hp
    have hy2 : y.orientation = some q := by rw [h1]; exact hq
    have hy3 : y.shapeIndex = x.shapeIndex := by rw [h1]
    have hy4 : y.shapes = x.shapes := by rw [h1]
    have hy5 : y.aabb = x.aabb := by rw [h1]
    have hy6 : y.dynamicTag = x.dynamicTag := by rw [h1]
    have hy7 : y.kinematicTag = x.kinematicTag := by rw [h1]
    have hy8 : y.staticTag = x.staticTag := by rw [h1]
    have ha : ∀ t value o, ¬y.staticTag → y.shapeIndex = some t → y.shapes t = some value → getOrigin y = some o →
        (updateAabb env y).aabb = some (env.aabb ⟨t, value⟩ o q) := by
      intro t value o hst ht hv hgo
      have hm : (y.dynamicTag || y.kinematicTag) = true := by
        rw [hy8] at hst
        rw [hy6, hy7]
        rcases hx.kind with h | h | h
        · simp [h.1]
        · simp [h.2.1]
        · exact absurd h.2.2 hst
      have hab : y.aabb.isSome := by rw [hy5]; exact hx.shape.2.2 (by rw [← hy3, ht]; rfl)
      obtain ⟨ab, hab⟩ := Option.isSome_iff_exists.1 hab
      have hso : env.staticOnly t = false := hsx.moves (by rwa [← hy8]) t (by rw [← hy3]; exact ht)
      simp only [updateAabb, hm, if_true, hy1, hy2, ht, hab, hv, hso, Bool.false_eq_true, if_false, hg o hgo]
    have h2 := (updateAabb_eq env y).1
    generalize updateAabb env y = z at ha h2
    have hz1 : getOrigin z = getOrigin y := by rw [h2]; rfl
    have h3 := (updateInertia_eq z).1
    have hz2 : getOrigin (updateInertia z) = getOrigin z := by rw [h3]; rfl
    refine ⟨?_, ?_, ?_⟩
    · intro orn inv w hd hor hin hw
      rw [h3] at hd hor hin
      have hd : z.dynamicTag = true := hd
      have hor : z.orientation = some orn := hor
      have hin : z.inertiaInv = some inv := hin
      simp only [updateInertia, hd, if_true, hor, hin] at hw
      split at hw
      · rename_i e1 e2 e3
        injection e1 with e1
        injection e2 with e2
        injection hw with hw
        rw [e1, e2, hw]
      · rename_i hn
        cases hwi : z.worldInv with
        | none => rw [hwi] at hw; cases hw
        | some w0 => exact absurd hwi (hn _ _ _ rfl rfl)
    · intro o h
      rw [hz2, hz1]
      apply ho
      rw [h3] at h
      have h : z.origin = some o := h
      rw [h2] at h
      exact h
    · intro t value orn o hst ht hv hor hgo
      rw [h3] at hst ht hv hor ⊢
      rw [hz2, hz1] at hgo
      have hor : z.orientation = some orn := hor
      rw [h2] at hor
      have hor : y.orientation = some orn := hor
      rw [hy2] at hor
      injection hor with hor
      subst hor
      apply ha t value o
      · have hst : ¬z.staticTag = true := hst
        rw [h2] at hst
        exact hst
      · have ht : z.shapeIndex = some t := ht
        rw [h2] at ht
        exact ht
      · have hv : z.shapes t = some value := hv
        rw [h2] at hv
        exact hv
      · exact hgo
  simp only [step]
  apply key
  · split
    · exact hc.moved.velocities
    · exact hc
  · split
    · exact hs.of_eq rfl rfl rfl rfl rfl rfl (fun _ => rfl) (fun _ => rfl)
    · exact hs

end

end Edyn.Body
