import Verif.Contact.Materials

/-!
# Changing the friction of a body (C96)

`set_rigidbody_friction`, `src/edyn/util/rigidbody.cpp` 314-362, among the other functions that decide on the material of
contact points: `create_contact_point` and `merge_point`, `src/edyn/util/collision_util.cpp`, and `insert_material_mixing`,
`src/edyn/util/insert_material_mixing.cpp`.  Scalars are elements of an ordered field; `root` stands for `std::sqrt` and
`large` for `large_scalar`.
-/

namespace Edyn.Contact.Fric

open Edyn.Contact.Mat

variable {T : Type} [Field T] [LinearOrder T] [IsStrictOrderedRing T] {P : Type}

/-- `material`, `include/edyn/comp/material.hpp` 27-31. -/
structure Material (T : Type) where
  base : M T
  id : ℕ

/-- A contact point: pivots and features, the last ones given by `create_contact_point` or `merge_point`, and
`contact_point_material`. -/
structure Pt (T P : Type) where
  place : P × P
  mat : Option (M T)

/-- An edge of the graph: a contact manifold with the list of its points, the last one first, or anything else. -/
inductive Edge (T P : Type) where
  | other (a b : ℕ)
  | manifold (a b : ℕ) (pts : List (Pt T P))

/-- The registry: bodies, their materials and shapes, the edges of the graph and the table of material pairs, whose keys are
unordered pairs (`core/unordered_pair.hpp`), here with the smaller id first. -/
structure World (T P : Type) where
  body : ℕ → Bool
  mats : ℕ → Option (Material T)
  shape : ℕ → Shape T P
  edges : List (Edge T P)
  table : ℕ → ℕ → Option (M T)

/-- `material_mix_table::try_get`, `include/edyn/dynamics/material_mixing.hpp` 60-65. -/
def World.mixed (w : World T P) (i j : ℕ) : Option (M T) := w.table (min i j) (max i j)

/-- Both bodies of a manifold, if both have a material. -/
def World.pair (w : World T P) (a b : ℕ) : Option (Pair T P) :=
  (w.mats a).bind fun ma => (w.mats b).map fun mb => ⟨ma.base, mb.base, w.shape a, w.shape b, w.mixed ma.id mb.id⟩

/-- The material of a new point, `collision_util.cpp` 357-361. -/
def newPoint (root : T → T) (large : T) (w : World T P) (a b : ℕ) (p : P × P) : Pt T P :=
  ⟨p, (w.pair a b).map fun q => assign root large q p.1 p.2⟩

/-- `merge_point`, `collision_util.cpp` 205-231.  `none`: `material_view.get` of a body without a material, which happens
only if the point has a material all the same. -/
def mergePt (root : T → T) (w : World T P) (a b : ℕ) (p : P × P) (x : Pt T P) : Option (Pt T P) :=
  match x.mat with
  | none => some ⟨p, none⟩
  | some c => (w.pair a b).map fun q => ⟨p, some (merge root q p.1 p.2 c)⟩

/-- The loop over the points of a manifold, `rigidbody.cpp` 355-360.  `none`: `patch` of a missing component. -/
def patchAll (fr : T) (pts : List (Pt T P)) : Option (List (Pt T P)) :=
  pts.mapM fun x => x.mat.map fun c => { x with mat := some { c with friction := fr } }

/-- One edge of the body, `rigidbody.cpp` 328-361.  `w` has the new friction already. -/
def visitEdge (root : T → T) (w : World T P) (m : Material T) (e : ℕ) (fr : T) : Edge T P → Option (Edge T P)
  | .other a b => some (.other a b)
  | .manifold a b pts =>
    if (w.mats a).isSome ∧ (w.mats b).isSome then
      (w.mats (if a = e then b else a)).bind fun o =>
      if (w.mixed m.id o.id).isSome then some (.manifold a b pts)
      else (patchAll (mixFriction root fr o.base.friction) pts).map (.manifold a b)
    else some (.manifold a b pts)

/-- The edge starts or ends at the body. -/
def Edge.touches (e : ℕ) : Edge T P → Bool
  | .other a b => a == e || b == e
  | .manifold a b _ => a == e || b == e

/-- `set_rigidbody_friction`, `rigidbody.cpp` 314-362.  `none`: an assertion fails or a component is missing.  The visit of
the edges of a node is that of the model of the graph: every edge once (C05). -/
def setFriction (root : T → T) (w : World T P) (e : ℕ) (fr : T) : Option (World T P) :=
  if w.body e = true then
    (w.mats e).bind fun m =>
    let m' : Material T := { m with base := { m.base with friction := fr } }
    let w' : World T P := { w with mats := fun x => if x = e then some m' else w.mats x }
    (w.edges.mapM fun d : Edge T P => if d.touches e then visitEdge root w' m' e fr d else some d).map fun es => { w' with edges := es }
  else none

/-- What happens to contacts. -/
inductive Op (T P : Type) where
  /-- A new edge without points: `make_contact_manifold` or a constraint. -/
  | link (d : Edge T P)
  /-- An edge is removed with its points. -/
  | unlink (i : ℕ)
  | create (i : ℕ) (p : P × P)
  | merge (i k : ℕ) (p : P × P)
  | destroy (i k : ℕ)
  | friction (e : ℕ) (fr : T)
  | mixing (i j : ℕ) (m : M T)

/-- `numeric_limits<material::id_type>::max()`. -/
def unassigned : ℕ := 65535

/-- One of these. -/
def step (root : T → T) (large : T) (w : World T P) : Op T P → Option (World T P)
  | .link (.other a b) => some { w with edges := .other a b :: w.edges }
  | .link (.manifold a b _) => some { w with edges := .manifold a b [] :: w.edges }
  | .unlink i => some { w with edges := w.edges.eraseIdx i }
  | .create i p => match w.edges[i]? with
    | some (.manifold a b pts) => some { w with edges := w.edges.set i (.manifold a b (newPoint root large w a b p :: pts)) }
    | _ => none
  | .merge i k p => match w.edges[i]? with
    | some (.manifold a b pts) => (pts[k]?).bind fun x => (mergePt root w a b p x).map fun y =>
        { w with edges := w.edges.set i (.manifold a b (pts.set k y)) }
    | _ => none
  | .destroy i k => match w.edges[i]? with
    | some (.manifold a b pts) => some { w with edges := w.edges.set i (.manifold a b (pts.eraseIdx k)) }
    | _ => none
  | .friction e fr => setFriction root w e fr
  | .mixing i j m => if i = unassigned ∨ j = unassigned then none
      else some { w with table := fun x y => if x = min i j ∧ y = max i j then some m else w.table x y }

/-! ## Specification -/

/-- The materials of the pair are set while the pair is in contact. -/
def Late (w : World T P) : Op T P → Prop
  | .mixing i j _ => ∃ a b pts ma mb, .manifold a b pts ∈ w.edges ∧ pts ≠ [] ∧ w.mats a = some ma ∧ w.mats b = some mb ∧
      min ma.id mb.id = min i j ∧ max ma.id mb.id = max i j
  | _ => False

/-- What can happen, starting without edges, if the materials of no pair in contact are set. -/
inductive Reach (root : T → T) (large : T) : World T P → Prop
  | start (w : World T P) : w.edges = [] → Reach root large w
  | step {w w' : World T P} {o : Op T P} : Reach root large w → ¬ Late w o → Fric.step root large w o = some w' → Reach root large w'

/-- The point has the material that a new point at the same place would have, except that the factor of a mesh for the
friction may be missing. -/
def Current (root : T → T) (large : T) (q : Pair T P) (p : P × P) (c : M T) : Prop :=
  c = assign root large q p.1 p.2 ∨
    (q.table = none ∧ (vertexFriction root q p.1 p.2).isSome ∧
      c = { assign root large q p.1 p.2 with friction := mixFriction root q.matA.friction q.matB.friction })

/-- All points of the registry: a material exactly if both bodies have one, and then the present one; a pair with an entry
in the table and a mesh with per-vertex values is left out. -/
def AllCurrent (root : T → T) (large : T) (w : World T P) : Prop :=
  ∀ a b pts, .manifold a b pts ∈ w.edges → ∀ x ∈ pts, (x.mat.isSome ↔ (w.pair a b).isSome) ∧
    ∀ q c, w.pair a b = some q → x.mat = some c → q.table = none ∨ q.plain → Current root large q x.place c

/-! ## Proofs -/

theorem plain_friction {root : T → T} {q : Pair T P} (h : q.plain) (pA pB : P) : vertexFriction root q pA pB = none :=
  (plain_vertex h pA pB).1

theorem current_new (root : T → T) (large : T) (q : Pair T P) (p : P × P) : Current root large q p (assign root large q p.1 p.2) := .inl rfl

/-- Updating a point makes it right again. -/
theorem merge_current {root : T → T} {large : T} {q : Pair T P} {p p' : P × P} {c : M T} (h : Current root large q p c)
    (hq : q.table = none ∨ q.plain) : merge root q p'.1 p'.2 c = assign root large q p'.1 p'.2 := by
  cases ht : q.table with
  | some t =>
    have hp : q.plain := hq.resolve_left (by rw [ht]; simp)
    have hc : c = t := by
      rcases h with h | h
      · rw [h]; simp only [assign, ht]
      · rw [ht] at h; simp at h
    subst hc
    simp only [merge, assign, ht, (plain_vertex (root := root) hp p'.1 p'.2).1, (plain_vertex (root := root) hp p'.1 p'.2).2, Option.getD_none]
  | none =>
    have key := material_of_last_place root large q p [p'] ht
    simp only [life, List.foldl_cons, List.foldl_nil, List.getLast?_singleton, Option.getD_some] at key
    rcases h with h | ⟨-, h2, h3⟩
    · rw [h]; exact key
    · have hv : (vertexFriction root q p'.1 p'.2).isSome := by
        unfold vertexFriction at h2 ⊢
        split at h2 <;> [skip; split at h2] <;> simp_all
      obtain ⟨y, hy⟩ := Option.isSome_iff_exists.mp hv
      rw [← key, h3]
      simp only [merge, hy, Option.getD_some]

theorem pair_some {w : World T P} {a b : ℕ} {q : Pair T P} (h : w.pair a b = some q) :
    ∃ ma mb, w.mats a = some ma ∧ w.mats b = some mb ∧ q = ⟨ma.base, mb.base, w.shape a, w.shape b, w.mixed ma.id mb.id⟩ := by
  unfold World.pair at h
  cases ha : w.mats a with
  | none => rw [ha] at h; simp at h
  | some ma =>
    cases hb : w.mats b with
    | none => rw [ha, hb] at h; simp at h
    | some mb => rw [ha, hb] at h; simp at h; exact ⟨ma, mb, rfl, rfl, h.symm⟩

theorem pair_isSome {w : World T P} {a b : ℕ} : (w.pair a b).isSome ↔ (w.mats a).isSome ∧ (w.mats b).isSome := by
  unfold World.pair
  cases w.mats a <;> cases w.mats b <;> simp

theorem patchAll_spec {fr : T} {pts pts' : List (Pt T P)} (h : patchAll fr pts = some pts') :
    ∀ x' ∈ pts', ∃ x ∈ pts, ∃ c, x.mat = some c ∧ x' = ⟨x.place, some { c with friction := fr }⟩ := by
  intro x' hx'
  unfold patchAll at h
  induction pts generalizing pts' with
  | nil => simp at h; subst h; simp at hx'
  | cons y l ih =>
    rw [List.mapM_cons] at h
    cases hy : y.mat with
    | none => rw [hy] at h; simp at h
    | some c =>
      rw [hy] at h
      simp only [Option.map_some, Option.bind_eq_bind, Option.bind_some, Option.bind_eq_some_iff, Option.pure_def] at h
      obtain ⟨l', h1, h2⟩ := h
      cases h2
      rcases List.mem_cons.mp hx' with rfl | hx'
      · exact ⟨y, List.mem_cons_self, c, hy, rfl⟩
      · obtain ⟨x, hx, r⟩ := ih h1 hx'
        exact ⟨x, List.mem_cons_of_mem _ hx, r⟩

theorem patchAll_def {fr : T} {pts : List (Pt T P)} (h : ∀ x ∈ pts, x.mat.isSome) : (patchAll fr pts).isSome := by
  unfold patchAll
  induction pts with
  | nil => simp
  | cons y l ih =>
    obtain ⟨c, hc⟩ := Option.isSome_iff_exists.mp (h y List.mem_cons_self)
    obtain ⟨l', hl⟩ := Option.isSome_iff_exists.mp (ih fun x hx => h x (List.mem_cons_of_mem _ hx))
    rw [List.mapM_cons, hc]
    simp [hl]

theorem mapM_back {α β : Type} {g : α → Option β} {l : List α} {l' : List β} (h : l.mapM g = some l') :
    ∀ y ∈ l', ∃ x ∈ l, g x = some y := by
  induction l generalizing l' with
  | nil => simp at h; subst h; simp
  | cons a l ih =>
    rw [List.mapM_cons] at h
    simp only [Option.bind_eq_bind, Option.bind_eq_some_iff, Option.pure_def] at h
    obtain ⟨y, h1, l1, h2, h3⟩ := h
    cases h3
    intro z hz
    rcases List.mem_cons.mp hz with rfl | hz
    · exact ⟨a, List.mem_cons_self, h1⟩
    · obtain ⟨x, hx, e⟩ := ih h2 z hz
      exact ⟨x, List.mem_cons_of_mem _ hx, e⟩

theorem mapM_def {α β : Type} {g : α → Option β} {l : List α} (h : ∀ x ∈ l, (g x).isSome) : (l.mapM g).isSome := by
  induction l with
  | nil => simp
  | cons a l ih =>
    obtain ⟨c, hc⟩ := Option.isSome_iff_exists.mp (h a List.mem_cons_self)
    obtain ⟨l', hl⟩ := Option.isSome_iff_exists.mp (ih fun x hx => h x (List.mem_cons_of_mem _ hx))
    rw [List.mapM_cons, hc]
    simp [hl]

/-- Friction apart, the material does not depend on the friction of the bodies. -/
theorem assign_but_friction {root : T → T} {large : T} {q q' : Pair T P} (ht : q.table = none) (ht' : q'.table = none)
    (sA : q'.shA = q.shA) (sB : q'.shB = q.shB) (mA : q'.matA = { q.matA with friction := q'.matA.friction })
    (mB : q'.matB = { q.matB with friction := q'.matB.friction }) (pA pB : P) (y : T) :
    ({ assign root large q' pA pB with friction := y } : M T) = { assign root large q pA pB with friction := y } := by
  have rA : q'.matA.restitution = q.matA.restitution := by rw [mA]
  have rB : q'.matB.restitution = q.matB.restitution := by rw [mB]
  have oA : q'.matA.roll = q.matA.roll := by rw [mA]
  have oB : q'.matB.roll = q.matB.roll := by rw [mB]
  have pA' : q'.matA.spin = q.matA.spin := by rw [mA]
  have pB' : q'.matB.spin = q.matB.spin := by rw [mB]
  have kA : q'.matA.stiffness = q.matA.stiffness := by rw [mA]
  have kB : q'.matB.stiffness = q.matB.stiffness := by rw [mB]
  have dA : q'.matA.damping = q.matA.damping := by rw [mA]
  have dB : q'.matB.damping = q.matB.damping := by rw [mB]
  simp only [assign, ht, ht', vertexRestitution, sA, sB, rA, rB, oA, oB, pA', pB', kA, kB, dA, dB]

/-- The material of a body after its friction was changed. -/
def refriction (m : Material T) (fr : T) : Material T := { m with base := { m.base with friction := fr } }

theorem setFriction_some {root : T → T} {w w' : World T P} {e : ℕ} {fr : T} (h : setFriction root w e fr = some w') :
    ∃ m es, w.body e = true ∧ w.mats e = some m ∧
      w' = { w with mats := fun x => if x = e then some (refriction m fr) else w.mats x, edges := es } ∧
      w.edges.mapM (fun d : Edge T P => if d.touches e then
        visitEdge root { w with mats := fun x => if x = e then some (refriction m fr) else w.mats x } (refriction m fr) e fr d else some d) = some es := by
  unfold setFriction at h
  split at h
  · rename_i hb
    cases hm : w.mats e with
    | none => rw [hm] at h; simp at h
    | some m =>
      rw [hm] at h
      simp only [Option.bind_some, Option.map_eq_some_iff] at h
      obtain ⟨es, h1, h2⟩ := h
      exact ⟨m, es, hb, rfl, h2.symm, h1⟩
  · simp at h

theorem visit_manifold {root : T → T} {w : World T P} {m : Material T} {e : ℕ} {fr : T} {d : Edge T P} {a b : ℕ} {pts' : List (Pt T P)}
    (h : visitEdge root w m e fr d = some (.manifold a b pts')) : ∃ pts, d = .manifold a b pts ∧
      ((¬ ((w.mats a).isSome ∧ (w.mats b).isSome) ∧ pts' = pts) ∨ ∃ o, w.mats (if a = e then b else a) = some o ∧
        (((w.mixed m.id o.id).isSome ∧ pts' = pts) ∨
          (w.mixed m.id o.id = none ∧ patchAll (mixFriction root fr o.base.friction) pts = some pts'))) := by
  cases d with
  | other => simp [visitEdge] at h
  | manifold a' b' pts =>
    simp only [visitEdge] at h
    split at h
    · simp only [Option.bind_eq_some_iff] at h
      obtain ⟨o, ho, h⟩ := h
      split at h
      · rename_i ht
        simp only [Option.some.injEq, Edge.manifold.injEq] at h
        obtain ⟨rfl, rfl, rfl⟩ := h
        exact ⟨_, rfl, .inr ⟨o, ho, .inl ⟨ht, rfl⟩⟩⟩
      · rename_i ht
        simp only [Option.map_eq_some_iff, Edge.manifold.injEq] at h
        obtain ⟨l, h1, rfl, rfl, rfl⟩ := h
        exact ⟨_, rfl, .inr ⟨o, ho, .inr ⟨by simpa using ht, h1⟩⟩⟩
    · rename_i hn
      simp only [Option.some.injEq, Edge.manifold.injEq] at h
      obtain ⟨rfl, rfl, rfl⟩ := h
      exact ⟨_, rfl, .inl ⟨hn, rfl⟩⟩

theorem mixed_comm (w : World T P) (i j : ℕ) : w.mixed i j = w.mixed j i := by
  unfold World.mixed; rw [min_comm, max_comm]

theorem setFriction_current {root : T → T} {large : T} {w w' : World T P} {e : ℕ} {fr : T} (h : AllCurrent root large w)
    (hs : setFriction root w e fr = some w') : AllCurrent root large w' := by
  obtain ⟨m, es, hb, hm, rfl, hes⟩ := setFriction_some hs
  clear hs
  set W : World T P := { w with mats := fun x => if x = e then some (refriction m fr) else w.mats x } with hW
  have hmats : ∀ x, W.mats x = if x = e then some (refriction m fr) else w.mats x := fun x => rfl
  have same : ∀ x m', W.mats x = some m' → ∃ m0, w.mats x = some m0 ∧ m'.id = m0.id ∧ m'.base = { m0.base with friction := m'.base.friction } ∧
      (x = e → m'.base.friction = fr) := by
    intro x m' hx
    rw [hmats] at hx
    split at hx
    · rename_i hxe
      cases hx; subst hxe
      exact ⟨m, hm, rfl, rfl, fun _ => rfl⟩
    · rename_i hxe
      exact ⟨m', hx, rfl, rfl, fun h => absurd h hxe⟩
  have both : ∀ x, (W.mats x).isSome ↔ (w.mats x).isSome := by
    intro x
    rw [hmats]
    split
    · rename_i hxe; rw [hxe, hm]; simp
    · exact Iff.rfl
  intro a b pts' hmem x hx
  have hpair : (({ W with edges := es } : World T P).pair a b) = W.pair a b := rfl
  rw [show (({ w with mats := fun x => if x = e then some (refriction m fr) else w.mats x, edges := es } : World T P).pair a b) = W.pair a b from rfl]
  obtain ⟨d, hd, hv⟩ := mapM_back hes _ hmem
  -- the two pairs
  have pairs : ∀ q', W.pair a b = some q' → ∃ q, w.pair a b = some q ∧ q'.table = q.table ∧ q'.shA = q.shA ∧ q'.shB = q.shB ∧
      q'.matA = { q.matA with friction := q'.matA.friction } ∧ q'.matB = { q.matB with friction := q'.matB.friction } := by
    intro q' hq'
    obtain ⟨ma', mb', h1, h2, rfl⟩ := pair_some hq'
    obtain ⟨ma, k1, k2, k3, -⟩ := same _ _ h1
    obtain ⟨mb, l1, l2, l3, -⟩ := same _ _ h2
    refine ⟨⟨ma.base, mb.base, w.shape a, w.shape b, w.mixed ma.id mb.id⟩, by simp [World.pair, k1, l1], ?_, rfl, rfl, k3, l3⟩
    simp only [k2, l2]; rfl
  have plain' : ∀ q q' : Pair T P, q'.shA = q.shA → q'.shB = q.shB → q'.plain → q.plain := by
    intro q q' h1 h2 h3
    unfold Pair.plain at *
    rwa [h1, h2] at h3
  by_cases hat : d.touches e = true
  · rw [if_pos hat] at hv
    obtain ⟨pts, rfl, hcase⟩ := visit_manifold hv
    rcases hcase with ⟨hn, rfl⟩ | ⟨o, ho, hcase⟩
    · have := h a b _ hd x hx
      rw [pair_isSome, both, both]
      rw [pair_isSome] at this
      refine ⟨this.1, fun q' c hq' => ?_⟩
      exact absurd (pair_isSome.mp (by rw [hq']; rfl)) hn
    · -- the entry of the table is the one looked up
      have htab : ∀ q', W.pair a b = some q' → q'.table = W.mixed (refriction m fr).id o.id ∧
          mixFriction root q'.matA.friction q'.matB.friction = mixFriction root fr o.base.friction := by
        intro q' hq'
        obtain ⟨ma', mb', h1, h2, rfl⟩ := pair_some hq'
        by_cases hae : a = e
        · rw [if_pos hae] at ho
          rw [ho] at h2; cases h2
          rw [hmats, if_pos hae] at h1; cases h1
          exact ⟨rfl, rfl⟩
        · rw [if_neg hae] at ho
          rw [ho] at h1; cases h1
          have hbe : b = e := by
            simp only [Edge.touches, Bool.or_eq_true, beq_iff_eq] at hat
            exact hat.resolve_left hae
          rw [hmats, if_pos hbe] at h2; cases h2
          refine ⟨mixed_comm _ _ _, ?_⟩
          simp only [mixFriction, refriction]
          rw [mul_comm]
      rcases hcase with ⟨ht, rfl⟩ | ⟨ht, hp⟩
      · obtain ⟨i1, i2⟩ := h a b _ hd x hx
        rw [pair_isSome, both, both, ← pair_isSome]
        refine ⟨i1, fun q' c hq' hc hor => ?_⟩
        obtain ⟨q, hq, e1, e2, e3, -, -⟩ := pairs q' hq'
        obtain ⟨t, hT⟩ := Option.isSome_iff_exists.mp ht
        have hqt : q'.table = some t := by rw [(htab q' hq').1, hT]
        have hpl : q'.plain := hor.resolve_left (by rw [hqt]; simp)
        have := i2 q c hq hc (.inr (plain' q q' e2 e3 hpl))
        rw [e1] at hqt
        left
        rcases this with r | r
        · rw [r]; simp only [assign, hqt, e1]
        · rw [hqt] at r; simp at r
      · obtain ⟨x0, hx0, c0, hc0, rfl⟩ := patchAll_spec hp x hx
        obtain ⟨i1, i2⟩ := h a b _ hd x0 hx0
        rw [pair_isSome, both, both, ← pair_isSome]
        refine ⟨by rw [← i1, hc0]; simp, fun q' c hq' hc hor => ?_⟩
        obtain ⟨q, hq, e1, e2, e3, e4, e5⟩ := pairs q' hq'
        obtain ⟨f1, f2⟩ := htab q' hq'
        rw [ht] at f1
        have hqt : q.table = none := by rw [← e1, f1]
        have hcur := i2 q c0 hq hc0 (.inl hqt)
        simp only [Option.some.injEq] at hc
        subst hc
        rw [← f2]
        have hmain : ({ c0 with friction := mixFriction root q'.matA.friction q'.matB.friction } : M T) =
            { assign root large q' x0.place.1 x0.place.2 with friction := mixFriction root q'.matA.friction q'.matB.friction } := by
          rw [assign_but_friction hqt f1 e2 e3 e4 e5]
          rcases hcur with r | ⟨-, -, r⟩ <;> rw [r]
        rw [hmain]
        cases hvf : vertexFriction root q' x0.place.1 x0.place.2 with
        | some y => exact .inr ⟨f1, by rw [hvf]; rfl, rfl⟩
        | none =>
          left
          simp only [assign, f1, hvf, Option.getD_none]
  · rw [if_neg hat] at hv
    cases hv
    simp only [Edge.touches, Bool.or_eq_true, beq_iff_eq, not_or] at hat
    have : W.pair a b = w.pair a b := by
      unfold World.pair
      rw [hmats, hmats, if_neg hat.1, if_neg hat.2]; rfl
    rw [this]
    exact h a b _ hd x hx

/-- **C96, contacts are up to date.** Whatever happens, as long as the materials of no pair in contact are set in the table,
every contact point between bodies with materials has the material that a new point at its place would have, but for the
friction of a mesh with per-vertex values, which may be without the factor of the mesh. -/
theorem reach_current {root : T → T} {large : T} {w : World T P} (h : Reach root large w) : AllCurrent root large w := by
  induction h with
  | start w hw => intro a b pts hm; rw [hw] at hm; simp at hm
  | @step w w' o hr hl hs ih =>
    cases o with
    | link d =>
      cases d with
      | other a b =>
        cases hs
        intro a' b' pts hm
        rcases List.mem_cons.mp hm with hm | hm
        · cases hm
        · exact ih a' b' pts hm
      | manifold a b l =>
        cases hs
        intro a' b' pts hm
        rcases List.mem_cons.mp hm with hm | hm
        · cases hm; simp
        · exact ih a' b' pts hm
    | unlink i =>
      cases hs
      exact fun a b pts hm => ih a b pts (List.mem_of_mem_eraseIdx hm)
    | create i p =>
      simp only [step] at hs
      split at hs
      · rename_i a b pts hi
        cases hs
        intro a' b' pts' hm x hx
        rcases List.mem_or_eq_of_mem_set hm with hm | hm
        · exact ih a' b' pts' hm x hx
        · cases hm
          rcases List.mem_cons.mp hx with rfl | hx
          · refine ⟨by simp [newPoint]; rfl, fun q c hq hc _ => ?_⟩
            simp only [newPoint] at hc
            rw [show w.pair a b = some q from hq] at hc
            cases hc
            exact current_new _ _ _ _
          · exact ih a b pts (List.mem_of_getElem? hi) x hx
      · simp at hs
    | merge i k p =>
      simp only [step] at hs
      split at hs
      · rename_i a b pts hi
        simp only [Option.bind_eq_some_iff, Option.map_eq_some_iff] at hs
        obtain ⟨x, hx, y, hy, rfl⟩ := hs
        have hpts := ih a b pts (List.mem_of_getElem? hi)
        intro a' b' pts' hm z hz
        rcases List.mem_or_eq_of_mem_set hm with hm | hm
        · exact ih a' b' pts' hm z hz
        · cases hm
          rcases List.mem_or_eq_of_mem_set hz with hz | rfl
          · exact hpts z hz
          · obtain ⟨i1, i2⟩ := hpts x (List.mem_of_getElem? hx)
            unfold mergePt at hy
            cases hxm : x.mat with
            | none =>
              rw [hxm] at hy i1
              cases hy
              refine ⟨i1, fun q c hq hc => by simp at hc⟩
            | some c0 =>
              rw [hxm] at hy i1
              simp only [Option.map_eq_some_iff] at hy
              obtain ⟨q0, hq0, rfl⟩ := hy
              refine ⟨i1, fun q c hq hc hor => ?_⟩
              rw [show w.pair a b = some q from hq] at hq0
              cases hq0
              cases hc
              left
              exact merge_current (i2 _ _ hq hxm hor) hor
      · simp at hs
    | destroy i k =>
      simp only [step] at hs
      split at hs
      · rename_i a b pts hi
        cases hs
        intro a' b' pts' hm x hx
        rcases List.mem_or_eq_of_mem_set hm with hm | hm
        · exact ih a' b' pts' hm x hx
        · cases hm
          exact ih a b pts (List.mem_of_getElem? hi) x (List.mem_of_mem_eraseIdx hx)
      · simp at hs
    | friction e fr => exact setFriction_current ih hs
    | mixing i j m =>
      simp only [step] at hs
      split at hs
      · simp at hs
      · cases hs
        intro a b pts hm x hx
        obtain ⟨i1, i2⟩ := ih a b pts hm x hx
        have key : (({ w with table := fun x y => if x = min i j ∧ y = max i j then some m else w.table x y } : World T P).pair a b) = w.pair a b := by
          unfold World.pair
          simp only
          cases ha : w.mats a with
          | none => rfl
          | some ma =>
            cases hb : w.mats b with
            | none => rfl
            | some mb =>
              simp only [Option.bind_some, Option.map_some, World.mixed]
              rw [if_neg]
              rintro ⟨h1, h2⟩
              exact hl ⟨a, b, pts, ma, mb, hm, List.ne_nil_of_mem hx, ha, hb, h1, h2⟩
        rw [key]
        exact ⟨i1, i2⟩

/-! ## What a call does -/

theorem visit_def {root : T → T} {W : World T P} {m : Material T} {e : ℕ} {fr : T} {a b : ℕ} {pts : List (Pt T P)}
    (h : (W.mats a).isSome ∧ (W.mats b).isSome → ∀ x ∈ pts, x.mat.isSome) : (visitEdge root W m e fr (.manifold a b pts)).isSome := by
  simp only [visitEdge]
  by_cases hab : (W.mats a).isSome ∧ (W.mats b).isSome
  · rw [if_pos hab]
    have ho : ∃ o, W.mats (if a = e then b else a) = some o := by
      by_cases ha : a = e
      · rw [if_pos ha]; exact Option.isSome_iff_exists.mp hab.2
      · rw [if_neg ha]; exact Option.isSome_iff_exists.mp hab.1
    obtain ⟨o, ho⟩ := ho
    rw [ho, Option.bind_some]
    by_cases ht : (W.mixed m.id o.id).isSome
    · rw [if_pos ht]; rfl
    · rw [if_neg ht, Option.isSome_map]
      exact patchAll_def (h hab)
  · rw [if_neg hab]; rfl

/-- The call is defined for every body with a material. -/
theorem setFriction_defined {root : T → T} {large : T} {w : World T P} (h : Reach root large w) (e : ℕ) (fr : T) :
    (setFriction root w e fr).isSome ↔ w.body e = true ∧ (w.mats e).isSome := by
  constructor
  · intro hs
    obtain ⟨w', hs⟩ := Option.isSome_iff_exists.mp hs
    obtain ⟨m, es, hb, hm, -⟩ := setFriction_some hs
    exact ⟨hb, by rw [hm]; rfl⟩
  · rintro ⟨hb, hm⟩
    obtain ⟨m, hm⟩ := Option.isSome_iff_exists.mp hm
    unfold setFriction
    rw [if_pos hb, hm, Option.bind_some]
    simp only [Option.isSome_map]
    refine mapM_def fun d hd => ?_
    by_cases hat : d.touches e = true
    · rw [if_pos hat]
      cases d with
      | other a b => rfl
      | manifold a b pts =>
        refine visit_def fun hab x hx => ((reach_current h a b pts hd x hx).1).mpr (pair_isSome.mpr ?_)
        obtain ⟨h1, h2⟩ := hab
        constructor
        · by_cases ha : a = e
          · rw [ha, hm]; rfl
          · have : (if a = e then some ({ m with base := { m.base with friction := fr } } : Material T) else w.mats a).isSome := h1
            rwa [if_neg ha] at this
        · by_cases hb : b = e
          · rw [hb, hm]; rfl
          · have : (if b = e then some ({ m with base := { m.base with friction := fr } } : Material T) else w.mats b).isSome := h2
            rwa [if_neg hb] at this
    · rw [if_neg hat]; rfl

theorem visit_not_other {root : T → T} {W : World T P} {m : Material T} {e : ℕ} {fr : T} {a b : ℕ} {pts : List (Pt T P)} (a' b' : ℕ) :
    visitEdge root W m e fr (.manifold a b pts) ≠ some (.other a' b') := by
  intro h
  simp only [visitEdge] at h
  by_cases hab : (W.mats a).isSome ∧ (W.mats b).isSome
  · rw [if_pos hab, Option.bind_eq_some_iff] at h
    obtain ⟨o, -, h⟩ := h
    split at h <;> simp at h
  · rw [if_neg hab] at h; simp at h

theorem mapM_get {α β : Type} {g : α → Option β} {l : List α} {l' : List β} (h : l.mapM g = some l') :
    l'.length = l.length ∧ ∀ (i : ℕ) x, l[i]? = some x → ∃ y, g x = some y ∧ l'[i]? = some y := by
  induction l generalizing l' with
  | nil => simp at h; subst h; simp
  | cons a l ih =>
    rw [List.mapM_cons] at h
    simp only [Option.bind_eq_bind, Option.bind_eq_some_iff, Option.pure_def] at h
    obtain ⟨y, h1, l1, h2, h3⟩ := h
    cases h3
    obtain ⟨k1, k2⟩ := ih h2
    refine ⟨by simp [k1], fun i x hx => ?_⟩
    cases i with
    | zero => simp at hx; subst hx; exact ⟨y, h1, by simp⟩
    | succ i => simp at hx ⊢; exact k2 i x hx

/-- What stays as it is: which bodies an edge connects, and all but the friction of the points of a manifold. -/
def SameButFriction : Edge T P → Edge T P → Prop
  | .other a b, .other a' b' => a' = a ∧ b' = b
  | .manifold a b pts, .manifold a' b' pts' => a' = a ∧ b' = b ∧ pts'.length = pts.length ∧
      ∀ (k : ℕ) x, pts[k]? = some x → ∃ x', pts'[k]? = some x' ∧ x'.place = x.place ∧
        x'.mat.map (fun c => { c with friction := 0 }) = x.mat.map (fun c => { c with friction := 0 })
  | _, _ => False

theorem SameButFriction.refl (d : Edge T P) : SameButFriction d d := by
  cases d with
  | other => exact ⟨rfl, rfl⟩
  | manifold => exact ⟨rfl, rfl, rfl, fun k x hx => ⟨x, hx, rfl, rfl⟩⟩

theorem current_friction {root : T → T} {large : T} {W : World T P} (hcur : AllCurrent root large W) {a b : ℕ} {pts : List (Pt T P)}
    {ma mb : Material T} (hmem : .manifold a b pts ∈ W.edges) (ha : W.mats a = some ma) (hb : W.mats b = some mb) {x : Pt T P} (hx : x ∈ pts) :
    (∀ t, W.mixed ma.id mb.id = some t → (W.shape a).friction = none → (W.shape a).restitution = none →
        (W.shape b).friction = none → (W.shape b).restitution = none → x.mat = some t) ∧
    (W.mixed ma.id mb.id = none → (W.shape a).friction = none → (W.shape b).friction = none →
        ∃ c, x.mat = some c ∧ c.friction = root (ma.base.friction * mb.base.friction)) := by
  obtain ⟨i1, i2⟩ := hcur a b pts hmem x hx
  have hq : W.pair a b = some ⟨ma.base, mb.base, W.shape a, W.shape b, W.mixed ma.id mb.id⟩ := by
    unfold World.pair; rw [ha, hb, Option.bind_some, Option.map_some]
  obtain ⟨c, hc⟩ := Option.isSome_iff_exists.mp (i1.mpr (by rw [hq]; rfl))
  constructor
  · intro t ht f1 f2 f3 f4
    rcases i2 _ c hq hc (.inr ⟨f1, f2, f3, f4⟩) with r | ⟨r, -⟩
    · rw [hc, r]; simp only [assign, ht]
    · simp only [ht] at r; cases r
  · intro ht f1 f2
    refine ⟨c, hc, ?_⟩
    rcases i2 _ c hq hc (.inl ht) with r | ⟨-, -, r⟩
    · rw [r]
      simp only [assign, ht, vertexFriction, f1, f2, Option.map_none, ite_self, Option.getD_none]
      rfl
    · rw [r]; rfl

/-- **C96, partial.** The call changes the friction of the body.  Every contact point of it is up to date then: between
bodies with materials, unless there is an entry for them in the table, the friction is the mix of both bodies; an entry of the
table stays in force.  Materials of other bodies, edges of other bodies, and everything about a contact but its friction stay
as they are.  Missing: the factor of meshes with per-vertex values, until the next update of the point, and pairs whose
entry was set while they were in contact. -/
theorem set_friction_partial {root : T → T} {large : T} {w w' : World T P} (h : Reach root large w) {e : ℕ} {fr : T}
    (hs : setFriction root w e fr = some w') :
    (∃ m m', w.mats e = some m ∧ w'.mats e = some m' ∧ m'.id = m.id ∧ m'.base = { m.base with friction := fr }) ∧
    (∀ x, x ≠ e → w'.mats x = w.mats x) ∧ w'.body = w.body ∧ w'.shape = w.shape ∧ w'.table = w.table ∧
    w'.edges.length = w.edges.length ∧
    (∀ (i : ℕ) d, w.edges[i]? = some d → ∃ d', w'.edges[i]? = some d' ∧ SameButFriction d d' ∧ (d.touches e = false → d' = d)) ∧
    AllCurrent root large w' ∧
    ∀ a b pts ma mb, .manifold a b pts ∈ w'.edges → w'.mats a = some ma → w'.mats b = some mb → ∀ x ∈ pts,
      (∀ t, w'.mixed ma.id mb.id = some t → (w'.shape a).friction = none → (w'.shape a).restitution = none →
        (w'.shape b).friction = none → (w'.shape b).restitution = none → x.mat = some t) ∧
      (w'.mixed ma.id mb.id = none → (w'.shape a).friction = none → (w'.shape b).friction = none →
        ∃ c, x.mat = some c ∧ c.friction = root (ma.base.friction * mb.base.friction)) := by
  have hcur : AllCurrent root large w' := reach_current (.step (o := .friction e fr) h id hs)
  obtain ⟨m, es, hb, hm, rfl, hes⟩ := setFriction_some hs
  obtain ⟨g1, g2⟩ := mapM_get hes
  refine ⟨⟨m, refriction m fr, hm, by simp, rfl, rfl⟩, fun x hx => by simp [hx], rfl, rfl, rfl, g1, ?_, hcur, ?_⟩
  · intro i d hd
    obtain ⟨d', h1, h2⟩ := g2 i d hd
    refine ⟨d', h2, ?_, ?_⟩
    · split at h1
      · cases d' with
        | other a b =>
          cases d with
          | other a' b' => simp only [visitEdge, Option.some.injEq, Edge.other.injEq] at h1; exact ⟨h1.1.symm, h1.2.symm⟩
          | manifold a' b' pts =>
            exact absurd h1 (visit_not_other _ _)
        | manifold a b pts' =>
          obtain ⟨pts, rfl, hc⟩ := visit_manifold h1
          rcases hc with ⟨-, rfl⟩ | ⟨o, -, ⟨-, rfl⟩ | ⟨-, hp⟩⟩
          · exact .refl _
          · exact .refl _
          · obtain ⟨k1, k2⟩ := mapM_get (show pts.mapM _ = some pts' from hp)
            refine ⟨rfl, rfl, k1, fun k x hx => ?_⟩
            obtain ⟨y, y1, y2⟩ := k2 k x hx
            simp only [Option.map_eq_some_iff] at y1
            obtain ⟨c, hc, rfl⟩ := y1
            exact ⟨_, y2, rfl, by rw [hc]; rfl⟩
      · cases h1; exact .refl _
    · intro ht
      rw [ht] at h1
      simpa using h1.symm
  · exact fun a b pts ma mb hmem ha hb' x hx => current_friction hcur hmem ha hb' hx

/-- After its next update a point has the material that a new one would have, meshes included. -/
theorem updated_exact {root : T → T} {large : T} {w w' : World T P} (h : Reach root large w) {i k : ℕ} {p : P × P} {a b : ℕ}
    {pts : List (Pt T P)} (hi : w.edges[i]? = some (.manifold a b pts)) (hs : step root large w (.merge i k p) = some w') :
    ∃ pts' x, w'.edges[i]? = some (.manifold a b pts') ∧ pts'[k]? = some x ∧ x.place = p ∧
      ∀ q, w.pair a b = some q → q.table = none ∨ q.plain → x.mat = some (assign root large q p.1 p.2) := by
  simp only [step, hi] at hs
  simp only [Option.bind_eq_some_iff, Option.map_eq_some_iff] at hs
  obtain ⟨x, hx, y, hy, rfl⟩ := hs
  have li : i < w.edges.length := (List.getElem?_eq_some_iff.mp hi).1
  have lk : k < pts.length := (List.getElem?_eq_some_iff.mp hx).1
  obtain ⟨i1, i2⟩ := reach_current h a b pts (List.mem_of_getElem? hi) x (List.mem_of_getElem? hx)
  refine ⟨pts.set k y, y, by simp [li], by simp [lk], ?_, fun q hq hor => ?_⟩
  · unfold mergePt at hy
    split at hy
    · cases hy; rfl
    · simp only [Option.map_eq_some_iff] at hy
      obtain ⟨q, -, rfl⟩ := hy; rfl
  · obtain ⟨c, hc⟩ := Option.isSome_iff_exists.mp (i1.mpr (by rw [hq]; rfl))
    unfold mergePt at hy
    rw [hc] at hy
    simp only [hq, Option.map_some, Option.some.injEq] at hy
    subst hy
    simp only [merge_current (i2 q c hq hc hor) hor]

/-! ## Findings -/

/-- The full claim: the call is defined for every body, and afterwards every contact point of the body has the material that
a new one at its place would have, whatever happened before. -/
def SetFrictionFull (T P : Type) [Field T] [LinearOrder T] [IsStrictOrderedRing T] : Prop :=
  ∀ (root : T → T) (large : T) (ops : List (Op T P)) (w0 w : World T P) (e : ℕ) (fr : T), w0.edges = [] →
    ops.foldlM (step root large) w0 = some w → w.body e = true →
    ∃ w', setFriction root w e fr = some w' ∧ ∀ a b pts q, .manifold a b pts ∈ w'.edges → a = e ∨ b = e → w'.pair a b = some q →
      ∀ x ∈ pts, x.mat = some (assign root large q x.place.1 x.place.2)

/-- A ball (0), a floor (1) with material ids 0 and 1, and a sensor (2). -/
def room (floor : Shape ℚ Unit) : World ℚ Unit where
  body := fun x => decide (x < 3)
  mats := fun x => if x < 2 then some ⟨⟨0, 4, 0, 0, 1000, 1000⟩, x⟩ else none
  shape := fun x => if x = 1 then floor else {}
  edges := []
  table := fun _ _ => none

/-- The friction of all points. -/
def frictions (w : World ℚ Unit) : List (Option ℚ) :=
  w.edges.flatMap fun
    | .other _ _ => []
    | .manifold _ _ pts => pts.map fun x => x.mat.map (·.friction)

/-- A body without a material, a sensor, is a body, but its friction cannot be set: the component is missing. -/
theorem sensor_undefined : (room {}).body 2 = true ∧ setFriction (fun x => x) (room {}) 2 1 = none := by decide +kernel

/-- A ball on a mesh with factor 9: the contact is created with the factor; setting the friction of the ball drops it; the next
update brings it back. -/
theorem factor_lost :
    (([.link (.manifold 0 1 []), .create 0 ((), ())] : List (Op ℚ Unit)).foldlM (step (fun x => x) 1000)
      (room { friction := some fun _ => 9, mesh := true })).map frictions = some [some 144] ∧
    (([.link (.manifold 0 1 []), .create 0 ((), ()), .friction 0 2] : List (Op ℚ Unit)).foldlM (step (fun x => x) 1000)
      (room { friction := some fun _ => 9, mesh := true })).map frictions = some [some 8] ∧
    (([.link (.manifold 0 1 []), .create 0 ((), ()), .friction 0 2, .merge 0 0 ((), ())] : List (Op ℚ Unit)).foldlM (step (fun x => x) 1000)
      (room { friction := some fun _ => 9, mesh := true })).map frictions = some [some 72] := by decide +kernel

/-- An entry of the table made while the ball is in contact is not applied to the contact, and from then on the friction of
the contact does not follow the one of the ball either. -/
theorem late_entry :
    (([.link (.manifold 0 1 []), .create 0 ((), ()), .mixing 0 1 ⟨0, 7, 0, 0, 1000, 1000⟩, .merge 0 0 ((), ()), .friction 0 2] :
      List (Op ℚ Unit)).foldlM (step (fun x => x) 1000) (room {})).map frictions = some [some 16] := by decide +kernel

theorem SetFrictionFull_false : ¬ SetFrictionFull ℚ Unit := by
  intro h
  obtain ⟨w', hw, -⟩ := h (fun x => x) 1000 [] (room {}) (room {}) 2 1 rfl rfl rfl
  rw [sensor_undefined.2] at hw
  cases hw

/-- A history with two contacts and a constraint. -/
def story : List (Op ℚ Unit) :=
  [.link (.manifold 1 0 []), .create 0 ((), ()), .link (.other 0 1), .link (.manifold 0 2 []), .create 0 ((), ()), .create 2 ((), ()),
    .friction 1 3, .merge 2 1 ((), ()), .friction 0 5]

/-- The hypotheses of the theorems are met by it: it runs without entries in the table, and the contacts follow. -/
example : (story.foldlM (step (fun x => x) 1000) (room {})).map frictions = some [none, some 15, some 15] := by decide +kernel

theorem reach_run {root : T → T} {large : T} {ops : List (Op T P)} (hops : ∀ o ∈ ops, ∀ i j m, o ≠ .mixing i j m) {w0 w : World T P}
    (h0 : Reach root large w0) (h : ops.foldlM (step root large) w0 = some w) : Reach root large w := by
  induction ops generalizing w0 with
  | nil => simp at h; subst h; exact h0
  | cons o ops ih =>
    simp only [List.foldlM_cons, Option.bind_eq_bind, Option.bind_eq_some_iff] at h
    obtain ⟨w1, h1, h2⟩ := h
    refine ih (fun o' ho' => hops o' (List.mem_cons_of_mem _ ho')) (.step h0 ?_ h1) h2
    have := hops o List.mem_cons_self
    cases o <;> first | exact id | (rename_i i j m; exact absurd rfl (this i j m))

example : ∃ w, story.foldlM (step (fun x => x) 1000) (room {}) = some w ∧ Reach (fun x => x) 1000 w := by
  obtain ⟨w, hw⟩ : ∃ w, story.foldlM (step (fun x => x) 1000) (room {}) = some w := by
    rw [← Option.isSome_iff_exists]; decide +kernel
  exact ⟨w, hw, reach_run (by simp [story]) (.start _ rfl) hw⟩

end Edyn.Contact.Fric
