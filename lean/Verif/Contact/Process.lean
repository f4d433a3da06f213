import Verif.Contact.List
import Verif.Contact.Insert
import Mathlib.Tactic.Tauto
import Mathlib.Tactic.Set
import Mathlib.Data.List.Perm.Basic

/-!
# Processing a collision result (C33)

`process_collision`, `include/edyn/util/collision_util.hpp` 105-265, with the two ways in which the
narrowphase calls it: `narrowphase::update_contact_manifolds`, `include/edyn/collision/narrowphase.hpp`
60-82, and `narrowphase::detect_collision_parallel_range` followed by `finish_detect_collision`,
`src/edyn/collision/narrowphase.cpp` 42-109.
-/

namespace Edyn.Contact

open Edyn.Math

variable {T : Type} [Field T] [LinearOrder T] [IsStrictOrderedRing T] {X : Type}

/-- `collision_result::collision_point`, `include/edyn/collision/collision_result.hpp` 13-20; `rest`
stands for normal, distance, attachment and features. -/
structure Pt (T X : Type) where
  pA : V3 T
  pB : V3 T
  rest : X

/-- The components of a contact point: the geometry, `contact_point::lifetime` and the applied
impulses, `include/edyn/collision/contact_point.hpp`. -/
structure Dat (T X : Type) where
  pt : Pt T X
  life : Nat
  imp : V3 T

/-- A new contact point, `create_contact_point`. -/
def fresh (p : Pt T X) : Dat T X := ⟨p, 0, 0⟩

/-- `merge_point`, `src/edyn/util/collision_util.cpp` 205-231: lifetime and impulses are kept.
The material is not part of this model. -/
def merge (p : Pt T X) (d : Dat T X) : Dat T X := { d with pt := p }

/-- `++cp.lifetime`, `collision_util.hpp` 140. -/
def tick (d : Dat T X) : Dat T X := { d with life := d.life + 1 }

/-- What `process_collision` knows of the bodies: the constants of `insertion_point_index`, the search
for a nearby point in the result (lines 142-153), and `should_remove_point` for the current positions of
the bodies. -/
structure Env (T X : Type) where
  c : Consts T
  near : Pt T X → List (Pt T X) → Nat
  breaks : Pt T X → Bool

/-- The registry, and the points to be created and destroyed that the parallel version collects for a
manifold (`m_cp_construction_infos`, `m_cp_destruction_infos`). -/
structure S (T X : Type) where
  r : Reg (Dat T X)
  made : List (Pt T X) := []
  gone : List Nat := []

/-- The two function arguments of `process_collision`. -/
structure Calls (T X : Type) where
  new : S T X → Pt T X → Option (S T X)
  del : S T X → Nat → Option (S T X)

/-- The calls made by `update_contact_manifolds`, `narrowphase.hpp` 74-80. -/
def seqCalls (m : Nat) : Calls T X where
  new s p := match create s.r m (fresh p) with
    | none => none
    | some r => some { s with r := r }
  del s id := match destroy s.r id with
    | none => none
    | some r => some { s with r := r }

/-- The calls made by `detect_collision_parallel_range`, `narrowphase.cpp` 57-62; the array of new
points has room for `max_contacts`. -/
def parCalls : Calls T X where
  new s p := if s.made.length < 4 then some { s with made := s.made ++ [p] } else none
  del s id := some { s with gone := s.gone ++ [id] }

/-- The variables of the first loop. -/
structure Loop1 (T X : Type) where
  s : S T X
  merged : List Nat
  removed : List Nat
  num : Nat

/-- The body of the first loop, `collision_util.hpp` 134-166. -/
def visit (cb : Calls T X) (e : Env T X) (res : List (Pt T X)) (id : Nat) (v : Loop1 T X) :
    Option (Loop1 T X) :=
  match modify v.s.r id tick with
  | none => none
  | some r =>
    match r.cp id with
    | none => none
    | some k =>
      if e.near k.data.pt res < res.length ∧ e.near k.data.pt res ∉ v.merged then
        match res[e.near k.data.pt res]? with
        | none => none
        | some p =>
          match modify r id (merge p) with
          | none => none
          | some r => some { v with s := { v.s with r := r }, merged := e.near k.data.pt res :: v.merged }
      else if e.breaks k.data.pt = true then
        if v.num = 0 then none
        else
          match cb.del { v.s with r := r } id with
          | none => none
          | some s => some { v with s := s, removed := id :: v.removed, num := v.num - 1 }
      else some { v with s := { v.s with r := r } }

/-- `contact_point_for_each`, `include/edyn/util/contact_manifold_util.hpp` 40-46, with the body of the
first loop: the next element is read before the body is executed. -/
def visitAll (cb : Calls T X) (e : Env T X) (res : List (Pt T X)) :
    Nat → Option Nat → Loop1 T X → Option (Loop1 T X)
  | _, none, v => some v
  | 0, some _, _ => none
  | fuel + 1, some id, v =>
    match v.s.r.cp id with
    | none => none
    | some k =>
      match visit cb e res id v with
      | none => none
      | some v => visitAll cb e res fuel k.next v

/-- `point_insertion_type`, `include/edyn/math/geom.hpp` 252-257. -/
inductive Kind where
  | none
  | append
  | similar
  | replace
deriving DecidableEq

/-- `local_contact_point`, `collision_util.hpp` 177-181. -/
structure Local (T X : Type) where
  pt : Pt T X
  id : Option Nat := .none
  kind : Kind := .none

/-- The second loop over the list, `collision_util.hpp` 186-194; the array has four places. -/
def readLocals (r : Reg (Dat T X)) (removed : List Nat) :
    Nat → Option Nat → List (Local T X) → Option (List (Local T X))
  | _, none, acc => some acc
  | 0, some _, _ => none
  | fuel + 1, some id, acc =>
    match r.cp id with
    | none => none
    | some k =>
      if id ∈ removed then readLocals r removed fuel k.next acc
      else if acc.length < 4 then
        readLocals r removed fuel k.next (acc ++ [{ pt := k.data.pt, id := some id }])
      else none

/-- The body of the insertion loop, `collision_util.hpp` 208-233; `none`: an index out of range. -/
def place (c : Consts T) (ls : List (Local T X)) (p : Pt T X) : Option (List (Local T X)) :=
  match insertionPoint c (ls.map fun l => l.pt.pA) p.pA with
  | .append => if ls.length < 4 then some (ls ++ [{ pt := p, kind := .append }]) else none
  | .similar i =>
    if i < ls.length then some (ls.modify i fun l => { l with pt := p, kind := .similar }) else none
  | .replace i =>
    if i < ls.length then some (ls.modify i fun l => { l with pt := p, kind := .replace }) else none
  | .none =>
    match insertionPoint c (ls.map fun l => l.pt.pB) p.pB with
    | .append => if ls.length < 4 then some (ls ++ [{ pt := p, kind := .append }]) else none
    | .similar i =>
      if i < ls.length then some (ls.modify i fun l => { l with pt := p, kind := .similar }) else none
    | .replace i =>
      if i < ls.length then some (ls.modify i fun l => { l with pt := p, kind := .replace }) else none
    | .none => some ls

/-- The insertion loop, `collision_util.hpp` 203-234, from index `i` on. -/
def placeAll (c : Consts T) (merged : List Nat) :
    List (Pt T X) → Nat → List (Local T X) → Option (List (Local T X))
  | [], _, ls => some ls
  | p :: ps, i, ls =>
    if i ∈ merged then placeAll c merged ps (i + 1) ls
    else
      match place c ls p with
      | none => none
      | some ls => placeAll c merged ps (i + 1) ls

/-- The body of the last loop, `collision_util.hpp` 238-261. -/
def settle (cb : Calls T X) (s : S T X) (l : Local T X) : Option (S T X) :=
  match l.kind, l.id with
  | .none, _ => some s
  | .append, _ => cb.new s l.pt
  | .similar, none => cb.new s l.pt
  | .similar, some id =>
    match modify s.r id (merge l.pt) with
    | none => none
    | some r => some { s with r := r }
  | .replace, none => cb.new s l.pt
  | .replace, some id =>
    match cb.del s id with
    | none => none
    | some s => cb.new s l.pt

/-- The last loop. -/
def settleAll (cb : Calls T X) : List (Local T X) → S T X → Option (S T X)
  | [], s => some s
  | l :: ls, s =>
    match settle cb s l with
    | none => none
    | some s => settleAll cb ls s

/-- `process_collision`, lines 173-264: what follows the first loop. -/
def insertRest (cb : Calls T X) (e : Env T X) (m : Nat) (res : List (Pt T X)) (v : Loop1 T X) :
    Option (S T X) :=
  if v.num > 0 then
    match v.s.r.man m with
    | none => none
    | some st =>
      match readLocals v.s.r v.removed v.s.r.nextId st.head [] with
      | none => none
      | some ls =>
        match placeAll e.c v.merged res 0 ls with
        | none => none
        | some ls => settleAll cb ls v.s
  else
    match res with
    | [] => none
    | p :: _ =>
      match placeAll e.c (0 :: v.merged) res 0 [{ pt := p, kind := .append }] with
      | none => none
      | some ls => settleAll cb ls v.s

/-- `process_collision`, `collision_util.hpp` 105-265. -/
def process (cb : Calls T X) (e : Env T X) (m : Nat) (res : List (Pt T X)) (s : S T X) : Option (S T X) :=
  match s.r.man m with
  | none => none
  | some st =>
    if st.num ≤ 4 then
      match visitAll cb e res s.r.nextId st.head ⟨s, [], [], st.num⟩ with
      | none => none
      | some v =>
        if (List.range res.length).all (fun i => decide (i ∈ v.merged)) = true then some v.s
        else insertRest cb e m res v
    else none

/-! ### The effect on one manifold, without the registry

`A` is what the parallel version leaves behind for a manifold: the list with the changed data, the
points to be created and those to be destroyed. -/

structure A (T X : Type) where
  l : List (Nat × Dat T X)
  made : List (Pt T X) := []
  gone : List Nat := []

/-- The points that are not to be destroyed. -/
def A.live (a : A T X) : List (Nat × Dat T X) := a.l.filter fun x => decide (x.1 ∉ a.gone)

/-- The first loop. -/
def plan1 (e : Env T X) (res : List (Pt T X)) :
    List (Nat × Dat T X) → List Nat → List (Nat × Dat T X) × List Nat × List Nat
  | [], mg => ([], mg, [])
  | (id, d) :: l, mg =>
    if e.near d.pt res < res.length ∧ e.near d.pt res ∉ mg then
      match res[e.near d.pt res]? with
      | none => ([], mg, [])
      | some p =>
        let q := plan1 e res l (e.near d.pt res :: mg)
        ((id, merge p (tick d)) :: q.1, q.2.1, q.2.2)
    else if e.breaks d.pt = true then
      let q := plan1 e res l mg
      ((id, tick d) :: q.1, q.2.1, id :: q.2.2)
    else
      let q := plan1 e res l mg
      ((id, tick d) :: q.1, q.2.1, q.2.2)

/-- The last loop. -/
def planLocal (a : A T X) (l : Local T X) : A T X :=
  match l.kind, l.id with
  | .none, _ => a
  | .append, _ => { a with made := a.made ++ [l.pt] }
  | .similar, none => { a with made := a.made ++ [l.pt] }
  | .similar, some id => { a with l := modList id (merge l.pt) a.l }
  | .replace, none => { a with made := a.made ++ [l.pt] }
  | .replace, some id => { a with gone := a.gone ++ [id], made := a.made ++ [l.pt] }

def planLocals : List (Local T X) → A T X → A T X
  | [], a => a
  | l :: ls, a => planLocals ls (planLocal a l)

/-! ### Simulation -/

/-- What the proofs need to know about the way the calls act on the state. -/
structure Sim (cb : Calls T X) (m : Nat) (R : S T X → A T X → Prop) : Prop where
  cp : ∀ s a x, R s a → x ∈ a.l → x.1 ∉ a.gone → ∃ nx, s.r.cp x.1 = some ⟨m, nx, x.2⟩
  nx : ∀ s a pre x post, R s a → a.made = [] → a.l = pre ++ x :: post → x.1 ∉ a.gone →
    (∀ y ∈ post, y.1 ∉ a.gone) → s.r.cp x.1 = some ⟨m, headOf post, x.2⟩
  modify : ∀ s a x g, R s a → x ∈ a.l → x.1 ∉ a.gone → ∃ r, modify s.r x.1 g = some r ∧
    R { s with r := r } { a with l := modList x.1 g a.l }
  del : ∀ s a x, R s a → x ∈ a.l → x.1 ∉ a.gone → ∃ s', cb.del s x.1 = some s' ∧
    R s' { a with gone := a.gone ++ [x.1] }
  new : ∀ s a p, R s a → a.live.length + a.made.length < 4 → ∃ s', cb.new s p = some s' ∧
    R s' { a with made := a.made ++ [p] }
  nodup : ∀ s a, R s a → (a.l.map Prod.fst).Nodup
  read : ∀ s a, R s a → a.made = [] → a.live.length ≤ 4 → ∃ st, s.r.man m = some st ∧
    ∀ rem : List Nat, (∀ i, i ∈ rem ↔ i ∈ a.gone) →
      readLocals s.r rem s.r.nextId st.head [] = some (a.live.map fun x => { pt := x.2.pt, id := some x.1 })

theorem A.mem_live {a : A T X} {x : Nat × Dat T X} : x ∈ a.live ↔ x ∈ a.l ∧ x.1 ∉ a.gone := by
  simp [A.live]

theorem modList_append {D : Type} (id : Nat) (g : D → D) (l₁ l₂ : List (Nat × D)) :
    modList id g (l₁ ++ l₂) = modList id g l₁ ++ modList id g l₂ := by
  simp [modList]

theorem modList_cons_self {D : Type} (id : Nat) (g : D → D) (d : D) (l : List (Nat × D)) :
    modList id g ((id, d) :: l) = (id, g d) :: modList id g l := by
  simp [modList]

/-- In a list without repetition an assignment changes one entry. -/
theorem modList_at {D : Type} {id : Nat} {g : D → D} {d : D} {pre post : List (Nat × D)}
    (h : ((pre ++ (id, d) :: post).map Prod.fst).Nodup) :
    modList id g (pre ++ (id, d) :: post) = pre ++ (id, g d) :: post := by
  rw [List.map_append, List.nodup_append] at h
  obtain ⟨-, h2, h3⟩ := h
  simp only [List.map_cons, List.nodup_cons] at h2
  rw [modList_append, modList_cons_self, modList_of_not_mem, modList_of_not_mem]
  · intro y hy e
    exact h2.1 (List.mem_map.2 ⟨y, hy, e⟩)
  · intro y hy e
    exact h3 y.1 (List.mem_map.2 ⟨y, hy, rfl⟩) id (by simp) e

theorem plan1_ids (e : Env T X) (res : List (Pt T X)) : ∀ (l : List (Nat × Dat T X)) (mg : List Nat),
    (plan1 e res l mg).1.map Prod.fst = l.map Prod.fst ∧ ∀ i ∈ (plan1 e res l mg).2.2, i ∈ l.map Prod.fst := by
  intro l
  induction l with
  | nil => intro mg; simp [plan1]
  | cons x l ih =>
    obtain ⟨id, d⟩ := x
    intro mg
    simp only [plan1]
    by_cases h : e.near d.pt res < res.length ∧ e.near d.pt res ∉ mg
    · rw [if_pos h, List.getElem?_eq_getElem h.1]
      simp only [List.map_cons, (ih _).1, true_and]
      intro i hi
      exact List.mem_cons_of_mem _ ((ih _).2 i hi)
    · rw [if_neg h]
      by_cases hb : e.breaks d.pt = true
      · rw [if_pos hb]
        simp only [List.map_cons, (ih _).1, true_and]
        intro i hi
        rcases List.mem_cons.1 hi with rfl | hi
        · simp
        · exact List.mem_cons_of_mem _ ((ih _).2 i hi)
      · rw [if_neg hb]
        simp only [List.map_cons, (ih _).1, true_and]
        intro i hi
        exact List.mem_cons_of_mem _ ((ih _).2 i hi)

/-- The first loop, from the middle of the list. -/
theorem visitAll_sim {cb : Calls T X} {m : Nat} {R : S T X → A T X → Prop} (H : Sim cb m R) (e : Env T X)
    (res : List (Pt T X)) : ∀ (l pre : List (Nat × Dat T X)) (fuel : Nat) (v : Loop1 T X) (gone : List Nat),
    R v.s ⟨pre ++ l, [], gone⟩ → (∀ i ∈ gone, i ∈ pre.map Prod.fst) → l.length ≤ fuel →
    (∀ i, i ∈ v.removed ↔ i ∈ gone) → l.length ≤ v.num → v.num + gone.length = (pre ++ l).length →
    ∃ v', visitAll cb e res fuel (headOf l) v = some v' ∧
      R v'.s ⟨pre ++ (plan1 e res l v.merged).1, [], gone ++ (plan1 e res l v.merged).2.2⟩ ∧
      v'.merged = (plan1 e res l v.merged).2.1 ∧
      (∀ i, i ∈ v'.removed ↔ i ∈ gone ++ (plan1 e res l v.merged).2.2) ∧
      v'.num + (gone ++ (plan1 e res l v.merged).2.2).length = (pre ++ l).length := by
  intro l
  induction l with
  | nil =>
    intro pre fuel v gone hR hg hf hr hn hc
    refine ⟨v, by cases fuel <;> rfl, by simpa [plan1] using hR, rfl, by simpa [plan1] using hr, ?_⟩
    simpa [plan1] using hc
  | cons x l ih =>
    obtain ⟨id, d⟩ := x
    intro pre fuel v gone hR hg hf hr hn hc
    cases fuel with
    | zero => simp at hf
    | succ fuel =>
      have hnd := H.nodup _ _ hR
      simp only at hnd
      have hnd' := hnd
      rw [List.map_append, List.nodup_append] at hnd'
      obtain ⟨-, hnd2, hnd3⟩ := hnd'
      simp only [List.map_cons, List.nodup_cons] at hnd2
      have hid : id ∉ gone := fun h => hnd3 id (hg id h) id (by simp) rfl
      have hpost : ∀ y ∈ l, y.1 ∉ gone := fun y hy h =>
        hnd3 y.1 (hg y.1 h) y.1 (by simp only [List.map_cons, List.mem_cons, List.mem_map]; right; exact ⟨y, hy, rfl⟩) rfl
      have hcp := H.nx _ _ pre (id, d) l hR rfl rfl hid hpost
      simp only at hcp
      obtain ⟨r1, m1, R1⟩ := H.modify _ _ (id, d) tick hR (by simp) hid
      simp only at m1 R1
      rw [modList_at hnd] at R1
      obtain ⟨nx1, c1⟩ := H.cp _ _ (id, tick d) R1 (by simp) hid
      simp only at c1
      have hnd1 := H.nodup _ _ R1
      simp only at hnd1
      have hpt : (tick d).pt = d.pt := rfl
      have hlen : l.length ≤ fuel := by simpa using hf
      simp only [headOf, List.head?_cons, Option.map_some, visitAll, hcp, visit, m1, c1, hpt, plan1]
      by_cases hm : e.near d.pt res < res.length ∧ e.near d.pt res ∉ v.merged
      · rw [if_pos hm, if_pos hm]
        rw [List.getElem?_eq_getElem hm.1]
        simp only
        obtain ⟨r2, m2, R2⟩ := H.modify _ _ (id, tick d) (merge res[e.near d.pt res]) R1 (by simp) hid
        simp only at m2 R2
        rw [modList_at hnd1] at R2
        simp only [m2]
        obtain ⟨v', h1, h2, h3, h4, h5⟩ := ih (pre ++ [(id, merge res[e.near d.pt res] (tick d))]) fuel
          { v with s := { v.s with r := r2 }, merged := e.near d.pt res :: v.merged } gone
          (by simpa using R2) (fun i hi => by simp only [List.map_append, List.mem_append]; exact Or.inl (hg i hi))
          hlen hr (by simp at hn ⊢; omega) (by simp at hc ⊢; omega)
        refine ⟨v', h1, by simpa using h2, h3, h4, ?_⟩
        simp at h5 ⊢; omega
      · rw [if_neg hm, if_neg hm]
        by_cases hb : e.breaks d.pt = true
        · rw [if_pos hb, if_pos hb]
          have hn0 : v.num ≠ 0 := by simp at hn; omega
          rw [if_neg hn0]
          obtain ⟨s2, m2, R2⟩ := H.del _ _ (id, tick d) R1 (by simp) hid
          simp only at m2 R2
          simp only [m2]
          obtain ⟨v', h1, h2, h3, h4, h5⟩ := ih (pre ++ [(id, tick d)]) fuel
            { v with s := s2, removed := id :: v.removed, num := v.num - 1 } (gone ++ [id])
            (by simpa using R2)
            (fun i hi => by
              simp only [List.map_append, List.mem_append] at hi ⊢
              rcases hi with hi | hi
              · exact Or.inl (hg i hi)
              · right; simpa using hi)
            hlen (by intro i; simp [hr]; tauto) (by simp at hn ⊢; omega) (by simp at hc ⊢; omega)
          refine ⟨v', h1, by simpa using h2, h3, by simpa using h4, ?_⟩
          simp at h5 ⊢; omega
        · rw [if_neg hb, if_neg hb]
          obtain ⟨v', h1, h2, h3, h4, h5⟩ := ih (pre ++ [(id, tick d)]) fuel
            { v with s := { v.s with r := r1 } } gone (by simpa using R1)
            (fun i hi => by simp only [List.map_append, List.mem_append]; exact Or.inl (hg i hi))
            hlen hr (by simp at hn ⊢; omega) (by simp at hc ⊢; omega)
          refine ⟨v', h1, by simpa using h2, h3, h4, ?_⟩
          simp at h5 ⊢; omega

/-! ### The local points -/

/-- What is known of the local points: four at most, those that are not contact points yet are to be
created, and the contact points among them are `ids`, in order. -/
structure Good (ids : List Nat) (ls : List (Local T X)) : Prop where
  le : ls.length ≤ 4
  ids : ls.filterMap Local.id = ids
  made : ∀ l ∈ ls, l.id = none → l.kind ≠ .none
  kept : ∀ l ∈ ls, l.kind = .append → l.id = none

theorem filterMap_modify {α β : Type} {f : α → Option β} {g : α → α} (hg : ∀ a, f (g a) = f a) :
    ∀ (l : List α) (i : Nat), (l.modify i g).filterMap f = l.filterMap f := by
  intro l
  induction l with
  | nil => intro i; cases i <;> rfl
  | cons a l ih =>
    intro i
    cases i with
    | zero => simp [List.filterMap_cons, hg]
    | succ i => simp [List.filterMap_cons, ih]

theorem mem_modify {α : Type} {g : α → α} : ∀ {l : List α} {i : Nat} {x : α}, x ∈ l.modify i g →
    x ∈ l ∨ ∃ y ∈ l, x = g y := by
  intro l
  induction l with
  | nil => intro i x h; cases i <;> cases h
  | cons a l ih =>
    intro i x h
    cases i with
    | zero =>
      simp at h
      rcases h with h | h
      · right; exact ⟨a, by simp, h⟩
      · left; simp [h]
    | succ i =>
      simp at h
      rcases h with h | h
      · left; simp [h]
      · rcases ih h with h | ⟨y, hy, h⟩
        · left; simp [h]
        · right; exact ⟨y, by simp [hy], h⟩

theorem Good.append {ids : List Nat} {ls : List (Local T X)} (h : Good ids ls) (hl : ls.length < 4)
    (p : Pt T X) : Good ids (ls ++ [{ pt := p, kind := .append }]) := by
  refine ⟨by simp; omega, by simp [h.ids], ?_, ?_⟩
  · intro l hl' hn
    rcases List.mem_append.1 hl' with hl' | hl'
    · exact h.made l hl' hn
    · simp at hl'; subst hl'; simp
  · intro l hl' hn
    rcases List.mem_append.1 hl' with hl' | hl'
    · exact h.kept l hl' hn
    · simp at hl'; subst hl'; rfl

theorem Good.modify {ids : List Nat} {ls : List (Local T X)} (h : Good ids ls) (i : Nat) (p : Pt T X)
    (k : Kind) (hk : k ≠ .none) (hk' : k ≠ .append) : Good ids (ls.modify i fun l => { l with pt := p, kind := k }) := by
  refine ⟨by simpa using h.le, ?_, ?_, ?_⟩
  · rw [← h.ids]
    exact filterMap_modify (f := Local.id) (g := fun l : Local T X => { l with pt := p, kind := k })
      (fun _ => rfl) ls i
  · intro l hl hn
    rcases mem_modify hl with hl | ⟨y, hy, rfl⟩
    · exact h.made l hl hn
    · exact hk
  · intro l hl hn
    rcases mem_modify hl with hl | ⟨y, hy, rfl⟩
    · exact h.kept l hl hn
    · exact absurd hn hk'

theorem good_place {c : Consts T} {ids : List Nat} {ls : List (Local T X)} (h : Good ids ls) (p : Pt T X) :
    ∃ ls', place c ls p = some ls' ∧ Good ids ls' ∧ ls.length ≤ ls'.length := by
  have ra := insertion_in_range c (ls.map fun l => l.pt.pA) p.pA
  have rb := insertion_in_range c (ls.map fun l => l.pt.pB) p.pB
  simp only [List.length_map] at ra rb
  unfold place
  cases ha : insertionPoint c (ls.map fun l => l.pt.pA) p.pA with
  | append =>
    have hl := ra.1 ha
    exact ⟨_, if_pos hl, h.append hl p, by simp⟩
  | similar i =>
    have hl := ra.2 i (Or.inl ha)
    exact ⟨_, if_pos hl, h.modify i p _ (by decide) (by decide), by simp⟩
  | replace i =>
    have hl := ra.2 i (Or.inr ha)
    exact ⟨_, if_pos hl, h.modify i p _ (by decide) (by decide), by simp⟩
  | none =>
    simp only
    cases hb : insertionPoint c (ls.map fun l => l.pt.pB) p.pB with
    | append =>
      have hl := rb.1 hb
      exact ⟨_, if_pos hl, h.append hl p, by simp⟩
    | similar i =>
      have hl := rb.2 i (Or.inl hb)
      exact ⟨_, if_pos hl, h.modify i p _ (by decide) (by decide), by simp⟩
    | replace i =>
      have hl := rb.2 i (Or.inr hb)
      exact ⟨_, if_pos hl, h.modify i p _ (by decide) (by decide), by simp⟩
    | none => exact ⟨ls, rfl, h, le_refl _⟩

theorem good_placeAll {c : Consts T} {ids : List Nat} {mg : List Nat} : ∀ (ps : List (Pt T X)) (i : Nat)
    (ls : List (Local T X)), Good ids ls →
    ∃ ls', placeAll c mg ps i ls = some ls' ∧ Good ids ls' ∧ ls.length ≤ ls'.length := by
  intro ps
  induction ps with
  | nil => intro i ls h; exact ⟨ls, rfl, h, le_refl _⟩
  | cons p ps ih =>
    intro i ls h
    simp only [placeAll]
    by_cases hm : i ∈ mg
    · rw [if_pos hm]; exact ih (i + 1) ls h
    · rw [if_neg hm]
      obtain ⟨l1, h1, h2, h3⟩ := good_place (c := c) h p
      simp only [h1]
      obtain ⟨l2, h4, h5, h6⟩ := ih (i + 1) l1 h2
      exact ⟨l2, h4, h5, le_trans h3 h6⟩

theorem live_modify (id : Nat) (g : Dat T X → Dat T X) (a : A T X) :
    ({ a with l := modList id g a.l } : A T X).live = modList id g a.live := by
  simp only [A.live, modList, List.filter_map]
  congr 1
  apply List.filter_congr
  intro x _
  simp only [Function.comp]
  split <;> rfl

theorem live_gone (id : Nat) (a : A T X) (md : List (Pt T X)) :
    ({ a with gone := a.gone ++ [id], made := md } : A T X).live = rmList id a.live := by
  simp only [A.live, rmList, List.filter_filter]
  apply List.filter_congr
  intro x _
  simp only [List.mem_append, List.mem_singleton, not_or, ← Bool.decide_and]
  apply decide_eq_decide.2
  tauto

theorem live_nodup {a : A T X} (h : (a.l.map Prod.fst).Nodup) : (a.live.map Prod.fst).Nodup :=
  h.sublist (List.filter_sublist.map _)

/-- The number of local points that are not contact points. -/
def news (ls : List (Local T X)) : Nat := ls.countP fun l => l.id.isNone

theorem news_add (ls : List (Local T X)) : news ls + (ls.filterMap Local.id).length = ls.length := by
  induction ls with
  | nil => rfl
  | cons l ls ih =>
    cases h : l.id with
    | none =>
      have h1 : news (l :: ls) = news ls + 1 := by simp [news, h]
      have h2 : (l :: ls).filterMap Local.id = ls.filterMap Local.id := by simp [h]
      rw [h1, h2, List.length_cons]; omega
    | some i =>
      have h1 : news (l :: ls) = news ls := by simp [news, h]
      have h2 : (l :: ls).filterMap Local.id = i :: ls.filterMap Local.id := by simp [h]
      rw [h1, h2, List.length_cons, List.length_cons]; omega

/-- The last loop. -/
theorem settleAll_sim {cb : Calls T X} {m : Nat} {R : S T X → A T X → Prop} (H : Sim cb m R) :
    ∀ (ls : List (Local T X)) (s : S T X) (a : A T X), R s a →
    (∀ i ∈ ls.filterMap Local.id, ∃ d, (i, d) ∈ a.l ∧ i ∉ a.gone) → (ls.filterMap Local.id).Nodup →
    (∀ l ∈ ls, l.id = none → l.kind ≠ .none) → (∀ l ∈ ls, l.kind = .append → l.id = none) →
    a.live.length + a.made.length + news ls ≤ 4 →
    ∃ s', settleAll cb ls s = some s' ∧ R s' (planLocals ls a) ∧
      (planLocals ls a).live.length + (planLocals ls a).made.length =
        a.live.length + a.made.length + news ls := by
  intro ls
  induction ls with
  | nil => intro s a hR _ _ _ _ _; exact ⟨s, rfl, hR, rfl⟩
  | cons l ls ih =>
    intro s a hR hids hnd hk hk' hc
    have hnodup := H.nodup _ _ hR
    cases hid : l.id with
    | none =>
      have e1 : (l :: ls).filterMap Local.id = ls.filterMap Local.id := by simp [hid]
      have e2 : news (l :: ls) = news ls + 1 := by simp [news, hid]
      rw [e1] at hids hnd
      have hkind := hk l (by simp) hid
      rw [e2] at hc
      obtain ⟨s1, h1, R1⟩ := H.new s a l.pt hR (by omega)
      have hs : settle cb s l = some s1 := by
        unfold settle
        cases hkk : l.kind with
        | none => exact absurd hkk hkind
        | append => simpa [hid] using h1
        | similar => simpa [hid] using h1
        | replace => simpa [hid] using h1
      have hp : planLocal a l = { a with made := a.made ++ [l.pt] } := by
        unfold planLocal
        cases hkk : l.kind with
        | none => exact absurd hkk hkind
        | append => simp [hid]
        | similar => simp [hid]
        | replace => simp [hid]
      obtain ⟨s', h2, h3, h4⟩ := ih s1 _ R1 hids hnd (fun x hx => hk x (by simp [hx])) (fun x hx => hk' x (by simp [hx])) (by
        simp only [List.length_append, List.length_singleton]
        show a.live.length + _ + _ ≤ 4
        omega)
      refine ⟨s', by simp only [settleAll, hs]; exact h2, by simp only [planLocals, hp]; exact h3, ?_⟩
      simp only [planLocals, hp, h4, e2, List.length_append, List.length_singleton]
      show a.live.length + _ + _ = _
      omega
    | some i =>
      have e1 : (l :: ls).filterMap Local.id = i :: ls.filterMap Local.id := by simp [hid]
      have e2 : news (l :: ls) = news ls := by simp [news, hid]
      rw [e1] at hids hnd
      rw [List.nodup_cons] at hnd
      rw [e2] at hc
      obtain ⟨d, hd, hg⟩ := hids i (by simp)
      have htail : ∀ j ∈ ls.filterMap Local.id, ∃ d, (j, d) ∈ a.l ∧ j ∉ a.gone := fun j hj =>
        hids j (List.mem_cons_of_mem _ hj)
      cases hkk : l.kind with
      | none =>
        have hs : settle cb s l = some s := by simp [settle, hkk]
        have hp : planLocal a l = a := by simp [planLocal, hkk]
        obtain ⟨s', h2, h3, h4⟩ := ih s a hR htail hnd.2 (fun x hx => hk x (by simp [hx])) (fun x hx => hk' x (by simp [hx])) hc
        exact ⟨s', by simp only [settleAll, hs]; exact h2, by simp only [planLocals, hp]; exact h3,
          by simp only [planLocals, hp, h4, e2]⟩
      | append =>
        exact absurd (hk' l (by simp) hkk) (by simp [hid])
      | similar =>
        obtain ⟨r1, h1, R1⟩ := H.modify s a (i, d) (merge l.pt) hR hd hg
        simp only at h1 R1
        have hs : settle cb s l = some { s with r := r1 } := by simp [settle, hkk, hid, h1]
        have hp : planLocal a l = { a with l := modList i (merge l.pt) a.l } := by
          simp [planLocal, hkk, hid]
        obtain ⟨s', h2, h3, h4⟩ := ih _ _ R1 (by
            intro j hj
            obtain ⟨d', hd', hg'⟩ := htail j hj
            by_cases e : j = i
            · exact ⟨merge l.pt d', List.mem_map.2 ⟨_, hd', by simp [e]⟩, hg'⟩
            · exact ⟨d', List.mem_map.2 ⟨_, hd', by simp [e]⟩, hg'⟩) hnd.2
          (fun x hx => hk x (by simp [hx])) (fun x hx => hk' x (by simp [hx])) (by
            rw [live_modify]; simp only [modList, List.length_map]; exact hc)
        refine ⟨s', by simp only [settleAll, hs]; exact h2, by simp only [planLocals, hp]; exact h3, ?_⟩
        simp only [planLocals, hp, h4, e2]
        rw [live_modify]; simp only [modList, List.length_map]
      | replace =>
        obtain ⟨s1, h1, R1⟩ := H.del s a (i, d) hR hd hg
        simp only at h1 R1
        have hll : (rmList i a.live).length + 1 = a.live.length :=
          rmList_length (live_nodup hnodup) (A.mem_live.2 ⟨hd, hg⟩)
        obtain ⟨s2, h2, R2⟩ := H.new s1 _ l.pt R1 (by
          rw [live_gone i a a.made]; show (rmList i a.live).length + a.made.length < 4; omega)
        have hs : settle cb s l = some s2 := by simp [settle, hkk, hid, h1, h2]
        have hp : planLocal a l = { a with gone := a.gone ++ [i], made := a.made ++ [l.pt] } := by
          simp [planLocal, hkk, hid]
        obtain ⟨s', h3, h4, h5⟩ := ih _ _ R2 (by
            intro j hj
            obtain ⟨d', hd', hg'⟩ := htail j hj
            refine ⟨d', hd', ?_⟩
            simp only [List.mem_append, List.mem_singleton, not_or]
            refine ⟨hg', ?_⟩
            rintro rfl
            exact hnd.1 hj) hnd.2 (fun x hx => hk x (by simp [hx])) (fun x hx => hk' x (by simp [hx])) (by
            rw [live_gone i a (a.made ++ [l.pt])]
            simp only [List.length_append, List.length_singleton]; omega)
        refine ⟨s', by simp only [settleAll, hs]; exact h3, by simp only [planLocals, hp]; exact h4, ?_⟩
        simp only [planLocals, hp, h5, e2]
        rw [live_gone i a (a.made ++ [l.pt])]
        simp only [List.length_append, List.length_singleton]; omega

theorem readLocals_walk {r : Reg (Dat T X)} {m : Nat} {rem : List Nat} : ∀ (l : List (Nat × Dat T X))
    (h : Option Nat) (fuel : Nat) (acc : List (Local T X)), Walk r m h l → l.length ≤ fuel →
    acc.length + (l.filter fun x => decide (x.1 ∉ rem)).length ≤ 4 →
    readLocals r rem fuel h acc =
      some (acc ++ (l.filter fun x => decide (x.1 ∉ rem)).map fun x => { pt := x.2.pt, id := some x.1 }) := by
  intro l
  induction l with
  | nil =>
    intro h fuel acc w hf hc
    cases w
    cases fuel <;> simp [readLocals]
  | cons x l ih =>
    intro h fuel acc w hf hc
    cases w with
    | @cons id d nx _ hk w =>
      cases fuel with
      | zero => simp at hf
      | succ fuel =>
        simp only [List.length_cons, Nat.add_le_add_iff_right] at hf
        simp only [readLocals, hk]
        by_cases hm : id ∈ rem
        · rw [if_pos hm]
          have e : ((id, d) :: l).filter (fun x => decide (x.1 ∉ rem)) = l.filter fun x => decide (x.1 ∉ rem) := by
            simp [hm]
          rw [e] at hc ⊢
          exact ih nx fuel acc w hf hc
        · rw [if_neg hm]
          have e : ((id, d) :: l).filter (fun x => decide (x.1 ∉ rem)) =
              (id, d) :: l.filter fun x => decide (x.1 ∉ rem) := by
            simp [hm]
          rw [e] at hc ⊢
          simp only [List.length_cons] at hc
          rw [if_pos (by omega), ih nx fuel _ w hf
            (by simp only [List.length_append, List.length_singleton]; omega)]
          simp

/-- The sequential version: new points in front, destroyed points gone. -/
structure SeqR (m : Nat) (f₀ : Nat → List (Nat × Dat T X)) (n₀ : Nat) (ex : Nat → Prop)
    (s : S T X) (a : A T X) : Prop where
  lists : ∃ new : List (Nat × Dat T X), Lists s.r (Function.update f₀ m (new ++ a.live)) ∧
    new.map Prod.snd = a.made.reverse.map fresh ∧ ∀ x ∈ new, n₀ ≤ x.1
  old : ∀ x ∈ a.l, x.1 < n₀
  next : n₀ ≤ s.r.nextId
  man : ∀ q, s.r.man q ≠ none ↔ ex q
  ex : ex m
  nodup : (a.l.map Prod.fst).Nodup

theorem update_twice {α : Type} (f : Nat → α) (m : Nat) (x y : α) :
    Function.update (Function.update f m x) m y = Function.update f m y := by
  simp

theorem modList_front {new : List (Nat × Dat T X)} {n₀ id : Nat} (h : ∀ x ∈ new, n₀ ≤ x.1) (hi : id < n₀)
    (g : Dat T X → Dat T X) (l : List (Nat × Dat T X)) : modList id g (new ++ l) = new ++ modList id g l := by
  rw [modList_append, modList_of_not_mem]
  intro x hx e
  have := h x hx
  omega

theorem rmList_front {new : List (Nat × Dat T X)} {n₀ id : Nat} (h : ∀ x ∈ new, n₀ ≤ x.1) (hi : id < n₀)
    (l : List (Nat × Dat T X)) : rmList id (new ++ l) = new ++ rmList id l := by
  have : rmList id new = new := rmList_of_not_mem fun x hx e => by have := h x hx; omega
  rw [rmList, List.filter_append]
  exact congrArg (· ++ _) this

theorem seq_sim (m : Nat) (f₀ : Nat → List (Nat × Dat T X)) (n₀ : Nat) (ex : Nat → Prop) :
    Sim (seqCalls m) m (SeqR m f₀ n₀ ex) where
  cp s a x hR hx hg := by
    obtain ⟨new, hL, -, -⟩ := hR.lists
    exact hL.cp (by rw [Function.update_self]; exact List.mem_append_right _ (A.mem_live.2 ⟨hx, hg⟩))
  nx s a pre x post hR hm hl hx hp := by
    obtain ⟨i, d⟩ := x
    obtain ⟨new, hL, hn, -⟩ := hR.lists
    rw [hm] at hn
    have hn' : new = [] := by simpa using hn
    subst hn'
    have hlive : a.live = pre.filter (fun x => decide (x.1 ∉ a.gone)) ++ (i, d) :: post := by
      rw [A.live, hl, List.filter_append, List.filter_cons_of_pos (by simpa using hx)]
      congr 2
      apply List.filter_eq_self.2
      intro y hy
      simpa using hp y hy
    obtain ⟨st, hst⟩ := Option.ne_none_iff_exists'.1 ((hR.man m).2 hR.ex)
    have w := hL.walk m st hst
    rw [Function.update_self, List.nil_append, hlive] at w
    have w' := w.suffix
    cases w' with
    | @cons _ _ nx _ hk w => rw [hk, w.head]
  modify s a x g hR hx hg := by
    obtain ⟨new, hL, hn, hid⟩ := hR.lists
    obtain ⟨r', h1, h2, h3, h4⟩ := modify_lists (m := m) (x := x) (g := g) hL
      (by rw [Function.update_self]; exact List.mem_append_right _ (A.mem_live.2 ⟨hx, hg⟩))
    rw [Function.update_self, update_twice, modList_front hid (hR.old x hx), ← live_modify] at h2
    refine ⟨r', h1, ⟨new, h2, hn, hid⟩, ?_, ?_, ?_, hR.ex, ?_⟩
    · intro y hy
      have : y.1 ∈ (modList x.1 g a.l).map Prod.fst := List.mem_map.2 ⟨y, hy, rfl⟩
      rw [modList_ids] at this
      obtain ⟨z, hz, e⟩ := List.mem_map.1 this
      rw [← e]; exact hR.old z hz
    · rw [h3]; exact hR.next
    · intro q; rw [h4]; exact hR.man q
    · rw [modList_ids]; exact hR.nodup
  del s a x hR hx hg := by
    obtain ⟨new, hL, hn, hid⟩ := hR.lists
    obtain ⟨r', h1, h2, h3, h4⟩ := destroy_lists (m := m) (x := x) hL
      (by rw [Function.update_self]; exact List.mem_append_right _ (A.mem_live.2 ⟨hx, hg⟩))
    rw [Function.update_self, update_twice, rmList_front hid (hR.old x hx), ← live_gone x.1 a a.made] at h2
    refine ⟨{ s with r := r' }, by simp only [seqCalls, h1], ⟨new, h2, hn, hid⟩, hR.old, ?_, ?_, hR.ex, hR.nodup⟩
    · show n₀ ≤ r'.nextId
      rw [h3]; exact hR.next
    · intro q
      show r'.man q ≠ none ↔ _
      rw [← hR.man q]; exact not_congr (h4 q)
  new s a p hR hc := by
    obtain ⟨new, hL, hn, hid⟩ := hR.lists
    have hlen : new.length = a.made.length := by
      have := congrArg List.length hn
      simpa using this
    obtain ⟨r', h1⟩ := create_some (m := m) (d := fresh p) hL ((hR.man m).2 hR.ex)
      (by rw [Function.update_self, List.length_append]; omega)
    obtain ⟨h2, h3⟩ := create_lists hL h1
    rw [Function.update_self, update_twice] at h2
    refine ⟨{ s with r := r' }, by simp only [seqCalls, h1],
      ⟨(s.r.nextId, fresh p) :: new, h2, by simp [hn], ?_⟩, hR.old, ?_, ?_, hR.ex, hR.nodup⟩
    · intro x hx
      rcases List.mem_cons.1 hx with rfl | hx
      · exact hR.next
      · exact hid x hx
    · show n₀ ≤ r'.nextId
      have := hR.next
      omega
    · intro q
      show r'.man q ≠ none ↔ _
      rw [← hR.man q]; exact not_congr (create_man h1 q)
  nodup s a hR := hR.nodup
  read s a hR hm hc := by
    obtain ⟨new, hL, hn, -⟩ := hR.lists
    rw [hm] at hn
    have hn' : new = [] := by simpa using hn
    subst hn'
    obtain ⟨st, hst⟩ := Option.ne_none_iff_exists'.1 ((hR.man m).2 hR.ex)
    refine ⟨st, hst, fun rem hrem => ?_⟩
    have w := hL.walk m st hst
    have hl := hL.length_le m
    rw [Function.update_self, List.nil_append] at w hl
    have e : (a.live.filter fun x => decide (x.1 ∉ rem)) = a.live := by
      apply List.filter_eq_self.2
      intro x hx
      simp only [hrem]
      simpa using (A.mem_live.1 hx).2
    rw [readLocals_walk a.live st.head _ [] w hl (by rw [e]; simpa using hc), e]
    simp

/-- The parallel version: the list with the changed data; the points to be created and destroyed are
recorded. -/
structure ParR (m : Nat) (f₀ : Nat → List (Nat × Dat T X)) (n₀ : Nat) (ex : Nat → Prop)
    (s : S T X) (a : A T X) : Prop where
  lists : Lists s.r (Function.update f₀ m a.l)
  made : s.made = a.made
  gone : s.gone = a.gone
  next : s.r.nextId = n₀
  man : ∀ q, s.r.man q ≠ none ↔ ex q
  ex : ex m

theorem par_sim (m : Nat) (f₀ : Nat → List (Nat × Dat T X)) (n₀ : Nat) (ex : Nat → Prop) :
    Sim parCalls m (ParR m f₀ n₀ ex) where
  cp s a x hR hx hg := hR.lists.cp (by rw [Function.update_self]; exact hx)
  nx s a pre x post hR hm hl hx hp := by
    obtain ⟨i, d⟩ := x
    obtain ⟨st, hst⟩ := Option.ne_none_iff_exists'.1 ((hR.man m).2 hR.ex)
    have w := hR.lists.walk m st hst
    rw [Function.update_self, hl] at w
    have w' := w.suffix
    cases w' with
    | @cons _ _ nx _ hk w => rw [hk, w.head]
  modify s a x g hR hx hg := by
    obtain ⟨r', h1, h2, h3, h4⟩ := modify_lists (m := m) (x := x) (g := g) hR.lists
      (by rw [Function.update_self]; exact hx)
    rw [Function.update_self, update_twice] at h2
    exact ⟨r', h1, h2, hR.made, hR.gone, h3.trans hR.next, fun q => by rw [h4]; exact hR.man q, hR.ex⟩
  del s a x hR hx hg := by
    exact ⟨_, rfl, hR.lists, hR.made, by simp only [hR.gone], hR.next, hR.man, hR.ex⟩
  new s a p hR hc := by
    refine ⟨{ s with made := s.made ++ [p] }, ?_, hR.lists, by simp only [hR.made], hR.gone, hR.next, hR.man, hR.ex⟩
    simp only [parCalls]
    rw [if_pos (by rw [hR.made]; omega)]
  nodup s a hR := by have := hR.lists.nodup m; rwa [Function.update_self] at this
  read s a hR hm hc := by
    obtain ⟨st, hst⟩ := Option.ne_none_iff_exists'.1 ((hR.man m).2 hR.ex)
    refine ⟨st, hst, fun rem hrem => ?_⟩
    have w := hR.lists.walk m st hst
    have hl := hR.lists.length_le m
    rw [Function.update_self] at w hl
    have e : (a.l.filter fun x => decide (x.1 ∉ rem)) = a.live := by
      apply List.filter_congr
      intro x hx
      simp only [hrem]
    rw [readLocals_walk a.l st.head _ [] w hl (by rw [e]; simpa using hc), e]
    simp

/-! ### The whole function -/

/-- The effect of `process_collision` on the list of a manifold. -/
inductive Planned (e : Env T X) (res : List (Pt T X)) (l : List (Nat × Dat T X)) : A T X → Prop
  | early : (∀ i < res.length, i ∈ (plan1 e res l []).2.1) →
      Planned e res l ⟨(plan1 e res l []).1, [], (plan1 e res l []).2.2⟩
  | some (ls : List (Local T X)) : ¬ (∀ i < res.length, i ∈ (plan1 e res l []).2.1) →
      (⟨(plan1 e res l []).1, [], (plan1 e res l []).2.2⟩ : A T X).live ≠ [] →
      placeAll e.c (plan1 e res l []).2.1 res 0
        ((⟨(plan1 e res l []).1, [], (plan1 e res l []).2.2⟩ : A T X).live.map
          fun x => { pt := x.2.pt, id := some x.1 }) = some ls →
      Planned e res l (planLocals ls ⟨(plan1 e res l []).1, [], (plan1 e res l []).2.2⟩)
  | none (p : Pt T X) (ps : List (Pt T X)) (ls : List (Local T X)) :
      ¬ (∀ i < res.length, i ∈ (plan1 e res l []).2.1) →
      (⟨(plan1 e res l []).1, [], (plan1 e res l []).2.2⟩ : A T X).live = [] → res = p :: ps →
      placeAll e.c (0 :: (plan1 e res l []).2.1) res 0 [{ pt := p, kind := .append }] = some ls →
      Planned e res l (planLocals ls ⟨(plan1 e res l []).1, [], (plan1 e res l []).2.2⟩)

theorem Planned.unique {e : Env T X} {res : List (Pt T X)} {l : List (Nat × Dat T X)} {a b : A T X}
    (ha : Planned e res l a) (hb : Planned e res l b) : a = b := by
  cases ha with
  | early h => cases hb with
    | early => rfl
    | some ls h' => exact absurd h h'
    | none p ps ls h' => exact absurd h h'
  | some ls h h1 h2 => cases hb with
    | early h' => exact absurd h' h
    | some ls' h' h1' h2' => rw [h2] at h2'; cases h2'; rfl
    | none p ps ls' h' h1' => exact absurd h1' h1
  | none p ps ls h h1 h3 h2 => cases hb with
    | early h' => exact absurd h' h
    | some ls' h' h1' => exact absurd h1 h1'
    | none p' ps' ls' h' h1' h3' h2' =>
      rw [h3] at h3'; cases h3'; rw [h2] at h2'; cases h2'; rfl

theorem live_count {l : List (Nat × Dat T X)} {gone : List Nat} (hn : (l.map Prod.fst).Nodup)
    (hg : gone.Nodup) (hs : ∀ i ∈ gone, i ∈ l.map Prod.fst) :
    (l.filter fun x => decide (x.1 ∉ gone)).length + gone.length = l.length := by
  have h1 : ((l.map Prod.fst).filter fun i => decide (i ∈ gone)).Perm gone := by
    rw [List.perm_ext_iff_of_nodup (hn.filter _) hg]
    intro i
    simp only [List.mem_filter, decide_eq_true_eq]
    exact ⟨fun h => h.2, fun h => ⟨hs i h, h⟩⟩
  have h2 := h1.length_eq
  have h3 := List.length_eq_length_filter_add (l := l) (fun x => decide (x.1 ∉ gone))
  rw [List.filter_map, List.length_map] at h2
  rw [h3, ← h2]
  congr 2
  apply List.filter_congr
  intro x _
  simp

theorem plan1_gone_nodup (e : Env T X) (res : List (Pt T X)) : ∀ (l : List (Nat × Dat T X)) (mg : List Nat),
    (l.map Prod.fst).Nodup → (plan1 e res l mg).2.2.Nodup := by
  intro l
  induction l with
  | nil => intro mg _; exact List.nodup_nil
  | cons x l ih =>
    obtain ⟨id, d⟩ := x
    intro mg hn
    simp only [List.map_cons, List.nodup_cons] at hn
    simp only [plan1]
    by_cases h : e.near d.pt res < res.length ∧ e.near d.pt res ∉ mg
    · rw [if_pos h, List.getElem?_eq_getElem h.1]
      exact ih _ hn.2
    · rw [if_neg h]
      by_cases hb : e.breaks d.pt = true
      · rw [if_pos hb]
        exact List.nodup_cons.2 ⟨fun hi => hn.1 ((plan1_ids e res l mg).2 id hi), ih _ hn.2⟩
      · rw [if_neg hb]
        exact ih _ hn.2

theorem plan1_count (e : Env T X) (res : List (Pt T X)) : ∀ (l : List (Nat × Dat T X)) (mg : List Nat),
    (plan1 e res l mg).2.1.length + (plan1 e res l mg).2.2.length ≤ mg.length + l.length := by
  intro l
  induction l with
  | nil => intro mg; simp [plan1]
  | cons x l ih =>
    obtain ⟨id, d⟩ := x
    intro mg
    simp only [plan1]
    by_cases h : e.near d.pt res < res.length ∧ e.near d.pt res ∉ mg
    · rw [if_pos h, List.getElem?_eq_getElem h.1]
      have := ih (e.near d.pt res :: mg)
      simp only [List.length_cons] at this ⊢
      omega
    · rw [if_neg h]
      have := ih mg
      by_cases hb : e.breaks d.pt = true
      · rw [if_pos hb]
        simp only [List.length_cons]
        omega
      · rw [if_neg hb]
        simp only [List.length_cons]
        omega

/-- `process_collision` succeeds, has the same effect however the calls are made, and leaves no more than
four points. -/
theorem process_sim {cb : Calls T X} {m : Nat} {R : S T X → A T X → Prop} (H : Sim cb m R) (e : Env T X)
    (res : List (Pt T X)) {s : S T X} {l : List (Nat × Dat T X)} {st : Man} (hR : R s ⟨l, [], []⟩)
    (hst : s.r.man m = some st) (hh : st.head = headOf l) (hnum : st.num = l.length) (h4 : l.length ≤ 4)
    (hf : l.length ≤ s.r.nextId) :
    ∃ s' a, process cb e m res s = some s' ∧ Planned e res l a ∧ R s' a ∧ a.live.length + a.made.length ≤ 4 ∧
      (res ≠ [] → a.live.length + a.made.length ≠ 0) := by
  have hn := H.nodup _ _ hR
  simp only at hn
  obtain ⟨v, h1, h2, h3, h5, h6⟩ := visitAll_sim H e res l [] s.r.nextId ⟨s, [], [], st.num⟩ []
    hR (by simp) hf (by simp) (by simp [hnum]) (by simp [hnum])
  simp only [List.nil_append] at h2 h5 h6 h3
  have hids := plan1_ids e res l []
  have hlive := live_count (gone := (plan1 e res l []).2.2) (l := (plan1 e res l []).1)
    (by rw [hids.1]; exact hn) (plan1_gone_nodup e res l [] hn) (by rw [hids.1]; exact hids.2)
  have hlen : (plan1 e res l []).1.length = l.length := by
    have := congrArg List.length hids.1
    simpa using this
  have hlv : (⟨(plan1 e res l []).1, [], (plan1 e res l []).2.2⟩ : A T X).live.length = v.num := by
    simp only [A.live]; omega
  unfold process
  rw [hst]
  simp only
  rw [if_pos (by omega), hh, h1]
  simp only
  have hall : (List.range res.length).all (fun i => decide (i ∈ v.merged)) = true ↔
      ∀ i < res.length, i ∈ (plan1 e res l []).2.1 := by
    simp [h3]
  by_cases he : ∀ i < res.length, i ∈ (plan1 e res l []).2.1
  · rw [if_pos (hall.2 he)]
    refine ⟨v.s, _, rfl, .early he, h2, by rw [hlv]; simp; omega, ?_⟩
    intro hne
    have h0 : (0 : Nat) ∈ (plan1 e res l []).2.1 := he 0 (List.length_pos_iff.2 hne)
    have h7 := plan1_count e res l []
    have h8 := List.length_pos_of_mem h0
    simp only [List.length_nil] at h7
    rw [hlv]
    simp only [List.length_nil]
    omega
  · rw [if_neg (fun h => he (hall.1 h))]
    unfold insertRest
    by_cases hv : v.num > 0
    · rw [if_pos hv]
      obtain ⟨st', hst', hrd⟩ := H.read _ _ h2 rfl (by rw [hlv]; omega)
      rw [hst']
      simp only
      rw [hrd v.removed h5]
      simp only
      set a0 : A T X := ⟨(plan1 e res l []).1, [], (plan1 e res l []).2.2⟩ with ha0
      have hgood : Good (a0.live.map Prod.fst)
          (a0.live.map fun x => ({ pt := x.2.pt, id := some x.1 } : Local T X)) := by
        refine ⟨by rw [List.length_map, hlv]; omega, ?_, ?_, ?_⟩
        · rw [List.filterMap_map]
          exact List.filterMap_eq_map' (f := Prod.fst) ▸ rfl
        · intro x hx hxn
          obtain ⟨y, -, rfl⟩ := List.mem_map.1 hx
          cases hxn
        · intro x hx hxn
          obtain ⟨y, -, rfl⟩ := List.mem_map.1 hx
          cases hxn
      obtain ⟨ls, g1, g2, g3⟩ := good_placeAll (c := e.c) (mg := v.merged) res 0 _ hgood
      rw [g1]
      simp only
      have hna := news_add ls
      rw [g2.ids] at hna
      simp only [List.length_map] at hna g3
      have hle := g2.le
      obtain ⟨s', k1, k2, k3⟩ := settleAll_sim H ls v.s a0 h2
        (by
          rw [g2.ids]
          intro i hi
          obtain ⟨x, hx, rfl⟩ := List.mem_map.1 hi
          obtain ⟨hx1, hx2⟩ := A.mem_live.1 hx
          exact ⟨x.2, hx1, hx2⟩)
        (by rw [g2.ids]; exact live_nodup (by rw [ha0]; simp only; rw [hids.1]; exact hn))
        g2.made g2.kept (by show _ + 0 + _ ≤ 4; omega)
      have k3' : (planLocals ls a0).live.length + (planLocals ls a0).made.length = a0.live.length + 0 + news ls := k3
      refine ⟨s', _, k1, .some ls he ?_ (by rw [← h3]; exact g1), k2, by rw [k3']; omega, fun _ => by rw [k3']; omega⟩
      intro h0
      rw [← ha0] at h0
      rw [h0] at hlv
      simp at hlv
      omega
    · rw [if_neg hv]
      cases hres : res with
      | nil => exact absurd (by simp [hres]) he
      | cons p ps =>
        simp only
        set a0 : A T X := ⟨(plan1 e res l []).1, [], (plan1 e res l []).2.2⟩ with ha0
        have hz : a0.live = [] := List.length_eq_zero_iff.1 (by omega)
        have hgood : Good [] [({ pt := p, kind := .append } : Local T X)] :=
          ⟨by simp, by simp, by simp, by simp⟩
        obtain ⟨ls, g1, g2, g3⟩ := good_placeAll (c := e.c) (mg := 0 :: v.merged) res 0 _ hgood
        rw [hres] at g1
        rw [g1]
        simp only
        have hna := news_add ls
        rw [g2.ids] at hna
        simp only [List.length_nil, List.length_singleton] at hna g3
        have hle := g2.le
        obtain ⟨s', k1, k2, k3⟩ := settleAll_sim H ls v.s a0 h2
          (by rw [g2.ids]; simp) (by rw [g2.ids]; exact List.nodup_nil)
          g2.made g2.kept (by rw [hz]; show 0 + 0 + _ ≤ 4; omega)
        have k3' : (planLocals ls a0).live.length + (planLocals ls a0).made.length =
            a0.live.length + 0 + news ls := k3
        rw [hz] at k3'
        simp only [List.length_nil] at k3'
        refine ⟨s', _, k1, ?_, k2, by rw [k3']; omega, fun _ => by rw [k3']; omega⟩
        have := Planned.none (e := e) (l := l) p ps ls he hz hres (by rw [← h3, hres]; exact g1)
        rw [← ha0] at this
        simpa [hres] using this

end Edyn.Contact
