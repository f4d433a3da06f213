import Verif.StaticTree.Model
import Verif.Common.Chain
import Mathlib.Data.List.Perm.Basic
import Mathlib.Data.List.Nodup
import Mathlib.Data.List.Pairwise
import Mathlib.Data.List.Sort

/-! # Property C04: the static tree -/

namespace Edyn.StaticTree

variable {S : Type} [LinearOrder S]

/-! ### Specification -/

/-- The assumptions on the environment: monotone centres and a correct sort. -/
structure Env.Ok (env : Env S) : Prop where
  mid_mono : ∀ a b c d, a ≤ c → b ≤ d → env.mid a b ≤ env.mid c d
  sort_perm : ∀ f l, (env.sort f l).Perm l
  sort_sorted : ∀ f l, (env.sort f l).Pairwise fun i j => f i ≤ f j

/-- A test which holds for every box enclosing a box for which it holds. -/
def Monotone (test : Box S → Bool) : Prop :=
  ∀ a b : Box S, a.Encloses b → test b = true → test a = true

/-- `b` is the smallest box enclosing the boxes with the given indices. -/
structure Hull (boxes : List (Box S)) (b : Box S) (items : List Nat) : Prop where
  upper : ∀ i ∈ items, ∃ c, boxes[i]? = some c ∧ b.Encloses c
  least : ∀ b' : Box S, (∀ i ∈ items, ∀ c, boxes[i]? = some c → b'.Encloses c) → b'.Encloses b

/-! ### The enclosing box -/

theorem encloseAll_spec (boxes : List (Box S)) (b : Box S) (is : List Nat)
    (h : ∀ i ∈ is, i < boxes.length) :
    ∃ r, encloseAll boxes b is = some r ∧ r.Encloses b ∧
      (∀ i ∈ is, ∃ c, boxes[i]? = some c ∧ r.Encloses c) ∧
      (∀ b' : Box S, b'.Encloses b → (∀ i ∈ is, ∀ c, boxes[i]? = some c → b'.Encloses c) →
        b'.Encloses r) ∧
      (∀ a, at' a r.min = at' a b.min ∨ ∃ i ∈ is, ∃ c, boxes[i]? = some c ∧ at' a r.min = at' a c.min) := by
  induction is generalizing b with
  | nil =>
    exact ⟨b, rfl, Box.Encloses.refl b, by simp, fun _ hb _ => hb, fun a => Or.inl rfl⟩
  | cons i is ih =>
    have hi := h i (by simp)
    obtain ⟨c, hc⟩ : ∃ c, boxes[i]? = some c := ⟨_, List.getElem?_eq_getElem hi⟩
    obtain ⟨r, h1, h2, h3, h4, h5⟩ := ih (Box.enclosing b c) (fun j hj => h j (by simp [hj]))
    refine ⟨r, by simp [encloseAll, hc, h1], h2.trans (Box.enclosing_left b c), ?_, ?_, ?_⟩
    · intro j hj
      rcases List.mem_cons.1 hj with rfl | hj
      · exact ⟨c, hc, h2.trans (Box.enclosing_right b c)⟩
      · exact h3 j hj
    · intro b' hb' hall
      refine h4 b' ?_ (fun j hj => hall j (by simp [hj]))
      have hc' := hall i (by simp) c hc
      simp only [Box.Encloses, Box.enclosing, le_min_iff, max_le_iff] at *
      grind
    · intro a
      have hmin : at' a (Box.enclosing b c).min = at' a b.min ∨
          at' a (Box.enclosing b c).min = at' a c.min := by
        cases a <;> simp only [at', Box.enclosing]
        · exact min_choice _ _
        · exact min_choice _ _
        · exact min_choice _ _
      rcases h5 a with hh | ⟨j, hj, c', hc', hh⟩
      · rcases hmin with h6 | h6
        · exact Or.inl (hh.trans h6)
        · exact Or.inr ⟨i, by simp, c, hc, hh.trans h6⟩
      · exact Or.inr ⟨j, by simp [hj], c', hc', hh⟩

theorem encloses_at {b c : Box S} (h : b.Encloses c) (a : Axis) :
    at' a b.min ≤ at' a c.min ∧ at' a c.max ≤ at' a b.max := by
  obtain ⟨h1, h2, h3, h4, h5, h6⟩ := h
  cases a <;> simp_all [at']

/-- Both halves of a partition are non-empty. -/
theorem partition_spec {env : Env S} (he : env.Ok) (boxes : List (Box S)) (ids : List Nat)
    (hlen : 2 ≤ ids.length) (set : Box S)
    (hup : ∀ i ∈ ids, ∃ c, boxes[i]? = some c ∧ set.Encloses c)
    (hmin : ∀ a, ∃ i ∈ ids, ∃ c, boxes[i]? = some c ∧ at' a set.min = at' a c.min) :
    (partition env boxes ids set).1.Perm ids ∧ 0 < (partition env boxes ids set).2 ∧
      (partition env boxes ids set).2 < ids.length := by
  unfold partition
  dsimp only
  generalize hpos : env.mid (at' (env.axis set) set.min) (at' (env.axis set) set.max) = pos
  generalize hcc : centre env boxes pos (env.axis set) = c
  have hp := he.sort_perm c ids
  have hs := he.sort_sorted c ids
  generalize env.sort c ids = l at *
  have hl := hp.length_eq
  cases hf : l.findIdx? fun i => decide (pos < c i) with
  | none =>
    exact ⟨hp, by dsimp only; omega, by dsimp only; omega⟩
  | some k =>
    rw [List.findIdx?_eq_some_iff_getElem] at hf
    obtain ⟨hk, hk1, hk2⟩ := hf
    refine ⟨hp, ?_, by dsimp only; omega⟩
    rcases Nat.eq_zero_or_pos k with h0 | h0
    · exfalso
      subst h0
      obtain ⟨j, hj, b, hb, hm⟩ := hmin (env.axis set)
      have hjl : j ∈ l := hp.mem_iff.2 hj
      obtain ⟨b', hb', henc⟩ := hup j hj
      rw [hb] at hb'
      simp only [Option.some.injEq] at hb'
      subst hb'
      have hcj : c j ≤ pos := by
        rw [← hcc, ← hpos]
        simp only [centre, hb]
        rw [hm]
        exact he.mid_mono _ _ _ _ (le_refl _) (encloses_at henc _).2
      obtain ⟨n, hn, hjn⟩ := List.getElem_of_mem hjl
      have h1 : pos < c l[0] := by simpa using hk1
      have h2 : c l[0] ≤ c l[n] := by
        rcases Nat.eq_zero_or_pos n with rfl | hn0
        · exact le_refl _
        · exact (List.pairwise_iff_getElem.1 hs) 0 n hk hn hn0
      rw [hjn] at h2
      exact absurd (lt_of_lt_of_le h1 h2) (not_lt.2 hcj)
    · exact h0

/-! ### The tree in the array -/

/-- A tree of node ids; leaves carry their items. -/
inductive T where
  | leaf (i : Nat) (items : List Nat)
  | node (i : Nat) (l r : T)

namespace T

/-- The id of the topmost node. -/
def id : T → Nat
  | leaf i _ => i
  | node i _ _ => i

@[simp] theorem id_leaf (i : Nat) (l : List Nat) : (leaf i l).id = i := rfl
@[simp] theorem id_node (i : Nat) (l r : T) : (node i l r).id = i := rfl

/-- All node ids. -/
def ids : T → List Nat
  | leaf i _ => [i]
  | node i l r => i :: (l.ids ++ r.ids)

/-- The leaves with their items, in the order of construction. -/
def leaves : T → List (Nat × List Nat)
  | leaf i items => [(i, items)]
  | node _ l r => l.leaves ++ r.leaves

/-- All items. -/
def items (t : T) : List Nat := t.leaves.flatMap (·.2)

theorem leaves_sub {t : T} : ∀ p ∈ t.leaves, p.1 ∈ t.ids := by
  induction t with
  | leaf i is => simp [leaves, ids]
  | node i l r hl hr =>
    intro p hp
    simp only [leaves, List.mem_append] at hp
    simp only [ids, List.mem_cons, List.mem_append]
    rcases hp with hp | hp
    · exact Or.inr (Or.inl (hl p hp))
    · exact Or.inr (Or.inr (hr p hp))

theorem length_ids_pos (t : T) : 0 < t.ids.length := by cases t <;> simp [ids]

end T

/-- The tree is stored in the node vector, every box being the hull of the items below. -/
def Rep (boxes : List (Box S)) (nodes : List (TNode S)) : T → Prop
  | .leaf i items => ∃ n, nodes[i]? = some n ∧ n.child1 = none ∧ Hull boxes n.aabb items
  | .node i l r => (∃ n, nodes[i]? = some n ∧ n.child1 = some l.id ∧ n.second = r.id ∧
      Hull boxes n.aabb (l.items ++ r.items)) ∧ Rep boxes nodes l ∧ Rep boxes nodes r

theorem Rep.congr {boxes : List (Box S)} {nodes nodes' : List (TNode S)} {t : T}
    (h : Rep boxes nodes t) (hn : ∀ i ∈ t.ids, nodes'[i]? = nodes[i]?) : Rep boxes nodes' t := by
  induction t with
  | leaf i items =>
    obtain ⟨n, h1, h2⟩ := h
    exact ⟨n, by rw [hn i (by simp [T.ids]), h1], h2⟩
  | node i l r hl hr =>
    obtain ⟨⟨n, h1, h2⟩, h3, h4⟩ := h
    exact ⟨⟨n, by rw [hn i (by simp [T.ids]), h1], h2⟩,
      hl h3 (fun j hj => hn j (by simp [T.ids, hj])), hr h4 (fun j hj => hn j (by simp [T.ids, hj]))⟩

theorem Hull.perm {boxes : List (Box S)} {b : Box S} {l l' : List Nat} (h : Hull boxes b l)
    (hp : ∀ i, i ∈ l' ↔ i ∈ l) : Hull boxes b l' :=
  ⟨fun i hi => h.upper i ((hp i).1 hi), fun b' hb => h.least b' fun i hi => hb i ((hp i).2 hi)⟩

/-- What `report_leaf` stored in the leaves. -/
def Stored (env : Env S) (st : St S) (k0 : Nat) : List (Nat × List Nat) → Prop
  | [] => True
  | (i, items) :: rest =>
    (∃ n, st.nodes[i]? = some n ∧ n.child1 = none ∧ n.second = env.report k0 items) ∧
    Stored env st (k0 + 1) rest

omit [LinearOrder S] in
theorem Stored.append {env : Env S} {st : St S} {k0 : Nat} {l1 l2 : List (Nat × List Nat)}
    (h1 : Stored env st k0 l1) (h2 : Stored env st (k0 + l1.length) l2) :
    Stored env st k0 (l1 ++ l2) := by
  induction l1 generalizing k0 with
  | nil => simpa using h2
  | cons p l1 ih =>
    obtain ⟨i, items⟩ := p
    refine ⟨h1.1, ih h1.2 ?_⟩
    have : k0 + ((i, items) :: l1).length = k0 + 1 + l1.length := by simp; omega
    rw [← this]; exact h2

omit [LinearOrder S] in
theorem Stored.congr {env : Env S} {st st' : St S} {k0 : Nat} {l : List (Nat × List Nat)}
    (h : Stored env st k0 l) (hn : ∀ p ∈ l, st'.nodes[p.1]? = st.nodes[p.1]?) :
    Stored env st' k0 l := by
  induction l generalizing k0 with
  | nil => trivial
  | cons p l ih =>
    obtain ⟨i, items⟩ := p
    obtain ⟨⟨n, h1, h2⟩, h3⟩ := h
    exact ⟨⟨n, by rw [hn (i, items) (by simp), h1], h2⟩, ih h3 fun q hq => hn q (by simp [hq])⟩

theorem recurse_spec [Inhabited S] {env : Env S} (he : env.Ok) (boxes : List (Box S)) (maxObj : Nat)
    (hmax : 1 ≤ maxObj) (fuel : Nat) (ids : List Nat) (idx : Nat) (st : St S)
    (hf : ids.length ≤ fuel) (hne : ids ≠ []) (hlt : ∀ i ∈ ids, i < boxes.length)
    (hidx : idx < st.nodes.length) :
    ∃ st' t, recurse env boxes maxObj fuel ids idx st = some st' ∧ t.id = idx ∧
      Rep boxes st'.nodes t ∧ t.items.Perm ids ∧ t.ids.Nodup ∧
      (∀ j ∈ t.ids, j = idx ∨ (st.nodes.length ≤ j ∧ j < st'.nodes.length)) ∧
      (∀ j, j < st.nodes.length → j ≠ idx → st'.nodes[j]? = st.nodes[j]?) ∧
      st.nodes.length ≤ st'.nodes.length ∧ st'.log = st.log ++ t.leaves ∧
      (∀ p ∈ t.leaves, 1 ≤ p.2.length ∧ p.2.length ≤ maxObj) ∧
      Stored env st' st.log.length t.leaves := by
  induction fuel generalizing ids idx st with
  | zero =>
    have : ids.length = 0 := by omega
    exact absurd (List.eq_nil_of_length_eq_zero this) hne
  | succ fuel ih =>
    match ids, hne with
    | i :: rest, _ =>
      obtain ⟨b0, hb0⟩ : ∃ c, boxes[i]? = some c :=
        ⟨_, List.getElem?_eq_getElem (hlt i (by simp))⟩
      obtain ⟨set, s1, s2, s3, s4, s5⟩ := encloseAll_spec boxes b0 rest
        (fun j hj => hlt j (by simp [hj]))
      have hup : ∀ j ∈ i :: rest, ∃ c, boxes[j]? = some c ∧ set.Encloses c := by
        intro j hj
        rcases List.mem_cons.1 hj with rfl | hj
        · exact ⟨b0, hb0, s2⟩
        · exact s3 j hj
      have hull : Hull boxes set (i :: rest) := by
        refine ⟨hup, ?_⟩
        intro b' hb'
        exact s4 b' (hb' i (by simp) b0 hb0) (fun j hj => hb' j (by simp [hj]))
      have hmin : ∀ a, ∃ j ∈ i :: rest, ∃ c, boxes[j]? = some c ∧ at' a set.min = at' a c.min := by
        intro a
        rcases s5 a with hh | ⟨j, hj, c, hc, hh⟩
        · exact ⟨i, by simp, b0, hb0, hh⟩
        · exact ⟨j, by simp [hj], c, hc, hh⟩
      simp only [recurse, hb0, s1, Option.bind_eq_bind, Option.bind_some, hidx, if_true]
      split
      · rename_i hle
        refine ⟨_, .leaf idx (i :: rest), rfl, rfl, ?_, ?_, ?_, ?_, ?_, ?_, rfl, ?_, ?_⟩
        · exact ⟨_, List.getElem?_set_self hidx, rfl, hull⟩
        · simp [T.items, T.leaves]
        · simp [T.ids]
        · intro j hj; simp [T.ids] at hj; exact Or.inl hj
        · intro j _ hj; exact List.getElem?_set_ne (Ne.symm hj)
        · simp
        · intro p hp; simp [T.leaves] at hp; subst hp; exact ⟨by simp, hle⟩
        · exact ⟨⟨_, List.getElem?_set_self hidx, rfl, rfl⟩, trivial⟩
      · rename_i hgt
        have hlen2 : 2 ≤ (i :: rest).length := by omega
        obtain ⟨p1, p2, p3⟩ := partition_spec he boxes (i :: rest) hlen2 set hup hmin
        generalize partition env boxes (i :: rest) set = p at *
        have hpl := p1.length_eq
        generalize hst0 : (⟨st.nodes.set idx ⟨set, some st.nodes.length, st.nodes.length + 1⟩ ++
          [⟨⟨⟨default, default, default⟩, ⟨default, default, default⟩⟩, some 0, 0⟩,
           ⟨⟨⟨default, default, default⟩, ⟨default, default, default⟩⟩, some 0, 0⟩], st.log⟩ : St S)
           = st0
        have hlen0 : st0.nodes.length = st.nodes.length + 2 := by subst hst0; simp
        have hlog0 : st0.log = st.log := by subst hst0; rfl
        have hnode0 : st0.nodes[idx]? = some ⟨set, some st.nodes.length, st.nodes.length + 1⟩ := by
          subst hst0
          simp only
          rw [List.getElem?_append_left (by simpa using hidx), List.getElem?_set_self hidx]
        have hframe0 : ∀ j, j < st.nodes.length → j ≠ idx → st0.nodes[j]? = st.nodes[j]? := by
          intro j hj hji
          subst hst0
          simp only
          rw [List.getElem?_append_left (by simpa using hj), List.getElem?_set_ne (Ne.symm hji)]
        have hmem : ∀ j ∈ p.1, j < boxes.length := fun j hj => hlt j (p1.mem_iff.1 hj)
        obtain ⟨st1, t1, a1, a2, a3, a4, a5, a6, a7, a8, a9, a10, a11⟩ := ih (p.1.take p.2)
          st.nodes.length st0 (by rw [List.length_take]; omega)
          (by rw [ne_eq, ← List.length_eq_zero_iff, List.length_take]; omega)
          (fun j hj => hmem j (List.mem_of_mem_take hj)) (by omega)
        obtain ⟨st2, t2, b1, b2, b3, b4, b5, b6, b7, b8, b9, b10, b11⟩ := ih (p.1.drop p.2)
          (st.nodes.length + 1) st1 (by rw [List.length_drop]; omega)
          (by rw [ne_eq, ← List.length_eq_zero_iff, List.length_drop]; omega)
          (fun j hj => hmem j (List.mem_of_mem_drop hj)) (by omega)
        have hitems : (t1.items ++ t2.items).Perm (i :: rest) := by
          refine (a4.append b4).trans ?_
          rw [List.take_append_drop]
          exact p1
        -- ids of the first subtree are not touched by the second call
        have hkeep : ∀ j ∈ t1.ids, st2.nodes[j]? = st1.nodes[j]? := by
          intro j hj
          have := a6 j hj
          refine b7 j ?_ ?_ <;> omega
        refine ⟨st2, .node idx t1 t2, ?_, rfl, ?_, ?_, ?_, ?_, ?_, by omega, ?_, ?_, ?_⟩
        · rw [a1, Option.bind_some, b1]
        · refine ⟨⟨⟨set, some st.nodes.length, st.nodes.length + 1⟩, ?_, by rw [a2], by rw [b2], ?_⟩,
            a3.congr hkeep, b3⟩
          · rw [b7 idx (by omega) (by omega), a7 idx (by omega) (by omega), hnode0]
          · exact hull.perm fun j => hitems.mem_iff
        · simpa [T.items, T.leaves] using hitems
        · simp only [T.ids, List.nodup_cons, List.mem_append, not_or, List.nodup_append]
          refine ⟨⟨?_, ?_⟩, a5, b5, ?_⟩
          · intro hh; have := a6 _ hh; omega
          · intro hh; have := b6 _ hh; omega
          · intro x hx y hy hxy
            subst hxy
            have := a6 x hx
            have := b6 x hy
            omega
        · intro j hj
          simp only [T.ids, List.mem_cons, List.mem_append] at hj
          rcases hj with rfl | hj | hj
          · exact Or.inl rfl
          · have := a6 j hj; omega
          · have := b6 j hj; omega
        · intro j hj hji
          rw [b7 j (by omega) (by omega), a7 j (by omega) (by omega), hframe0 j hj hji]
        · rw [b9, a9, hlog0, T.leaves, List.append_assoc]
        · intro q hq
          simp only [T.leaves, List.mem_append] at hq
          exact hq.elim (a10 q) (b10 q)
        · rw [T.leaves]
          refine Stored.append ?_ ?_
          · rw [hlog0] at a11
            exact a11.congr fun q hq => hkeep q.1 (T.leaves_sub q hq)
          · rw [a9, hlog0, List.length_append] at b11
            exact b11

/-- What `build` produces. -/
theorem build_rep [Inhabited S] {env : Env S} (he : env.Ok) {boxes : List (Box S)} (hne : boxes ≠ [])
    {maxObj : Nat} (hmax : 1 ≤ maxObj) :
    ∃ st t, build env boxes maxObj = some st ∧ t.id = 0 ∧ Rep boxes st.nodes t ∧
      t.items.Perm (List.range boxes.length) ∧ t.ids.Nodup ∧ (∀ j ∈ t.ids, j < st.nodes.length) ∧
      st.log = t.leaves ∧ (∀ p ∈ t.leaves, 1 ≤ p.2.length ∧ p.2.length ≤ maxObj) ∧
      Stored env st 0 t.leaves := by
  have hl : 0 < boxes.length := List.length_pos_iff.2 hne
  obtain ⟨st, t, h1, h2, h3, h4, h5, h6, h7, h8, h9, h10, h11⟩ := recurse_spec he boxes maxObj hmax
    boxes.length (List.range boxes.length) 0
    ⟨[⟨⟨⟨default, default, default⟩, ⟨default, default, default⟩⟩, some 0, 0⟩], []⟩
    (by simp) (by rw [ne_eq, List.range_eq_nil]; omega) (by simp) (by simp)
  refine ⟨st, t, by simp [build, hne, h1], h2, h3, h4, h5, ?_, by simpa using h9, h10, h11⟩
  intro j hj
  simp only [List.length_cons, List.length_nil] at h8
  rcases h6 j hj with hh | hh <;> omega

/-! ### Traversal -/

/-- The leaves the traversal reports below a node, in order. -/
def visit (nodes : List (TNode S)) (test : Box S → Bool) : T → List Nat
  | .leaf i _ => if (nodes[i]?.map fun n => test n.aabb) = some true then [i] else []
  | .node i l r => if (nodes[i]?.map fun n => test n.aabb) = some true then
      visit nodes test r ++ visit nodes test l else []

theorem traverseLoop_spec {boxes : List (Box S)} {nodes : List (TNode S)} {test : Box S → Bool} {t : T}
    (h : Rep boxes nodes t) :
    ∀ (fuel : Nat) (stack : List Nat) (acc : List Nat), ∃ extra,
      traverseLoop nodes test (fuel + t.ids.length) (t.id :: stack) acc =
        traverseLoop nodes test (fuel + extra) stack (acc ++ visit nodes test t) := by
  induction t with
  | leaf i items =>
    intro fuel stack acc
    obtain ⟨n, h1, h2, _⟩ := h
    refine ⟨0, ?_⟩
    simp only [T.ids, List.length_singleton, T.id_leaf, traverseLoop, h1, Option.bind_eq_bind,
      Option.bind_some, h2, visit, Option.map_some, Option.some.injEq, Nat.add_zero]
    split <;> simp
  | node i l r hl hr =>
    intro fuel stack acc
    obtain ⟨⟨n, h1, h2, h3, _⟩, h4, h5⟩ := h
    have hlen : fuel + (T.node i l r).ids.length = ((fuel + l.ids.length) + r.ids.length) + 1 := by
      simp [T.ids]; omega
    rw [hlen]
    simp only [T.id_node, traverseLoop, h1, Option.bind_eq_bind,
      Option.bind_some, h2, h3, visit, Option.map_some, Option.some.injEq]
    by_cases ht : test n.aabb = true
    · simp only [ht, if_true]
      obtain ⟨e1, q1⟩ := hr h5 (fuel + l.ids.length) (l.id :: stack) acc
      rw [q1]
      obtain ⟨e2, q2⟩ := hl h4 (fuel + e1) stack (acc ++ visit nodes test r)
      refine ⟨e1 + e2, ?_⟩
      have : fuel + l.ids.length + e1 = fuel + e1 + l.ids.length := by omega
      rw [this, q2, List.append_assoc]
      congr 1
      omega
    · simp only [ht, if_false]
      exact ⟨l.ids.length + r.ids.length, by simp [Nat.add_assoc]⟩

theorem Hull.mono {boxes : List (Box S)} {b c : Box S} {l l' : List Nat} (h : Hull boxes b l)
    (k : Hull boxes c l') (hs : ∀ i ∈ l', i ∈ l) : b.Encloses c := by
  refine k.least b ?_
  intro i hi c' hc'
  obtain ⟨d, hd, he⟩ := h.upper i (hs i hi)
  rw [hc'] at hd
  simp only [Option.some.injEq] at hd
  subst hd
  exact he

/-- The box of the topmost node of a stored tree is the hull of its items. -/
theorem Rep.hull {boxes : List (Box S)} {nodes : List (TNode S)} {t : T} (h : Rep boxes nodes t) :
    ∃ n, nodes[t.id]? = some n ∧ Hull boxes n.aabb t.items := by
  cases t with
  | leaf i items =>
    obtain ⟨n, h1, _, h2⟩ := h
    exact ⟨n, h1, by simpa [T.items, T.leaves] using h2⟩
  | node i l r =>
    obtain ⟨⟨n, h1, _, _, h2⟩, _⟩ := h
    exact ⟨n, h1, by simpa [T.items, T.leaves] using h2⟩

/-- Leaf entries have the hull of their items as box. -/
theorem Rep.leaf {boxes : List (Box S)} {nodes : List (TNode S)} {t : T} (h : Rep boxes nodes t) :
    ∀ p ∈ t.leaves, ∃ n, nodes[p.1]? = some n ∧ n.child1 = none ∧ Hull boxes n.aabb p.2 := by
  induction t with
  | leaf i items =>
    obtain ⟨n, h1, h2, h3⟩ := h
    intro p hp
    simp [T.leaves] at hp
    subst hp
    exact ⟨n, h1, h2, h3⟩
  | node i l r hl hr =>
    obtain ⟨_, h4, h5⟩ := h
    intro p hp
    simp only [T.leaves, List.mem_append] at hp
    exact hp.elim (hl h4 p) (hr h5 p)

theorem mem_visit {boxes : List (Box S)} {nodes : List (TNode S)} {test : Box S → Bool}
    (hm : Monotone test) {t : T} (h : Rep boxes nodes t) (j : Nat) :
    j ∈ visit nodes test t ↔
      ∃ items n, (j, items) ∈ t.leaves ∧ nodes[j]? = some n ∧ test n.aabb = true := by
  induction t with
  | leaf i its =>
    obtain ⟨n, h1, _⟩ := h
    simp only [visit, h1, Option.map_some, Option.some.injEq, T.leaves, List.mem_singleton,
      Prod.mk.injEq]
    constructor
    · intro hj
      split at hj
      · simp at hj; subst hj; exact ⟨its, n, ⟨rfl, rfl⟩, h1, by assumption⟩
      · simp at hj
    · rintro ⟨_, m, ⟨rfl, rfl⟩, hm1, hm2⟩
      rw [h1] at hm1
      simp only [Option.some.injEq] at hm1
      subst hm1
      simp [hm2]
  | node i l r hl hr =>
    have hleaf := h.leaf
    obtain ⟨⟨n, h1, _, _, hh⟩, h4, h5⟩ := h
    simp only [visit, h1, Option.map_some, Option.some.injEq, T.leaves, List.mem_append]
    split
    · rw [List.mem_append, hl h4, hr h5]
      constructor
      · rintro (⟨a, b, c, d⟩ | ⟨a, b, c, d⟩)
        · exact ⟨a, b, Or.inr c, d⟩
        · exact ⟨a, b, Or.inl c, d⟩
      · rintro ⟨a, b, c | c, d⟩
        · exact Or.inr ⟨a, b, c, d⟩
        · exact Or.inl ⟨a, b, c, d⟩
    · rename_i ht
      simp only [List.not_mem_nil, false_iff]
      rintro ⟨its, m, hmem, hm1, hm2⟩
      apply ht
      obtain ⟨m', k1, _, k2⟩ := hleaf (j, its) (by simpa [T.leaves] using hmem)
      rw [hm1] at k1
      simp only [Option.some.injEq] at k1
      subst k1
      refine hm _ _ (hh.mono k2 ?_) hm2
      intro x hx
      simp only [List.mem_append, T.items, List.mem_flatMap]
      exact hmem.imp (fun q => ⟨_, q, hx⟩) (fun q => ⟨_, q, hx⟩)

omit [LinearOrder S] in
theorem visit_sub {nodes : List (TNode S)} {test : Box S → Bool} {t : T} :
    ∀ j ∈ visit nodes test t, j ∈ t.ids := by
  induction t with
  | leaf i its => intro j hj; simp only [visit] at hj; split at hj <;> simp_all [T.ids]
  | node i l r hl hr =>
    intro j hj
    simp only [visit] at hj
    split at hj
    · simp only [List.mem_append, T.ids, List.mem_cons] at hj ⊢
      rcases hj with h | h
      · exact Or.inr (Or.inr (hr j h))
      · exact Or.inr (Or.inl (hl j h))
    · simp at hj

omit [LinearOrder S] in
theorem visit_nodup {nodes : List (TNode S)} {test : Box S → Bool} {t : T} (h : t.ids.Nodup) :
    (visit nodes test t).Nodup := by
  induction t with
  | leaf i its => simp only [visit]; split <;> simp
  | node i l r hl hr =>
    simp only [T.ids, List.nodup_cons, List.nodup_append] at h
    simp only [visit]
    split
    · rw [List.nodup_append]
      refine ⟨hr h.2.2.1, hl h.2.1, fun a ha b hb => ?_⟩
      exact Ne.symm (h.2.2.2 b (visit_sub b hb) a (visit_sub a ha))
    · simp

theorem query_rep {boxes : List (Box S)} {nodes : List (TNode S)} {t : T} (hr : Rep boxes nodes t)
    (h0 : t.id = 0) (hnd : t.ids.Nodup) (hlt : ∀ j ∈ t.ids, j < nodes.length)
    {test : Box S → Bool} : query nodes test = some (visit nodes test t) := by
  unfold query
  have hlen := length_le_of_nodup_lt hnd hlt
  obtain ⟨e, q⟩ := traverseLoop_spec (test := test) hr (nodes.length - t.ids.length) [] []
  have : nodes.length - t.ids.length + t.ids.length = nodes.length := by omega
  rw [this, h0] at q
  rw [q]
  cases nodes.length - t.ids.length + e <;> simp [traverseLoop]

/-- C04, construction. `build` on any non-empty array with at least one object per leaf succeeds
(so it terminates); every index is reported in exactly one leaf, each leaf getting between 1 and
`maxObj` indices, and the box of each leaf encloses the boxes of its items. -/
theorem build_exact [Inhabited S] {env : Env S} (he : env.Ok) {boxes : List (Box S)}
    (hne : boxes ≠ []) {maxObj : Nat} (hmax : 1 ≤ maxObj) :
    ∃ st, build env boxes maxObj = some st ∧
      (st.log.flatMap (·.2)).Perm (List.range boxes.length) ∧
      (st.log.map (·.1)).Nodup ∧
      ∀ p ∈ st.log, 1 ≤ p.2.length ∧ p.2.length ≤ maxObj ∧
        ∃ n, st.nodes[p.1]? = some n ∧ n.child1 = none ∧
          ∀ i ∈ p.2, ∃ b, boxes[i]? = some b ∧ n.aabb.Encloses b := by
  obtain ⟨st, t, h1, h2, h3, h4, h5, h6, h7, h8, h9⟩ := build_rep he hne hmax
  refine ⟨st, h1, by rw [h7]; exact h4, ?_, ?_⟩
  · rw [h7]
    clear h1 h2 h3 h4 h6 h7 h8 h9
    induction t with
    | leaf i its => simp [T.leaves]
    | node i l r hl hr =>
      simp only [T.ids, List.nodup_cons, List.nodup_append] at h5
      simp only [T.leaves, List.map_append, List.nodup_append]
      refine ⟨hl h5.2.1, hr h5.2.2.1, ?_⟩
      intro a ha b hb
      obtain ⟨p, hp, rfl⟩ := List.mem_map.1 ha
      obtain ⟨q, hq, rfl⟩ := List.mem_map.1 hb
      exact h5.2.2.2 _ (T.leaves_sub p hp) _ (T.leaves_sub q hq)
  · intro p hp
    rw [h7] at hp
    obtain ⟨n, k1, k2, k3⟩ := h3.leaf p hp
    exact ⟨(h8 p hp).1, (h8 p hp).2, n, k1, k2, k3.upper⟩

/-- C04, queries. For every monotone test (box overlap is one), the query on a built tree terminates,
visits no leaf twice, visits exactly the leaves whose box passes, and misses no item that passes. -/
theorem query_exact [Inhabited S] {env : Env S} (he : env.Ok) {boxes : List (Box S)}
    (hne : boxes ≠ []) {maxObj : Nat} (hmax : 1 ≤ maxObj) {test : Box S → Bool} (hm : Monotone test) :
    ∃ st out, build env boxes maxObj = some st ∧ query st.nodes test = some out ∧ out.Nodup ∧
      (∀ k, k ∈ out ↔ ∃ items n, (k, items) ∈ st.log ∧ st.nodes[k]? = some n ∧ test n.aabb = true) ∧
      (∀ i b, boxes[i]? = some b → test b = true → ∃ k ∈ out, ∃ items, (k, items) ∈ st.log ∧
        i ∈ items) := by
  obtain ⟨st, t, h1, h2, h3, h4, h5, h6, h7, h8, h9⟩ := build_rep he hne hmax
  refine ⟨st, _, h1, query_rep h3 h2 h5 h6, visit_nodup h5, ?_, ?_⟩
  · intro k; rw [mem_visit hm h3, h7]
  · intro i b hb ht
    have hi : i < boxes.length := by
      by_contra hc
      rw [List.getElem?_eq_none (by omega)] at hb
      simp at hb
    have : i ∈ t.items := h4.mem_iff.2 (List.mem_range.2 hi)
    obtain ⟨p, hp, hip⟩ := List.mem_flatMap.1 this
    obtain ⟨n, k1, k2, k3⟩ := h3.leaf p hp
    refine ⟨p.1, ?_, p.2, by rw [h7]; exact hp, hip⟩
    rw [mem_visit hm h3]
    refine ⟨p.2, n, hp, k1, ?_⟩
    obtain ⟨c, hc, henc⟩ := k3.upper i hip
    rw [hb] at hc
    simp only [Option.some.injEq] at hc
    subst hc
    exact hm _ _ henc ht

/-- Box overlap is a monotone test. -/
theorem overlap_monotone (q : Box S) : Monotone fun b => b.intersect q :=
  fun _ _ h k => h.intersect k

/-- One object per leaf, stored as the node id: the case of compound shapes and triangle meshes. -/
def IdIsItem (env : Env S) : Prop := ∀ k i rest, env.report k (i :: rest) = i

/-- The ids stored in the visited nodes. -/
def queryIds (nodes : List (TNode S)) (test : Box S → Bool) : Option (List Nat) :=
  (query nodes test).bind fun l => l.mapM fun k => nodes[k]?.map (·.second)

omit [LinearOrder S] in
theorem Stored.get {env : Env S} {st : St S} {k0 : Nat} {l : List (Nat × List Nat)}
    (h : Stored env st k0 l) : ∀ p ∈ l, ∃ n k, st.nodes[p.1]? = some n ∧ n.second = env.report k p.2 := by
  induction l generalizing k0 with
  | nil => simp
  | cons q l ih =>
    obtain ⟨i, items⟩ := q
    intro p hp
    rcases List.mem_cons.1 hp with rfl | hp
    · obtain ⟨n, h1, _, h2⟩ := h.1
      exact ⟨n, k0, h1, h2⟩
    · exact ih h.2 p hp

theorem mapM_eq_map {α β : Type} (l : List α) (f : α → Option β) (g : α → β)
    (h : ∀ a ∈ l, f a = some (g a)) : l.mapM f = some (l.map g) := by
  induction l with
  | nil => rfl
  | cons a l ih =>
    rw [List.mapM_cons, h a (by simp), ih (fun b hb => h b (by simp [hb]))]
    rfl

/-- C04. With one object per leaf the query reports exactly the objects whose own box passes the test,
each once. -/
theorem query_single_exact [Inhabited S] {env : Env S} (he : env.Ok) (hid : IdIsItem env)
    {boxes : List (Box S)} (hne : boxes ≠ []) {test : Box S → Bool} (hm : Monotone test) :
    ∃ st out, build env boxes 1 = some st ∧ queryIds st.nodes test = some out ∧ out.Nodup ∧
      ∀ i, i ∈ out ↔ ∃ b, boxes[i]? = some b ∧ test b = true := by
  obtain ⟨st, t, h1, h2, h3, h4, h5, h6, h7, h8, h9⟩ := build_rep he hne (Nat.le_refl 1)
  -- every leaf holds one item, with the item's own box
  have hone : ∀ p ∈ t.leaves, ∃ i n b, p.2 = [i] ∧ st.nodes[p.1]? = some n ∧ n.second = i ∧
      boxes[i]? = some b ∧ n.aabb.Encloses b ∧ b.Encloses n.aabb := by
    intro p hp
    obtain ⟨l1, l2⟩ := h8 p hp
    obtain ⟨i, hi⟩ := List.length_eq_one_iff.1 (Nat.le_antisymm l2 l1)
    obtain ⟨n, k1, k2, k3⟩ := h3.leaf p hp
    obtain ⟨m, k, m1, m2⟩ := h9.get p hp
    rw [k1] at m1
    simp only [Option.some.injEq] at m1
    subst m1
    rw [hi] at k3 m2
    obtain ⟨b, hb, henc⟩ := k3.upper i (by simp)
    refine ⟨i, n, b, hi, k1, by rw [m2, hid], hb, henc, ?_⟩
    refine k3.least b ?_
    intro j hj c hc
    simp at hj
    subst hj
    rw [hb] at hc
    simp only [Option.some.injEq] at hc
    subst hc
    exact Box.Encloses.refl _
  have hq := query_rep h3 h2 h5 h6 (test := test)
  let f : Nat → Nat := fun k => (st.nodes[k]?.map (·.second)).getD 0
  have hmap : (visit st.nodes test t).mapM (fun k => st.nodes[k]?.map (·.second)) =
      some ((visit st.nodes test t).map f) := by
    refine mapM_eq_map _ _ _ ?_
    intro k hk
    obtain ⟨items, n, hmem, hn, _⟩ := (mem_visit hm h3 k).1 hk
    simp [f, hn]
  refine ⟨st, (visit st.nodes test t).map f, h1, by simp [queryIds, hq, hmap], ?_, ?_⟩
  · refine (visit_nodup h5).map_on ?_
    intro a ha b hb hab
    obtain ⟨ia, na, ha1, ha2, _⟩ := (mem_visit hm h3 a).1 ha
    obtain ⟨ib, nb, hb1, hb2, _⟩ := (mem_visit hm h3 b).1 hb
    obtain ⟨x, n, _, p1, p2, p3, _⟩ := hone _ ha1
    obtain ⟨y, m, _, q1, q2, q3, _⟩ := hone _ hb1
    simp only at p1 p2 q1 q2
    simp only [f, p2, q2, Option.map_some, Option.getD_some, p3, q3] at hab
    subst hab
    subst p1
    subst q1
    -- the same item in two leaves contradicts that items form a permutation of the range
    have hnd : (t.leaves.flatMap (·.2)).Nodup := h4.nodup_iff.2 List.nodup_range
    by_contra hne
    rw [List.nodup_flatMap] at hnd
    have hpw := hnd.2
    have : Std.Symm (Function.onFun List.Disjoint fun x : Nat × List Nat => x.2) :=
      ⟨fun p q h x h1 h2 => h h2 h1⟩
    have := hpw.forall ha1 hb1 (by
      intro he; exact hne (congrArg Prod.fst he))
    exact this (by simp : x ∈ [x]) (by simp)
  · intro i
    rw [List.mem_map]
    constructor
    · rintro ⟨k, hk, rfl⟩
      obtain ⟨items, n, hmem, hn, ht⟩ := (mem_visit hm h3 k).1 hk
      obtain ⟨x, m, b, p1, p2, p3, p4, p5, p6⟩ := hone _ hmem
      simp only at p2
      rw [hn] at p2
      simp only [Option.some.injEq] at p2
      subst p2
      refine ⟨b, by simp [f, hn, p3, p4], hm _ _ p6 ht⟩
    · rintro ⟨b, hb, ht⟩
      have hi : i < boxes.length := by
        by_contra hc
        rw [List.getElem?_eq_none (by omega)] at hb
        simp at hb
      have : i ∈ t.items := h4.mem_iff.2 (List.mem_range.2 hi)
      obtain ⟨p, hp, hip⟩ := List.mem_flatMap.1 this
      obtain ⟨x, m, c, p1, p2, p3, p4, p5, p6⟩ := hone _ hp
      rw [p1] at hip
      simp at hip
      subst hip
      rw [hb] at p4
      simp only [Option.some.injEq] at p4
      subst p4
      refine ⟨p.1, ?_, by simp [f, p2, p3]⟩
      rw [mem_visit hm h3]
      exact ⟨p.2, m, hp, p2, hm _ _ p5 ht⟩

/-! ### Non-vacuity and findings -/

/-- Integers with rounded-down centres, insertion sort, first axis. -/
def exEnv : Env Int where
  mid a b := (a + b) / 2
  axis _ := .x
  sort f l := l.insertionSort fun i j => f i ≤ f j
  report _ l := l.headD 0

theorem exEnv_ok : exEnv.Ok := by
  refine ⟨?_, ?_, ?_⟩
  · intro a b c d h1 h2; simp only [exEnv]; omega
  · intro f l; exact List.perm_insertionSort _ _
  · intro f l
    have : Std.Total (fun i j : Nat => f i ≤ f j) := ⟨fun i j => Int.le_total _ _⟩
    have : IsTrans Nat (fun i j => f i ≤ f j) := ⟨fun a b c h1 h2 => Int.le_trans h1 h2⟩
    exact List.pairwise_insertionSort (fun i j => f i ≤ f j) l

example : IdIsItem exEnv := fun _ _ _ => rfl

def exBoxes : List (Box Int) :=
  [⟨⟨0, 0, 0⟩, ⟨1, 1, 1⟩⟩, ⟨⟨5, 0, 0⟩, ⟨6, 1, 1⟩⟩, ⟨⟨0, 0, 0⟩, ⟨1, 1, 1⟩⟩, ⟨⟨2, 0, 0⟩, ⟨9, 1, 1⟩⟩]

example : (build exEnv exBoxes 1).map (fun st => st.log.map (·.2)) =
    some [[0], [2], [1], [3]] := by decide +kernel
example : ((build exEnv exBoxes 1).bind fun st => queryIds st.nodes fun b =>
    b.intersect ⟨⟨1, 0, 0⟩, ⟨3, 1, 1⟩⟩) = some [3, 2, 0] := by decide +kernel

omit [LinearOrder S] in
/-- Finding: querying a tree that was never built reads the missing root. -/
theorem query_empty_undefined (test : Box S → Bool) : query ([] : List (TNode S)) test = none := by
  simp [query, traverseLoop]

theorem recurse_zero [Inhabited S] (env : Env S) (boxes : List (Box S)) (fuel : Nat) (ids : List Nat)
    (idx : Nat) (st : St S) : recurse env boxes 0 fuel ids idx st = none := by
  induction fuel generalizing ids idx st with
  | zero => rfl
  | succ fuel ih =>
    cases ids with
    | nil => rfl
    | cons i rest =>
      simp only [recurse]
      cases boxes[i]? with
      | none => rfl
      | some b =>
        simp only [Option.bind_eq_bind, Option.bind_some]
        cases encloseAll boxes b rest with
        | none => rfl
        | some c => simp [ih]

/-- Finding: `max_obj_per_leaf = 0` never succeeds: single items are split for ever, until an empty
range is dereferenced. -/
theorem build_zero_undefined [Inhabited S] (env : Env S) (boxes : List (Box S)) :
    build env boxes 0 = none := by
  unfold build
  split
  · rfl
  · exact recurse_zero ..

end Edyn.StaticTree
