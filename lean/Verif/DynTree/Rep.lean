import Verif.DynTree.Model
import Mathlib.Data.List.Perm.Basic
import Mathlib.Data.List.Nodup

/-!
# Representation of the node array as a tree (specification side and structural lemmas)
-/

namespace Edyn.DynTree

variable {S : Type} [LinearOrder S]

/-- A binary tree of node ids. -/
inductive T where
  | leaf (i : Nat)
  | node (i : Nat) (l r : T)
  deriving Repr, DecidableEq

namespace T

/-- The id of the topmost node. -/
def id : T → Nat
  | leaf i => i
  | node i _ _ => i

@[simp] theorem id_leaf (i : Nat) : (leaf i).id = i := rfl
@[simp] theorem id_node (i : Nat) (l r : T) : (node i l r).id = i := rfl

/-- All ids. -/
@[simp] def ids : T → List Nat
  | leaf i => [i]
  | node i l r => i :: (l.ids ++ r.ids)

/-- The ids of the leaves, left to right. -/
@[simp] def leaves : T → List Nat
  | leaf i => [i]
  | node _ l r => l.leaves ++ r.leaves

/-- The ids of the internal nodes. -/
@[simp] def internals : T → List Nat
  | leaf _ => []
  | node i l r => i :: (l.internals ++ r.internals)

/-- The height: a leaf has height zero. -/
@[simp] def height : T → Int
  | leaf _ => 0
  | node _ l r => max l.height r.height + 1

theorem id_mem (t : T) : t.id ∈ t.ids := by cases t <;> simp

theorem height_nonneg (t : T) : 0 ≤ t.height := by
  induction t with
  | leaf _ => simp
  | node _ l r hl hr => simp only [height]; omega

theorem leaves_sub {t : T} {x : Nat} (h : x ∈ t.leaves) : x ∈ t.ids := by
  induction t with
  | leaf _ => simpa using h
  | node i l r hl hr =>
    simp at h ⊢
    rcases h with h | h
    · exact Or.inr (Or.inl (hl h))
    · exact Or.inr (Or.inr (hr h))

theorem internals_sub {t : T} {x : Nat} (h : x ∈ t.internals) : x ∈ t.ids := by
  induction t with
  | leaf _ => simp at h
  | node i l r hl hr =>
    simp at h ⊢
    rcases h with h | h | h
    · exact Or.inl h
    · exact Or.inr (Or.inl (hl h))
    · exact Or.inr (Or.inr (hr h))

theorem ids_perm (t : T) : t.ids.Perm (t.leaves ++ t.internals) := by
  induction t with
  | leaf _ => simp
  | node i l r hl hr =>
    rw [List.perm_iff_count]
    intro x
    have h1 := hl.count_eq x
    have h2 := hr.count_eq x
    simp only [ids, leaves, internals, List.count_append, List.count_cons] at *
    omega

/-- A full binary tree has one internal node less than leaves. -/
theorem leaves_length (t : T) : t.leaves.length = t.internals.length + 1 := by
  induction t with
  | leaf _ => simp
  | node i l r hl hr => simp [hl, hr]; omega

end T

/-- One step of a path from a hole to the root: the id of the parent node, whether the hole is its
left child, and the sibling subtree. -/
structure Frame where
  id : Nat
  left : Bool
  sib : T

/-- Path from a hole to the root, innermost first. -/
abbrev Ctx := List Frame

namespace Ctx

@[simp] def plug : Ctx → T → T
  | [], t => t
  | f :: c, t => plug c (if f.left then .node f.id t f.sib else .node f.id f.sib t)

@[simp] def ids : Ctx → List Nat
  | [] => []
  | f :: c => f.id :: (f.sib.ids ++ ids c)

@[simp] def leaves : Ctx → List Nat
  | [] => []
  | f :: c => f.sib.leaves ++ leaves c

@[simp] def internals : Ctx → List Nat
  | [] => []
  | f :: c => f.id :: (f.sib.internals ++ internals c)

/-- The id of the parent of the hole. -/
def up : Ctx → Option Nat
  | [] => none
  | f :: _ => some f.id

@[simp] theorem up_nil : up [] = none := rfl
@[simp] theorem up_cons (f : Frame) (c : Ctx) : up (f :: c) = some f.id := rfl

theorem plug_ids (c : Ctx) (t : T) : (c.plug t).ids.Perm (t.ids ++ c.ids) := by
  induction c generalizing t with
  | nil => simp
  | cons f c ih =>
    obtain ⟨i, b, sib⟩ := f
    refine (ih _).trans ?_
    rw [List.perm_iff_count]
    intro x
    cases b <;> simp [List.count_append, List.count_cons] <;> omega

theorem plug_leaves (c : Ctx) (t : T) : (c.plug t).leaves.Perm (t.leaves ++ c.leaves) := by
  induction c generalizing t with
  | nil => simp
  | cons f c ih =>
    obtain ⟨i, b, sib⟩ := f
    refine (ih _).trans ?_
    rw [List.perm_iff_count]
    intro x
    cases b <;> (simp only [T.leaves, leaves, List.count_append, if_true, Bool.false_eq_true, if_false]; omega)

theorem leaves_sub {c : Ctx} {x : Nat} (h : x ∈ c.leaves) : x ∈ c.ids := by
  induction c with
  | nil => simp at h
  | cons f c ih =>
    simp at h ⊢
    rcases h with h | h
    · exact Or.inr (Or.inl (T.leaves_sub h))
    · exact Or.inr (Or.inr (ih h))

end Ctx

/-- The array contents below and including `t.id` form the tree `t`. The parent pointer of the top
node is not constrained. -/
def Rep (s : State S) : T → Prop
  | .leaf i => i < s.size ∧ s.c1 i = none ∧ s.height i = 0
  | .node i l r =>
    i < s.size ∧ s.c1 i = some l.id ∧ s.c2 i = some r.id ∧
    s.up l.id = some i ∧ s.up r.id = some i ∧
    s.box i = Box.enclosing (s.box l.id) (s.box r.id) ∧
    s.height i = max (s.height l.id) (s.height r.id) + 1 ∧ Rep s l ∧ Rep s r

/-- The array contents above the hole form the context; boxes and heights on the path are not
constrained. -/
def RepCtx (s : State S) (hole : Nat) : Ctx → Prop
  | [] => s.root = some hole
  | f :: c =>
    f.id < s.size ∧
    (if f.left then s.c1 f.id = some hole ∧ s.c2 f.id = some f.sib.id
      else s.c1 f.id = some f.sib.id ∧ s.c2 f.id = some hole) ∧
    s.up f.sib.id = some f.id ∧ Rep s f.sib ∧ s.up f.id = Ctx.up c ∧ RepCtx s f.id c

theorem Rep.lt {s : State S} {t : T} (h : Rep s t) : t.id < s.size := by
  cases t <;> exact h.1

theorem Rep.height {s : State S} {t : T} (h : Rep s t) : s.height t.id = t.height := by
  induction t with
  | leaf i => exact h.2.2
  | node i l r hl hr =>
    obtain ⟨_, _, _, _, _, _, h7, h8, h9⟩ := h
    simp [h7, hl h8, hr h9]

theorem Rep.congr {s s' : State S} {t : T} (hnd : t.ids.Nodup) (hsz : s.size ≤ s'.size)
    (hc1 : ∀ j ∈ t.ids, s'.c1 j = s.c1 j) (hc2 : ∀ j ∈ t.ids, j ∈ t.internals → s'.c2 j = s.c2 j)
    (hbox : ∀ j ∈ t.ids, s'.box j = s.box j) (hh : ∀ j ∈ t.ids, s'.height j = s.height j)
    (hup : ∀ j ∈ t.ids, j ≠ t.id → s'.up j = s.up j) (h : Rep s t) : Rep s' t := by
  induction t with
  | leaf i =>
    obtain ⟨h1, h2, h3⟩ := h
    refine ⟨by omega, ?_, ?_⟩
    · rw [hc1 i (by simp), h2]
    · rw [hh i (by simp), h3]
  | node i l r hl hr =>
    obtain ⟨h1, h2, h3, h4, h5, h6, h7, h8, h9⟩ := h
    simp only [T.ids, List.nodup_cons, List.mem_append, List.nodup_append, T.internals,
      List.mem_cons, T.id_node] at *
    obtain ⟨hn1, hn2, hn3, hn4⟩ := hnd
    have il := l.id_mem
    have ir := r.id_mem
    have hli : l.id ≠ i := fun e => hn1 (Or.inl (e ▸ il))
    have hri : r.id ≠ i := fun e => hn1 (Or.inr (e ▸ ir))
    refine ⟨by omega, ?_, ?_, ?_, ?_, ?_, ?_, ?_, ?_⟩
    · rw [hc1 i (Or.inl rfl), h2]
    · rw [hc2 i (Or.inl rfl) (Or.inl rfl), h3]
    · rw [hup _ (Or.inr (Or.inl il)) hli, h4]
    · rw [hup _ (Or.inr (Or.inr ir)) hri, h5]
    · rw [hbox i (Or.inl rfl), hbox _ (Or.inr (Or.inl il)), hbox _ (Or.inr (Or.inr ir)), h6]
    · rw [hh i (Or.inl rfl), hh _ (Or.inr (Or.inl il)), hh _ (Or.inr (Or.inr ir)), h7]
    · refine hl hn2 (fun j hj => hc1 j (Or.inr (Or.inl hj)))
        (fun j hj hj' => hc2 j (Or.inr (Or.inl hj)) (Or.inr (Or.inl hj')))
        (fun j hj => hbox j (Or.inr (Or.inl hj)))
        (fun j hj => hh j (Or.inr (Or.inl hj))) (fun j hj _ => hup j (Or.inr (Or.inl hj)) ?_) h8
      rintro rfl
      exact hn1 (Or.inl hj)
    · refine hr hn3 (fun j hj => hc1 j (Or.inr (Or.inr hj)))
        (fun j hj hj' => hc2 j (Or.inr (Or.inr hj)) (Or.inr (Or.inr hj')))
        (fun j hj => hbox j (Or.inr (Or.inr hj)))
        (fun j hj => hh j (Or.inr (Or.inr hj))) (fun j hj _ => hup j (Or.inr (Or.inr hj)) ?_) h9
      rintro rfl
      exact hn1 (Or.inr hj)

/-- `s'` agrees with `s` at `j`, in all fields. -/
def Same (s s' : State S) (j : Nat) : Prop :=
  s'.up j = s.up j ∧ s'.c1 j = s.c1 j ∧ s'.c2 j = s.c2 j ∧ s'.box j = s.box j ∧
  s'.height j = s.height j

theorem Rep.same {s s' : State S} {t : T} (hnd : t.ids.Nodup) (hsz : s.size ≤ s'.size)
    (hs : ∀ j ∈ t.ids, Same s s' j) (h : Rep s t) : Rep s' t :=
  Rep.congr hnd hsz (fun j hj => (hs j hj).2.1) (fun j hj _ => (hs j hj).2.2.1)
    (fun j hj => (hs j hj).2.2.2.1) (fun j hj => (hs j hj).2.2.2.2) (fun j hj _ => (hs j hj).1) h

theorem RepCtx.same {s s' : State S} {c : Ctx} {hole : Nat} (hnd : c.ids.Nodup)
    (hsz : s.size ≤ s'.size) (hroot : s'.root = s.root)
    (hs : ∀ j ∈ c.ids, Same s s' j) (h : RepCtx s hole c) : RepCtx s' hole c := by
  induction c generalizing hole with
  | nil => simpa [RepCtx, hroot] using h
  | cons f c ih =>
    obtain ⟨h1, h2, h3, h4, h5, h6⟩ := h
    simp only [Ctx.ids, List.nodup_cons, List.mem_append, List.nodup_append, List.mem_cons] at hnd hs
    obtain ⟨hn1, hn2, hn3, hn4⟩ := hnd
    have sf := hs f.id (Or.inl rfl)
    refine ⟨by omega, ?_, ?_, ?_, ?_, ih hn3 (fun j hj => hs j (Or.inr (Or.inr hj))) h6⟩
    · rw [sf.2.1, sf.2.2.1]; exact h2
    · rw [(hs _ (Or.inr (Or.inl f.sib.id_mem))).1]; exact h3
    · exact Rep.same hn2 hsz (fun j hj => hs j (Or.inr (Or.inl hj))) h4
    · rw [sf.1]; exact h5

/-- Splitting a represented tree at a position. -/
theorem Rep.split {s : State S} {c : Ctx} {u : T} (h : Rep s (c.plug u))
    (hr : s.root = some (c.plug u).id) (hu : s.up (c.plug u).id = none) :
    Rep s u ∧ RepCtx s u.id c ∧ s.up u.id = c.up := by
  induction c generalizing u with
  | nil => exact ⟨h, hr, hu⟩
  | cons f c ih =>
    obtain ⟨i, b, sib⟩ := f
    obtain ⟨h1, h2, h3⟩ := ih h hr hu
    cases b
    · obtain ⟨k1, k2, k3, k4, k5, k6, k7, k8, k9⟩ := h1
      refine ⟨k9, ⟨k1, ?_, k4, k8, h3, h2⟩, k5⟩
      simp [k2, k3]
    · obtain ⟨k1, k2, k3, k4, k5, k6, k7, k8, k9⟩ := h1
      refine ⟨k8, ⟨k1, ?_, k5, k9, h3, h2⟩, k4⟩
      simp [k2, k3]

/-- Every leaf has a position. -/
theorem exists_ctx_leaf {t : T} {i : Nat} (h : i ∈ t.leaves) :
    ∃ c : Ctx, t = c.plug (.leaf i) := by
  suffices hk : ∀ (t : T) (i : Nat) (c : Ctx), i ∈ t.leaves →
      ∃ c' : Ctx, c.plug t = c'.plug (.leaf i) by
    exact hk t i [] h
  intro t
  induction t with
  | leaf j =>
    intro i c h
    simp at h
    exact ⟨c, by rw [h]⟩
  | node j l r hl hr =>
    intro i c h
    simp at h
    rcases h with h | h
    · exact hl i (⟨j, true, r⟩ :: c) h
    · exact hr i (⟨j, false, l⟩ :: c) h

/-- The free list starting at a pointer. -/
def FreeChain (s : State S) : Option Nat → List Nat → Prop
  | p, [] => p = none
  | p, i :: l => p = some i ∧ i < s.size ∧ FreeChain s (s.up i) l

omit [LinearOrder S] in
theorem FreeChain.congr {s s' : State S} {p : Option Nat} {l : List Nat} (h : FreeChain s p l)
    (hsz : s.size ≤ s'.size) (hs : ∀ j ∈ l, s'.up j = s.up j) : FreeChain s' p l := by
  induction l generalizing p with
  | nil => exact h
  | cons i l ih =>
    obtain ⟨h1, h2, h3⟩ := h
    refine ⟨h1, by omega, ?_⟩
    rw [hs i (by simp)]
    exact ih h3 (fun j hj => hs j (by simp [hj]))

end Edyn.DynTree
