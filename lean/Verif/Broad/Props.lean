import Mathlib.Algebra.Order.Group.Basic
import Verif.Broad.Pairs

/-!
# C89: the pairs of bodies handed to narrow collision detection
-/

namespace Edyn.Broad

open Edyn.DynTree (upd upd_same upd_apply Params Live Good)

variable {S : Type} [LinearOrder S] [AddCommGroup S]

/-! ## Specification -/

/-- In every coordinate the two ranges are at most `k` apart. -/
def Within (k : S) (a b : Box S) : Prop :=
  (a.min.x - k ≤ b.max.x ∧ b.min.x ≤ a.max.x + k) ∧
  (a.min.y - k ≤ b.max.y ∧ b.min.y ≤ a.max.y + k) ∧
  (a.min.z - k ≤ b.max.z ∧ b.min.z ≤ a.max.z + k)

/-- `A` is an awake dynamic body, neither body is disabled, the filter lets them collide and their
AABBs are within the contact breaking threshold. -/
def Meets (C : Config S) (w : World S) (A B : Nat) : Prop :=
  w.kind A = .dynamic ∧ w.asleep A = false ∧ w.off A = false ∧ w.off B = false ∧
    C.collides A B = true ∧
    ∃ a b, w.aabb A = some a ∧ w.aabb B = some b ∧ Within C.near a b

/-- The manifold `i` is left alone: it is asleep or disabled, or the AABBs of its bodies are within
the separation threshold. -/
def Stays (C : Config S) (w : World S) (i x y : Nat) : Prop :=
  w.idle i = true ∨ ∃ a b, w.aabb x = some a ∧ w.aabb y = some b ∧ Within C.apart a b

/-- There is a contact manifold between the two bodies. -/
def Paired (w : World S) (x y : Nat) : Prop :=
  ∃ i, w.map.manifolds.get? i = some (x, y) ∨ w.map.manifolds.get? i = some (y, x)

/-- The lists of entities of the three loops contain every body with an AABB. -/
def Complete (w : World S) (o1 o2 o3 : List Nat) : Prop :=
  ∀ e, w.aabb e ≠ none → e ∈ o1 ∧ e ∈ o2 ∧ e ∈ o3

/-- The operations as the library's other modules make them: an AABB is not added to an entity that
still waits in the list of new ones, and it is not removed from a body that has a manifold (see the
findings for what happens otherwise); an update visits every body. -/
def Proper (w : World S) : Op S → Prop
  | .addAabb e _ => e ∉ w.fresh
  | .removeAabb e => ∀ o, ¬Paired w e o
  | .update _ o1 o2 o3 => Complete w o1 o2 o3
  | _ => True

/-- The box with which the trees know a body, as a program can tell: the AABB at the moment it was
taken in, moved from one tree to the other, or visited by an update while awake and not static. -/
def note (w : World S) (seen : Nat → Option (Box S)) : Op S → Nat → Option (Box S)
  | .removeAabb e => upd seen e none
  | .setKind e k =>
    if seen e ≠ none ∧ (w.kind e).procedural ≠ k.procedural then upd seen e (w.aabb e) else seen
  | .enrollNew => fun e => if seen e = none then w.aabb e else seen e
  | .update .. => fun e =>
    if w.kind e ≠ .static ∧ w.asleep e = false ∧ w.off e = false then w.aabb e
    else if seen e = none then w.aabb e else seen e
  | _ => seen

/-- The histories of operations. -/
inductive Reach (C : Config S) : World S → (Nat → Option (Box S)) → Prop where
  | init (b : Box S) : Reach C (init b) (fun _ => none)
  | step {w w' seen} (o : Op S) : Reach C w seen → Proper w o → step C w o = some w' →
      Reach C w' (note w seen o)

/-! ## Proofs -/

theorem grow_overlaps (k : S) (a b : Box S) : (grow k a).Overlaps b ↔ Within k a b := by
  simp [grow, Box.Overlaps, Within, sub_eq_add_neg]

theorem flatMap_foldlM {α β γ : Type} (f : β → List γ) (g : α → γ → Option α) :
    ∀ (l : List β) (a : α),
    l.foldlM (fun a x => (f x).foldlM g a) a = (l.flatMap f).foldlM g a := by
  intro l
  induction l with
  | nil => intro a; rfl
  | cons x l ih =>
    intro a
    rw [List.flatMap_cons, List.foldlM_append, List.foldlM_cons]
    congr 1
    funext a'
    exact ih a'

/-- The pairs found for one body, in both trees. -/
def allHits (C : Config S) (w : World S) (x : Nat × Box S) : List (Nat × Nat) :=
  hits C w (w.tree true) x.1 (grow C.near x.2)
      ((DynTree.query (w.tree true) (grow C.near x.2)).getD []) ++
    hits C w (w.tree false) x.1 (grow C.near x.2)
      ((DynTree.query (w.tree false) (grow C.near x.2)).getD [])

theorem seek_eq (C : Config S) {w : World S} {L : Bool → Live S} {seen : Nat → Option (Box S)}
    (h : TreeInv w L seen) (m : Made) (x : Nat × Box S) :
    seek C w m x = (allHits C w x).foldlM (finishOne w) m := by
  obtain ⟨e, b⟩ := x
  obtain ⟨i1, h1, -, h2, -⟩ := query_bodies h true (grow C.near b)
  obtain ⟨i2, h3, -, h4, -⟩ := query_bodies h false (grow C.near b)
  have e1 : ∀ id ∈ i1, ∃ o b, (w.tree true).c2 id = some o ∧ w.aabb o = some b := by
    intro id hid; obtain ⟨o, b, h5, h6, -⟩ := h2 id hid; exact ⟨o, b, h5, h6⟩
  have e2 : ∀ id ∈ i2, ∃ o b, (w.tree false).c2 id = some o ∧ w.aabb o = some b := by
    intro id hid; obtain ⟨o, b, h5, h6, -⟩ := h4 id hid; exact ⟨o, b, h5, h6⟩
  simp only [seek, collideTree, allHits, h1, h3, Option.bind_some, Option.getD_some,
    List.foldlM_append]
  rw [hit_list C w _ e _ i1 m e1]
  change _ = Option.bind _ _
  congr 1
  funext m'
  exact hit_list C w _ e _ i2 m' e2

theorem seekAsync_eq (C : Config S) {w : World S} {L : Bool → Live S}
    {seen : Nat → Option (Box S)} (h : TreeInv w L seen) (x : Nat × Box S) :
    seekAsync C w x = some (allHits C w x) := by
  obtain ⟨e, b⟩ := x
  obtain ⟨i1, h1, -, h2, -⟩ := query_bodies h true (grow C.near b)
  obtain ⟨i2, h3, -, h4, -⟩ := query_bodies h false (grow C.near b)
  have e1 : ∀ id ∈ i1, ∃ o b, (w.tree true).c2 id = some o ∧ w.aabb o = some b := by
    intro id hid; obtain ⟨o, b, h5, h6, -⟩ := h2 id hid; exact ⟨o, b, h5, h6⟩
  have e2 : ∀ id ∈ i2, ∃ o b, (w.tree false).c2 id = some o ∧ w.aabb o = some b := by
    intro id hid; obtain ⟨o, b, h5, h6, -⟩ := h4 id hid; exact ⟨o, b, h5, h6⟩
  simp only [seekAsync, collideTreeAsync, allHits, h1, h3, Option.bind_some, Option.getD_some]
  rw [hitAsync_list C w _ e _ i1 [] e1, Option.bind_some, hitAsync_list C w _ e _ i2 _ e2]
  simp

theorem mapM_some' {α β : Type} (f : α → Option β) (g : α → β) : ∀ (l : List α),
    (∀ x, f x = some (g x)) → l.mapM f = some (l.map g) := by
  intro l h
  induction l with
  | nil => rfl
  | cons x l ih => simp [List.mapM_cons, h x, ih]

theorem seekers_mem {w : World S} {o : List Nat} {e : Nat} {b : Box S} :
    (e, b) ∈ seekers w o ↔ e ∈ o ∧ w.kind e = .dynamic ∧ awake w e = true ∧ w.aabb e = some b := by
  simp only [seekers, List.mem_filterMap]
  constructor
  · rintro ⟨f, hf, hh⟩
    split at hh
    · rename_i hc
      cases ha : w.aabb f with
      | none => simp [ha] at hh
      | some c =>
        simp only [ha, Option.map_some, Option.some.injEq, Prod.mk.injEq] at hh
        obtain ⟨rfl, rfl⟩ := hh
        refine ⟨hf, ?_, hc.2, ha⟩
        cases hk : w.kind f <;> simp_all [Kind.procedural]
    · cases hh
  · rintro ⟨h1, h2, h3, h4⟩
    exact ⟨e, h1, by simp [h2, h3, h4, Kind.procedural]⟩

theorem mem_hits {C : Config S} {w : World S} {t : DynTree.State S} {e : Nat} {box : Box S}
    {ids : List Nat} {p : Nat × Nat} :
    p ∈ hits C w t e box ids ↔ p.1 = e ∧ C.collides e p.2 = true ∧ w.off p.2 = false ∧
      (∃ b, w.aabb p.2 = some b ∧ box.Overlaps b) ∧ ∃ id ∈ ids, t.c2 id = some p.2 := by
  obtain ⟨x, y⟩ := p
  simp only [hits, List.mem_filterMap]
  constructor
  · rintro ⟨id, hid, hh⟩
    cases hc : t.c2 id with
    | none => simp [hc] at hh
    | some o =>
      simp only [hc, Option.bind_some] at hh
      split at hh
      · rename_i hcond
        simp only [Option.some.injEq, Prod.mk.injEq] at hh
        obtain ⟨rfl, rfl⟩ := hh
        cases ha : w.aabb o with
        | none => simp [ha] at hcond
        | some b =>
          simp only [ha, Option.any_some, Bool.and_eq_true, Bool.not_eq_true'] at hcond
          exact ⟨rfl, hcond.1.1, hcond.1.2, ⟨b, rfl, (Box.intersect_iff _ _).1 hcond.2⟩, id, hid, hc⟩
      · cases hh
  · rintro ⟨rfl, h1, h2, ⟨b, h3, h4⟩, id, h5, h6⟩
    refine ⟨id, h5, ?_⟩
    simp [h6, h1, h2, h3, (Box.intersect_iff _ _).2 h4]

/-- What the search for pairs does, sequentially or in parallel. -/
theorem search_spec (C : Config S) {w : World S} {L : Bool → Live S}
    {seen : Nat → Option (Box S)} (h : TreeInv w L seen) (hf : w.fresh = [])
    (hm : MapInv w.aabb (w.map, w.next)) (o : List Nat) (ho : ∀ e, w.aabb e ≠ none → e ∈ o) :
    ∃ m, (seekers w o).foldlM (seek C w) (w.map, w.next) = some m ∧
      collideParallel C w (seekers w o) (w.map, w.next) = some m ∧ MapInv w.aabb m ∧
      (∀ i p, w.map.manifolds.get? i = some p → m.1.manifolds.get? i = some p) ∧
      (∀ i x y, m.1.manifolds.get? i = some (x, y) →
        w.map.manifolds.get? i = some (x, y) ∨ Meets C w x y ∧ w.next ≤ i) ∧
      ∀ A B, Meets C w A B → seen B = w.aabb B →
        ∃ i, m.1.manifolds.get? i = some (A, B) ∨ m.1.manifolds.get? i = some (B, A) := by
  have hseq : (seekers w o).foldlM (seek C w) (w.map, w.next) =
      ((seekers w o).flatMap (allHits C w)).foldlM (finishOne w) (w.map, w.next) := by
    rw [← flatMap_foldlM]
    exact foldlM_congr _ _ fun a x _ => seek_eq C h a x
  have hpar : collideParallel C w (seekers w o) (w.map, w.next) =
      ((seekers w o).flatMap (allHits C w)).foldlM (finishOne w) (w.map, w.next) := by
    rw [collideParallel, mapM_some' _ (allHits C w) _ (seekAsync_eq C h), Option.bind_some,
      List.foldlM_map, ← flatMap_foldlM]
  have hmem : ∀ p, p ∈ (seekers w o).flatMap (allHits C w) → Meets C w p.1 p.2 := by
    intro p hp
    obtain ⟨⟨e, a⟩, he, hp⟩ := List.mem_flatMap.1 hp
    obtain ⟨-, h2, h3, h4⟩ := seekers_mem.1 he
    have hh : p.1 = e ∧ C.collides e p.2 = true ∧ w.off p.2 = false ∧
        ∃ b, w.aabb p.2 = some b ∧ (grow C.near a).Overlaps b := by
      rcases List.mem_append.1 hp with h5 | h5 <;>
      · obtain ⟨h6, h7, h8, h9, -⟩ := mem_hits.1 h5
        exact ⟨h6, h7, h8, h9⟩
    obtain ⟨rfl, h6, h7, b, h8, h9⟩ := hh
    simp only [awake, Bool.and_eq_true, Bool.not_eq_true'] at h3
    exact ⟨h2, h3.1, h3.2, h7, h6, a, b, h4, h8, (grow_overlaps _ _ _).1 h9⟩
  obtain ⟨m, h1, h2, h3, h4, h5⟩ := finish_spec w ((seekers w o).flatMap (allHits C w))
    (w.map, w.next) hm (by
      intro p hp
      obtain ⟨k1, -, -, -, -, a, b, k2, k3, -⟩ := hmem p hp
      exact ⟨k1, by simp [k2], by simp [k3]⟩)
  refine ⟨m, hseq.trans h1, hpar.trans h1, h2, h3, ?_, ?_⟩
  · intro i x y hx
    exact (h4 i (x, y) hx).imp id fun hh => ⟨hmem (x, y) hh.1, hh.2⟩
  · rintro A B ⟨k1, k2, k3, k4, k5, a, b, k6, k7, k8⟩ hs
    have hov := (grow_overlaps _ _ _).2 k8
    have hsk : (A, a) ∈ seekers w o :=
      seekers_mem.2 ⟨ho A (by simp [k6]), k1, by simp [awake, k2, k3], k6⟩
    obtain ⟨⟨id, p⟩, hr⟩ : ∃ x, w.resident B = some x := by
      rcases h.enrolled B (by simp [k7]) with h6 | h6
      · exact Option.ne_none_iff_exists'.1 h6
      · rw [hf] at h6; simp at h6
    obtain ⟨ids, q1, -, -, q2⟩ := query_bodies h p (grow C.near a)
    have hsw : b.Overlaps (grow C.near a) := by
      rw [← Box.intersect_iff, Box.intersect_comm, Box.intersect_iff]; exact hov
    obtain ⟨q3, q4⟩ := q2 B id b hr (hs.trans k7) hsw
    have hin : (A, B) ∈ allHits C w (A, a) := by
      have : (A, B) ∈ hits C w (w.tree p) A (grow C.near a)
          ((DynTree.query (w.tree p) (grow C.near a)).getD []) := by
        rw [mem_hits]
        exact ⟨rfl, k5, k4, ⟨b, k7, hov⟩, id, by rw [q1]; exact q3, q4⟩
      cases p with
      | true => exact List.mem_append_left _ this
      | false => exact List.mem_append_right _ this
    have hc := h5 (A, B) (List.mem_flatMap.2 ⟨(A, a), hsk, hin⟩)
    exact (contains_iff h2.map A B).1 hc

theorem stays_iff {C : Config S} {w : World S} (h : MapInv w.aabb (w.map, w.next)) {i x y : Nat}
    (hi : w.map.manifolds.get? i = some (x, y)) :
    ¬(w.idle i = false ∧ Apart w C.apart x y) ↔ Stays C w i x y := by
  obtain ⟨h5, h6⟩ := h.boxes i x y hi
  obtain ⟨a0, ha0⟩ := Option.ne_none_iff_exists'.1 h5
  obtain ⟨a1, ha1⟩ := Option.ne_none_iff_exists'.1 h6
  simp only [Apart, Stays, ha0, ha1, grow_overlaps]
  cases hx : w.idle i <;> simp

/-- What `update` does. -/
theorem update_spec (C : Config S) {w : World S} {L : Bool → Live S}
    {seen : Nat → Option (Box S)} (h : TreeInv w L seen) (hm : MapInv w.aabb (w.map, w.next))
    {o1 o2 o3 : List Nat} (ho : Complete w o1 o2 o3) :
    ∃ w' L', (∀ mt, update C mt o1 o2 o3 w = some w') ∧
      TreeInv w' L' (note w seen (.update true o1 o2 o3)) ∧ MapInv w'.aabb (w'.map, w'.next) ∧
      (w'.aabb = w.aabb ∧ w'.kind = w.kind ∧ w'.asleep = w.asleep ∧ w'.off = w.off ∧
        w'.idle = w.idle ∧ w'.fresh = []) ∧
      (∀ i x y, w.map.manifolds.get? i = some (x, y) → Stays C w i x y →
        w'.map.manifolds.get? i = some (x, y)) ∧
      (∀ i x y, w'.map.manifolds.get? i = some (x, y) →
        (w.map.manifolds.get? i = some (x, y) ∧ Stays C w i x y) ∨ Meets C w x y ∧ w.next ≤ i) ∧
      ∀ A B, Meets C w A B → note w seen (.update true o1 o2 o3) B = w.aabb B → Paired w' A B := by
  obtain ⟨t1, r1, L1, a1, a2⟩ := enrollNew_inv C.tree h
  obtain ⟨m2, b1, b2, b3⟩ := dropSeparated_spec C
    { w with tree := t1, resident := r1, fresh := [] } hm
  have a2' : TreeInv { w with tree := t1, resident := r1, fresh := [], map := m2 } L1
      (noteNew w seen) :=
    ⟨a2.good, a2.res, a2.live, a2.has, a2.enrolled, a2.fresh, a2.nodup, a2.unseen⟩
  obtain ⟨t3, L3, c1, c2⟩ := moveAabbs_inv C.tree a2' rfl o1 o2 (fun e he => (ho e he).1)
    (fun e he => (ho e he).2.1)
  have hnote : noteMoved { w with tree := t1, resident := r1, fresh := [], map := m2 }
      (noteNew w seen) = note w seen (.update true o1 o2 o3) := by
    funext e
    simp only [noteMoved, noteNew, note, awake, Bool.and_eq_true, Bool.not_eq_true']
  rw [hnote] at c2
  obtain ⟨m, d1, d2, d3, d4, d5, d6⟩ := search_spec C c2 rfl b2 o3 fun e he => (ho e he).2.2
  refine ⟨{ w with tree := t3, resident := r1, fresh := [], map := m.1, next := m.2 }, L3, ?_,
    ⟨c2.good, c2.res, c2.live, c2.has, c2.enrolled, c2.fresh, c2.nodup, c2.unseen⟩, d3,
    ⟨rfl, rfl, rfl, rfl, rfl, rfl⟩, ?_, ?_, ?_⟩
  · intro mt
    simp only [update, a1, b1, c1, Option.bind_some]
    split
    · rw [d2]; rfl
    · rw [d1]; rfl
  · intro i x y hi hst
    exact d4 i (x, y) ((b3 i x y).2 ⟨hi, (stays_iff hm hi).2 hst⟩)
  · intro i x y hi
    rcases d5 i x y hi with h1 | h1
    · obtain ⟨h2, h3⟩ := (b3 i x y).1 h1
      exact Or.inl ⟨h2, (stays_iff hm h2).1 h3⟩
    · exact Or.inr h1
  · intro A B hAB hs
    exact d6 A B hAB hs

theorem mapInv_destroy {aabb : Nat → Option (Box S)} {m m' : ManifoldMap.State} {n i : Nat}
    (h : MapInv aabb (m, n)) (hd : ManifoldMap.destroy m i = some m') : MapInv aabb (m', n) := by
  have hI := ManifoldMap.inv_destroy h.map hd
  unfold ManifoldMap.destroy at hd
  split at hd
  · cases hd
  · cases hd
    refine ⟨hI, AMap.wf_erase h.wf _, ?_, ?_⟩
    · intro j p hj
      simp only [AMap.get?_erase] at hj
      split at hj
      · cases hj
      · exact h.lt j p hj
    · intro j b0 b1 hj
      simp only [AMap.get?_erase] at hj
      split at hj
      · cases hj
      · exact h.boxes j b0 b1 hj

theorem mapInv_swap {aabb : Nat → Option (Box S)} {m m' : ManifoldMap.State} {n i : Nat}
    (h : MapInv aabb (m, n)) (hd : ManifoldMap.swap m i = some m') : MapInv aabb (m', n) := by
  have hI := ManifoldMap.inv_swap h.map hd
  unfold ManifoldMap.swap at hd
  split at hd
  · cases hd
  · rename_i c0 c1 hc
    cases hd
    refine ⟨hI, AMap.wf_set h.wf _ _, ?_, ?_⟩
    · intro j p hj
      simp only [AMap.get?_set] at hj
      split at hj
      · rename_i hji; rw [hji]; exact h.lt i _ hc
      · exact h.lt j p hj
    · intro j b0 b1 hj
      simp only [AMap.get?_set] at hj
      split at hj
      · cases hj; exact (h.boxes i c0 c1 hc).symm
      · exact h.boxes j b0 b1 hj

theorem setProcedural_inv (P : Params S) {w : World S} {L : Bool → Live S}
    {seen : Nat → Option (Box S)} (h : TreeInv w L seen) (e : Nat) (k : Kind) :
    ∃ t r L', setProcedural P { w with kind := upd w.kind e k } e k.procedural =
        some { w with kind := upd w.kind e k, tree := t, resident := r } ∧
      TreeInv { w with kind := upd w.kind e k, tree := t, resident := r } L'
        (note w seen (.setKind e k)) := by
  have hother : ∀ f id p, w.resident f = some (id, p) → f ≠ e →
      w.aabb f ≠ none ∧ p = (upd w.kind e k f).procedural := by
    intro f id p hf hne
    simpa [upd_apply, hne] using h.has f id p hf
  cases hr : w.resident e with
  | none =>
    have hs := h.unseen e hr
    refine ⟨w.tree, w.resident, L, ?_, ?_⟩
    · simp only [setProcedural, hr]
      cases w.aabb e <;> rfl
    · simp only [note, hs, ne_eq, not_true_eq_false, false_and, if_false]
      refine ⟨h.good, h.res, h.live, ?_, h.enrolled, h.fresh, h.nodup, h.unseen⟩
      intro f id p hf
      have hne : f ≠ e := by
        rintro rfl
        have hf' : w.resident f = some (id, p) := hf
        rw [hr] at hf'; cases hf'
      exact hother f id p hf hne
  | some x =>
    obtain ⟨id, q⟩ := x
    obtain ⟨hne, hq⟩ := h.has e id q hr
    obtain ⟨b, hb⟩ := Option.ne_none_iff_exists'.1 hne
    obtain ⟨b0, -, hs⟩ := h.res e id q hr
    by_cases hp : q = k.procedural
    · refine ⟨w.tree, w.resident, L, by simp [setProcedural, hr, hb, hp], ?_⟩
      have : (w.kind e).procedural = k.procedural := hq.symm.trans hp
      simp only [note, this, ne_eq, not_true_eq_false, and_false, if_false]
      refine ⟨h.good, h.res, h.live, ?_, h.enrolled, h.fresh, h.nodup, h.unseen⟩
      intro f id' p hf
      by_cases hfe : f = e
      · subst hfe
        have hf' : w.resident f = some (id', p) := hf
        rw [hr] at hf'
        simp only [Option.some.injEq, Prod.mk.injEq] at hf'
        refine ⟨hne, ?_⟩
        simp [← hf'.2, hp]
      · exact hother f id' p hf hfe
    · obtain ⟨t1, L1, c1, c2, c3, c4⟩ := destroy_inv h.good h.res h.live hr
      obtain ⟨id2, t2, L2, d1, d2, d3, d4⟩ := create_inv P
        (w := { w with tree := Function.update w.tree q t1, resident := upd w.resident e none })
        c2 c3 c4 (e := e) (by simp) b k.procedural
      have hk : (w.kind e).procedural ≠ k.procedural := by rw [← hq]; exact hp
      have hupd : ∀ {α : Type} (f : Nat → Option α) (v v' : Option α),
          upd (upd f e v) e v' = upd f e v' := by
        intro α f v v'
        funext j
        simp only [upd_apply]
        split <;> rfl
      refine ⟨Function.update (Function.update w.tree q t1) k.procedural t2,
        upd w.resident e (some (id2, k.procedural)), L2, ?_, ?_⟩
      · simp only [setProcedural, hr, hb, if_neg hp, c1, Option.bind_some]
        rw [show DynTree.create P (Function.update w.tree q t1 k.procedural) b (some e) =
          some (id2, t2) from d1]
        rfl
      · have hn : note w seen (.setKind e k) = upd seen e (some b) := by
          simp [note, hs, hk, hb]
        rw [hn]
        simp only [hupd] at d3 d4
        refine ⟨d2, d3, d4, ?_, ?_, ?_, h.nodup, ?_⟩
        · intro f id' p hf
          by_cases hfe : f = e
          · subst hfe
            simp only [upd_same, Option.some.injEq, Prod.mk.injEq] at hf ⊢
            exact ⟨hne, hf.2.symm⟩
          · simp only [upd_apply, hfe, if_false] at hf
            exact hother f id' p hf hfe
        · intro f hf
          by_cases hfe : f = e
          · subst hfe; exact Or.inl (by simp)
          · exact (h.enrolled f hf).imp (by simp [upd_apply, hfe]) fun hh => hh
        · intro f hf
          have : f ≠ e := by
            rintro rfl
            have := h.fresh f hf
            rw [hr] at this; cases this
          simpa [upd_apply, this] using h.fresh f hf
        · intro f hf
          by_cases hfe : f = e
          · subst hfe; simp at hf
          · simp only [upd_apply, hfe, if_false] at hf ⊢
            exact h.unseen f hf

theorem step_inv (C : Config S) {w w' : World S} {L : Bool → Live S}
    {seen : Nat → Option (Box S)} (h : TreeInv w L seen) (hm : MapInv w.aabb (w.map, w.next))
    (o : Op S) (hp : Proper w o) (hs : step C w o = some w') :
    ∃ L', TreeInv w' L' (note w seen o) ∧ MapInv w'.aabb (w'.map, w'.next) := by
  cases o with
  | addAabb e b =>
    simp only [step, addAabb] at hs
    cases ha : w.aabb e with
    | some c => simp [ha] at hs
    | none =>
      simp only [ha, Option.some.injEq] at hs
      subst hs
      have hr : w.resident e = none := by
        cases hr : w.resident e with
        | none => rfl
        | some x => exact absurd ha (h.has e x.1 x.2 hr).1
      refine ⟨L, ⟨h.good, h.res, h.live, ?_, ?_, ?_, ?_, h.unseen⟩, ⟨hm.map, hm.wf, hm.lt, ?_⟩⟩
      · intro f id p hf
        obtain ⟨h1, h2⟩ := h.has f id p hf
        refine ⟨?_, h2⟩
        simp only [upd_apply]
        split <;> simp [h1]
      · intro f hf
        by_cases hfe : f = e
        · exact Or.inr (by simp [hfe])
        · simp only [upd_apply, hfe, if_false] at hf
          exact (h.enrolled f hf).imp id (by intro hh; simp [hh])
      · intro f hf
        rcases List.mem_append.1 hf with h1 | h1
        · exact h.fresh f h1
        · simp only [List.mem_singleton] at h1; rw [h1]; exact hr
      · have : e ∉ w.fresh := hp
        show (w.fresh ++ [e]).Nodup
        rw [List.nodup_append]
        refine ⟨h.nodup, by simp, ?_⟩
        intro a ha1 b hb
        simp only [List.mem_singleton] at hb
        rintro rfl
        exact this (hb ▸ ha1)
      · intro i b0 b1 hi
        obtain ⟨h1, h2⟩ := hm.boxes i b0 b1 hi
        simp only [upd_apply]
        constructor <;> split <;> simp [h1, h2]
  | removeAabb e =>
    simp only [step, removeAabb] at hs
    have hno : ∀ i b0 b1, w.map.manifolds.get? i = some (b0, b1) → b0 ≠ e ∧ b1 ≠ e := by
      intro i b0 b1 hi
      constructor
      · rintro rfl; exact hp b1 ⟨i, Or.inl hi⟩
      · rintro rfl; exact hp b0 ⟨i, Or.inr hi⟩
    cases ha : w.aabb e with
    | none => simp [ha] at hs
    | some c =>
      cases hr : w.resident e with
      | none =>
        simp only [ha, hr, Option.some.injEq] at hs
        subst hs
        have hse : upd seen e none = seen := by
          funext f
          rw [upd_apply]
          split
          · rename_i hf; rw [hf]; exact (h.unseen e hr).symm
          · rfl
        refine ⟨L, ?_, ⟨hm.map, hm.wf, hm.lt, ?_⟩⟩
        · simp only [note, hse]
          refine ⟨h.good, h.res, h.live, ?_, ?_, h.fresh, h.nodup, h.unseen⟩
          · intro f id p hf
            obtain ⟨h1, h2⟩ := h.has f id p hf
            have : f ≠ e := by
              rintro rfl
              have hf' : w.resident f = some (id, p) := hf
              rw [hr] at hf'; cases hf'
            exact ⟨by simpa [upd_apply, this] using h1, h2⟩
          · intro f hf
            have : f ≠ e := by rintro rfl; simp at hf
            simp only [upd_apply, this, if_false] at hf
            exact h.enrolled f hf
        · intro i b0 b1 hi
          obtain ⟨h1, h2⟩ := hno i b0 b1 hi
          simpa [upd_apply, h1, h2] using hm.boxes i b0 b1 hi
      | some x =>
        obtain ⟨id, p⟩ := x
        obtain ⟨t, L', c1, c2, c3, c4⟩ := destroy_inv h.good h.res h.live hr
        simp only [ha, hr, c1, Option.map_some, Option.some.injEq] at hs
        subst hs
        refine ⟨L', ⟨c2, c3, c4, ?_, ?_, ?_, h.nodup, ?_⟩, ⟨hm.map, hm.wf, hm.lt, ?_⟩⟩
        · intro f id' q hf
          have : f ≠ e := by rintro rfl; simp at hf
          simp only [upd_apply, this, if_false] at hf ⊢
          exact h.has f id' q hf
        · intro f hf
          have : f ≠ e := by rintro rfl; simp at hf
          simp only [upd_apply, this, if_false] at hf ⊢
          exact h.enrolled f hf
        · intro f hf
          have : f ≠ e := by
            rintro rfl
            have := h.fresh f hf
            rw [hr] at this; cases this
          simpa [upd_apply, this] using h.fresh f hf
        · intro f hf
          simp only [note, upd_apply] at hf ⊢
          split
          · rfl
          · rename_i hfe
            rw [if_neg hfe] at hf
            exact h.unseen f hf
        · intro i b0 b1 hi
          obtain ⟨h1, h2⟩ := hno i b0 b1 hi
          simpa [upd_apply, h1, h2] using hm.boxes i b0 b1 hi
  | setAabb e b =>
    simp only [step, setAabb] at hs
    cases ha : w.aabb e with
    | none => simp [ha] at hs
    | some c =>
      simp only [ha, Option.some.injEq] at hs
      subst hs
      have hiff : ∀ f, upd w.aabb e (some b) f ≠ none ↔ w.aabb f ≠ none := by
        intro f
        simp only [upd_apply]
        split
        · rename_i hf; simp [hf, ha]
        · rfl
      refine ⟨L, ⟨h.good, h.res, h.live, ?_, ?_, h.fresh, h.nodup, h.unseen⟩,
        ⟨hm.map, hm.wf, hm.lt, ?_⟩⟩
      · intro f id p hf
        exact ⟨(hiff f).2 (h.has f id p hf).1, (h.has f id p hf).2⟩
      · intro f hf
        exact h.enrolled f ((hiff f).1 hf)
      · intro i b0 b1 hi
        exact ⟨(hiff b0).2 (hm.boxes i b0 b1 hi).1, (hiff b1).2 (hm.boxes i b0 b1 hi).2⟩
  | setKind e k =>
    simp only [step, setKind] at hs
    obtain ⟨t, r, L', h1, h2⟩ := setProcedural_inv C.tree h e k
    rw [h1, Option.bind_some] at hs
    split at hs
    · simp only [Option.some.injEq] at hs
      subst hs
      exact ⟨L', h2, hm⟩
    · obtain ⟨m, h3, h4, -⟩ := dropInert_spec
        { w with kind := upd w.kind e k, tree := t, resident := r } e hm
      rw [h3] at hs
      simp only [Option.some.injEq] at hs
      subst hs
      exact ⟨L', ⟨h2.good, h2.res, h2.live, h2.has, h2.enrolled, h2.fresh, h2.nodup, h2.unseen⟩, h4⟩
  | setAsleep e v =>
    simp only [step, Option.some.injEq] at hs
    subst hs
    exact ⟨L, ⟨h.good, h.res, h.live, h.has, h.enrolled, h.fresh, h.nodup, h.unseen⟩, hm⟩
  | setOff e v =>
    simp only [step, Option.some.injEq] at hs
    subst hs
    exact ⟨L, ⟨h.good, h.res, h.live, h.has, h.enrolled, h.fresh, h.nodup, h.unseen⟩, hm⟩
  | setIdle i v =>
    simp only [step, Option.some.injEq] at hs
    subst hs
    exact ⟨L, ⟨h.good, h.res, h.live, h.has, h.enrolled, h.fresh, h.nodup, h.unseen⟩, hm⟩
  | dropManifold i =>
    simp only [step] at hs
    cases hd : ManifoldMap.destroy w.map i with
    | none => simp [hd] at hs
    | some m =>
      simp only [hd, Option.map_some, Option.some.injEq] at hs
      subst hs
      exact ⟨L, ⟨h.good, h.res, h.live, h.has, h.enrolled, h.fresh, h.nodup, h.unseen⟩,
        mapInv_destroy hm hd⟩
  | swapManifold i =>
    simp only [step] at hs
    cases hd : ManifoldMap.swap w.map i with
    | none => simp [hd] at hs
    | some m =>
      simp only [hd, Option.map_some, Option.some.injEq] at hs
      subst hs
      exact ⟨L, ⟨h.good, h.res, h.live, h.has, h.enrolled, h.fresh, h.nodup, h.unseen⟩,
        mapInv_swap hm hd⟩
  | enrollNew =>
    obtain ⟨t, r, L', h1, h2⟩ := enrollNew_inv C.tree h
    simp only [step, h1, Option.some.injEq] at hs
    subst hs
    exact ⟨L', h2, hm⟩
  | update mt o1 o2 o3 =>
    obtain ⟨w1, L', h1, h2, h3, -⟩ := update_spec C h hm (o1 := o1) (o2 := o2) (o3 := o3) hp
    simp only [step, h1 mt, Option.some.injEq] at hs
    subst hs
    exact ⟨L', h2, h3⟩

theorem reach_inv {C : Config S} {w : World S} {seen : Nat → Option (Box S)}
    (h : Reach C w seen) : ∃ L, TreeInv w L seen ∧ MapInv w.aabb (w.map, w.next) := by
  induction h with
  | init b => exact ⟨_, treeInv_init b, mapInv_init b⟩
  | step o _ hp hs ih =>
    obtain ⟨L, h1, h2⟩ := ih
    exact step_inv C h1 h2 o hp hs

end Edyn.Broad
