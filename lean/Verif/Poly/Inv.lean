import Verif.Poly.Spec

/-!
# Rotated meshes of polyhedra: invariants (C91)
-/

namespace Edyn.Poly

open Edyn.Math

variable {T : Type} [Field T] {β : Type}

@[simp] theorem put_same {α : Type} (f : ℕ → α) (i : ℕ) (a : α) : put f i a i = a := by simp [put]
theorem put_ne {α : Type} (f : ℕ → α) {i j : ℕ} (a : α) (h : j ≠ i) : put f i a j = f j := by
  simp [put, h]

theorem mul_one_quat (q : Quat T) : q * 1 = q := by
  obtain ⟨a, b, c, d⟩ := q
  apply Quat.ext <;> simp

/-! ### Rotating a mesh -/

/-- The arrays have the sizes of those of the mesh. -/
def Fits (r : RMesh T) (m : Mesh T) : Prop :=
  r.vertices.length = m.vertices.length ∧ r.edgeVertices.length = m.edgeVertices.length ∧
  r.normals.length = m.normals.length ∧ r.relevantNormals.length = m.relevantNormals.length ∧
  r.edgeNormals.length = m.edgeNormals.length

theorem turnInto_eq (q : Quat T) : ∀ src dst : List (V3 T), dst.length = src.length →
    turnInto q src dst = some (src.map (Quat.rotate q))
  | [], [], _ => rfl
  | _ :: src, _ :: dst, h => by
    simp only [List.length_cons, Nat.add_right_cancel_iff] at h
    simp [turnInto, turnInto_eq q src dst h]

theorem update_eq (r : RMesh T) (m : Mesh T) (q : Quat T) (h : Fits r m) :
    r.update m q = some (m.turned q) := by
  obtain ⟨h1, h2, h3, h4, h5⟩ := h
  simp [RMesh.update, turnInto_eq, h1, h2, h3, h4, h5, Mesh.turned]

theorem makeRotated_eq (m : Mesh T) (q : Quat T) : makeRotated m q = some (m.turned q) := by
  unfold makeRotated
  exact update_eq _ m q (by simp [Fits])

theorem turned_fits (m : Mesh T) (q : Quat T) : Fits (m.turned q) m := by simp [Fits, Mesh.turned]

/-! ### Lists of rotated meshes -/

/-- The entities of the list that starts at an entity. -/
inductive Reach (l : ℕ → Option (RList T)) : ℕ → ℕ → Prop
  | refl (c : ℕ) : Reach l c c
  | head {c x d : ℕ} {r : RList T} : l c = some r → r.next = some x → Reach l x d → Reach l c d

theorem Reach.congr {l l' : ℕ → Option (RList T)} {c d : ℕ} (h : Reach l c d) :
    (∀ x, Reach l c x → l' x = l x) → Reach l' c d := by
  induction h with
  | refl c => intro _; exact .refl c
  | head h1 h2 _ ih =>
    intro hx
    refine .head ((hx _ (.refl _)).trans h1) h2 (ih fun y hy => hx y (.head h1 h2 hy))

theorem Reach.congr' {l l' : ℕ → Option (RList T)} {c d : ℕ} (h : Reach l' c d) :
    (∀ x, Reach l c x → l' x = l x) → Reach l c d := by
  induction h with
  | refl c => intro _; exact .refl c
  | head h1 h2 _ ih =>
    intro hx
    have h3 := (hx _ (.refl _)).symm.trans h1
    exact .head h3 h2 (ih fun y hy => hx y (.head h3 h2 hy))

theorem Reach.last {l : ℕ → Option (RList T)} {c d : ℕ} (h : Reach l c d) :
    c = d ∨ ∃ p r, Reach l c p ∧ l p = some r ∧ r.next = some d := by
  induction h with
  | refl c => exact .inl rfl
  | head h1 h2 h3 ih =>
    rcases ih with rfl | ⟨p, r, hp, hr, hn⟩
    · exact .inr ⟨_, _, .refl _, h1, h2⟩
    · exact .inr ⟨p, r, .head h1 h2 hp, hr, hn⟩

/-- The list that starts at an entity holds these polyhedra, in order, and no more. -/
def Chain (l : ℕ → Option (RList T)) : Option ℕ → List (Part T) → Prop
  | none, [] => True
  | some c, p :: ps => ∃ r, l c = some r ∧ r.mesh = p.mesh ∧ r.orn = p.orn ∧
      p.rotated = some r.rotated ∧ Chain l r.next ps
  | _, _ => False

theorem Chain.mem {l : ℕ → Option (RList T)} : ∀ {ps : List (Part T)} {c : ℕ},
    Chain l (some c) ps → ∀ p ∈ ps, ∃ d r, Reach l c d ∧ l d = some r ∧
      p.mesh = r.mesh ∧ p.orn = r.orn ∧ p.rotated = some r.rotated
  | q :: ps, c, h, p, hp => by
    obtain ⟨r, h1, h2, h3, h4, h5⟩ := h
    rcases List.mem_cons.1 hp with rfl | hp
    · exact ⟨c, r, .refl c, h1, h2.symm, h3.symm, h4⟩
    · cases hn : r.next with
      | none =>
        rw [hn] at h5
        cases ps with
        | nil => cases hp
        | cons _ _ => exact h5.elim
      | some x =>
        rw [hn] at h5
        obtain ⟨d, r', k1, k2⟩ := Chain.mem h5 p hp
        exact ⟨d, r', .head h1 hn k1, k2⟩

theorem Chain.congr {l l' : ℕ → Option (RList T)} : ∀ {ps : List (Part T)} {o : Option ℕ},
    Chain l o ps → (∀ c, o = some c → ∀ x, Reach l c x → l' x = l x) → Chain l' o ps
  | [], none, _, _ => trivial
  | [], some _, h, _ => h.elim
  | _ :: _, none, h, _ => h.elim
  | p :: ps, some c, h, hx => by
    obtain ⟨r, h1, h2, h3, h4, h5⟩ := h
    refine ⟨r, (hx c rfl c (.refl c)).trans h1, h2, h3, h4, h5.congr fun d hd x hr => ?_⟩
    exact hx c rfl x (.head h1 hd hr)

/-- What holds of the lists at all times. -/
structure Core (w : World T β) : Prop where
  lt : ∀ c r, w.list c = some r → c < w.n
  cell : ∀ c r, w.list c = some r → r.rotated < w.h
  fits : ∀ c r, w.list c = some r → ∃ a, w.heap r.rotated = some a ∧ Fits a r.mesh
  up : ∀ c r d, w.list c = some r → r.next = some d → c < d
  next : ∀ c r d, w.list c = some r → r.next = some d → (w.list d).isSome
  aux : ∀ c r d, w.list c = some r → r.next = some d → w.body d = false
  inj : ∀ c c' r r', w.list c = some r → w.list c' = some r' → r.rotated = r'.rotated → c = c'
  ninj : ∀ c c' r r' d, w.list c = some r → w.list c' = some r' → r.next = some d →
    r'.next = some d → c = c'
  blt : ∀ e, w.body e = true → e < w.n
  shaped : ∀ e, w.body e = false → w.shape e = none

/-- The bodies whose shape is not pending have the list of their polyhedra. -/
def Links (w : World T β) (P : ℕ → Prop) : Prop :=
  ∀ e s, w.body e = true → ¬ P e → w.shape e = some s → s.parts = [] ∨ Chain w.list (some e) s.parts

theorem Core.reach_le {w : World T β} (hc : Core w) {c d : ℕ} (h : Reach w.list c d) : c ≤ d := by
  induction h with
  | refl c => exact le_rfl
  | head h1 h2 _ ih => exact (hc.up _ _ _ h1 h2).le.trans ih

theorem Core.reach_some {w : World T β} (hc : Core w) {c d : ℕ} (h : Reach w.list c d) :
    (w.list c).isSome → (w.list d).isSome := by
  induction h with
  | refl c => exact id
  | head h1 h2 _ ih => exact fun _ => ih (hc.next _ _ _ h1 h2)

/-- An entity that nothing links to. -/
def Root (w : World T β) (e : ℕ) : Prop := ∀ c r, w.list c = some r → r.next ≠ some e

theorem Core.root {w : World T β} (hc : Core w) {e : ℕ} (he : w.body e = true) : Root w e := by
  intro c r h1 h2
  have := hc.aux c r e h1 h2
  rw [he] at this
  cases this

theorem Core.reach_unique {w : World T β} (hc : Core w) {e e' : ℕ} (he : Root w e) (he' : Root w e') :
    ∀ d, Reach w.list e d → Reach w.list e' d → e = e' := by
  intro d
  induction d using Nat.strong_induction_on with
  | _ d ih =>
    intro h h'
    rcases h.last with rfl | ⟨p, r, h1, h2, h3⟩
    · rcases h'.last with rfl | ⟨p, r, _, h2, h3⟩
      · rfl
      · exact absurd h3 (he p r h2)
    · rcases h'.last with rfl | ⟨p', r', h1', h2', h3'⟩
      · exact absurd h3 (he' p r h2)
      · obtain rfl := hc.ninj p p' r r' d h2 h2' h3 h3'
        exact ih p (hc.up p r d h2 h3) h1 h1'

/-- New contents in memory that fit keep the invariant. -/
theorem Core.withHeap {w : World T β} (hc : Core w) (hp : ℕ → Option (RMesh T))
    (h : ∀ c r, w.list c = some r → ∃ a, hp r.rotated = some a ∧ Fits a r.mesh) :
    Core { w with heap := hp } :=
  ⟨hc.lt, hc.cell, h, hc.up, hc.next, hc.aux, hc.inj, hc.ninj, hc.blt, hc.shaped⟩

/-! ### Following the orientation -/

theorem refreshFrom_spec (q : Quat T) : ∀ (fuel : ℕ) (w : World T β) (c : ℕ), Core w →
    (w.list c).isSome → w.n - c < fuel →
    ∃ hp, w.refreshFrom q fuel c = some { w with heap := hp } ∧
      (∀ d r, Reach w.list c d → w.list d = some r →
        hp r.rotated = some (r.mesh.turned (q * r.orn))) ∧
      (∀ i, (∀ d r, Reach w.list c d → w.list d = some r → r.rotated ≠ i) → hp i = w.heap i)
  | 0, _, _, _, _, h => by omega
  | fuel + 1, w, c, hc, hs, hf => by
    obtain ⟨r, hr⟩ := Option.isSome_iff_exists.1 hs
    obtain ⟨a, ha, hfit⟩ := hc.fits c r hr
    have hlt := hc.lt c r hr
    simp only [World.refreshFrom, hr, ha, update_eq a r.mesh _ hfit]
    cases hn : r.next with
    | none =>
      refine ⟨_, rfl, fun d r' hd hr' => ?_, fun i hi => put_ne _ _ ?_⟩
      · cases hd with
        | refl =>
          obtain rfl := Option.some.inj (hr.symm.trans hr')
          simp
        | head h1 h2 _ =>
          obtain rfl := Option.some.inj (hr.symm.trans h1)
          rw [hn] at h2
          cases h2
      · exact fun h => hi c r (.refl c) hr h.symm
    | some x =>
      have hx := hc.up c r x hr hn
      have hc1 : Core { w with heap := put w.heap r.rotated (some (r.mesh.turned (q * r.orn))) } := by
        refine hc.withHeap _ fun c' r' hr' => ?_
        by_cases e : r'.rotated = r.rotated
        · obtain rfl := hc.inj _ _ _ _ hr' hr e
          obtain rfl := Option.some.inj (hr.symm.trans hr')
          exact ⟨_, put_same _ _ _, turned_fits _ _⟩
        · rw [put_ne _ _ e]
          exact hc.fits c' r' hr'
      obtain ⟨hp, e1, e2, e3⟩ := refreshFrom_spec q fuel _ x hc1 (hc.next c r x hr hn)
        (by show w.n - x < fuel; omega)
      refine ⟨hp, e1, fun d r' hd hr' => ?_, fun i hi => ?_⟩
      · cases hd with
        | refl =>
          obtain rfl := Option.some.inj (hr.symm.trans hr')
          rw [e3]
          · simp
          · intro d' r'' hd' hr'' e
            have := hc.inj _ _ _ _ hr'' hr e
            have := hc.reach_le hd'
            omega
        | head h1 h2 h3 =>
          obtain rfl := Option.some.inj (hr.symm.trans h1)
          obtain rfl := Option.some.inj (hn.symm.trans h2)
          exact e2 d r' h3 hr'
      · rw [e3 i fun d r' hd hr' => hi d r' (.head hr hn hd) hr']
        exact put_ne _ _ fun h => hi c r (.refl c) hr h.symm

/-- Refreshing some bodies. -/
theorem each_refresh : ∀ (es : List ℕ) (w : World T β), Core w →
    (∀ e ∈ es, w.body e = true ∧ (w.list e).isSome) →
    ∃ hp, w.each World.refresh es = some { w with heap := hp } ∧
      (∀ e ∈ es, ∀ d r, Reach w.list e d → w.list d = some r →
        hp r.rotated = some (r.mesh.turned (w.orn e * r.orn))) ∧
      (∀ i, (∀ e ∈ es, ∀ d r, Reach w.list e d → w.list d = some r → r.rotated ≠ i) →
        hp i = w.heap i) ∧ Core { w with heap := hp }
  | [], w, hc, _ => ⟨w.heap, rfl, by simp, fun _ _ => rfl, hc⟩
  | e :: es, w, hc, h => by
    obtain ⟨hb, hs⟩ := h e (List.mem_cons_self ..)
    obtain ⟨hp, e1, e2, e3⟩ := refreshFrom_spec (w.orn e) (w.n + 1) w e hc hs (by omega)
    have hc1 : Core { w with heap := hp } := by
      refine hc.withHeap _ fun c r hr => ?_
      by_cases k : Reach w.list e c
      · exact ⟨_, e2 c r k hr, turned_fits _ _⟩
      · rw [e3 r.rotated fun d r' hd hr' h => ?_]
        · exact hc.fits c r hr
        · obtain rfl := hc.inj _ _ _ _ hr' hr h
          exact k hd
    obtain ⟨hp', f1, f2, f3, f4⟩ := each_refresh es _ hc1 fun e' he' =>
      h e' (List.mem_cons_of_mem _ he')
    refine ⟨hp', ?_, ?_, ?_, f4⟩
    · simp only [World.each, World.refresh, e1, Option.bind_some]
      exact f1
    · intro e' he' d r hd hr
      by_cases k : e' ∈ es
      · exact f2 e' k d r hd hr
      · obtain rfl : e' = e := by simpa [k] using he'
        rw [f3]
        · exact e2 d r hd hr
        · intro e'' he'' d' r' hd' hr' hh
          obtain rfl := hc.inj _ _ _ _ hr' hr hh
          obtain rfl := hc.reach_unique (hc.root hb)
            (hc.root (h e'' (List.mem_cons_of_mem _ he'')).1) d' hd hd'
          exact k he''
    · intro i hi
      rw [f3 i fun e' he' => hi e' (List.mem_cons_of_mem _ he')]
      exact e3 i (hi e (List.mem_cons_self ..))

/-! ### The parts of a linked body -/

/-- A body with its list is current if the cells of the list are. -/
theorem current_of_cells {w : World T β} {e : ℕ} {s : Shape T} (hs : w.shape e = some s)
    (hl : s.parts = [] ∨ Chain w.list (some e) s.parts)
    (h : ∀ d r, Reach w.list e d → w.list d = some r →
      w.heap r.rotated = some (r.mesh.turned (w.orn e * r.orn))) : Current w e := by
  intro s' hs' p hp
  obtain rfl := Option.some.inj (hs.symm.trans hs')
  rcases hl with hl | hl
  · rw [hl] at hp
    cases hp
  · obtain ⟨d, r, h1, h2, h3, h4, h5⟩ := hl.mem p hp
    refine ⟨r.rotated, h5, ?_⟩
    rw [h3, h4]
    exact h d r h1 h2

/-- A current body stays so if its list and the cells of the list stay. -/
theorem Current.keep {w w' : World T β} {e : ℕ} (h : Current w e)
    (hl : ∀ s, w.shape e = some s → s.parts = [] ∨ Chain w.list (some e) s.parts)
    (hs : w'.shape e = w.shape e) (ho : w'.orn e = w.orn e)
    (hh : ∀ d r, Reach w.list e d → w.list d = some r → w'.heap r.rotated = w.heap r.rotated) :
    Current w' e := by
  intro s hs' p hp
  rw [hs] at hs'
  obtain ⟨i, h1, h2⟩ := h s hs' p hp
  rcases hl s hs' with k | k
  · rw [k] at hp
    cases hp
  · obtain ⟨d, r, h3, h4, _, _, h7⟩ := k.mem p hp
    obtain rfl := Option.some.inj (h1.symm.trans h7)
    exact ⟨_, h1, by rw [ho, hh d r h3 h4, h2]⟩

end Edyn.Poly
