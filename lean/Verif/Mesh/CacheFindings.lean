import Verif.Mesh.CacheProps

/-!
# The page cache: thickness, pages in use, load messages; what fails

Concrete schedules meet the hypotheses of the theorems, and show where the claims stop holding.
-/

namespace Edyn.Mesh.Cache

/-- Three pages of 40 vertices and a budget of 100; none is in memory. -/
def three : List Page := [⟨40, none⟩, ⟨40, none⟩, ⟨40, none⟩]

/-- A thread loads page `i` with a loader that answers at once. -/
def loadNow (i : Nat) : List Step := [.enter i, .makeRoom i, .makeRoom i, .assign i]

/-- Pages 0 and 1 are loaded and visited, page 0 again, then page 2 is loaded. -/
def tour : List Step :=
  loadNow 0 ++ [.look 0, .use 0] ++ loadNow 1 ++ [.look 1, .use 1, .look 0, .use 0] ++ loadNow 2

/-- Page 1, visited before page 0 was visited again, had to go; the budget is kept. -/
example : (run (init three 100 1) tour).map (fun c => (c.pages.map Page.mesh, c.lru, c.visits, c.events))
    = some ([some 1, none, some 1], [0, 1, 2], [0, 1, 0], [0, 1, 1, 2]) := by decide +kernel

/-- The hypotheses of `budget_one_at_a_time` hold of this history. -/
example : AtMost 1 (init three 100 1) tour ∧ (run (init three 100 1) tour).isSome = true :=
  ⟨by decide +kernel, by decide +kernel⟩

/-- The hypotheses of `evicts_least_recent` hold: making room for page 2 evicts page 1. -/
example : ((run (init three 100 1) (tour.take 15)).bind (fun c =>
    (step c (.makeRoom 2)).map (fun c' => (decide (Loaded c 1), decide (Loaded c' 1)))))
      = some (true, false) := by decide +kernel

/-- The hypothesis of `making_room_ends` holds after page 2 has been entered. -/
example : ((run (init three 100 1) (tour.take 15)).map (fun c => c.room)) = some [2] := by
  decide +kernel

/-- The hypotheses of `requested_once` hold at the request of page 2. -/
example : ((run (init three 100 1) (tour.take 16)).bind (fun c =>
    (step c (.makeRoom 2)).map (fun c' => (c.inflight, c'.inflight)))) = some ([], [2]) := by
  decide +kernel

/-- The hypotheses of `missing_page_is_requested` hold of the evicted page 1. -/
example : ((run (init three 100 1) tour).map (fun c => (c.pages[1]?, c.max, c.room, c.inflight)))
    = some (some ⟨40, none⟩, 100, [], []) := by decide +kernel

/-! ## Two loads at a time -/

/-- The budget for any number of loads in flight. -/
def budgetFull : Prop :=
  ∀ (pages : List Page) (max : Nat) (t : Int) (l : List Step) (c : Cache),
    ((pages.filter (fun p => p.mesh.isSome)).map Page.verts).sum ≤ max →
    run (init pages max t) l = some c → InMemory c ≤ max

/-- Two pages of 60 vertices, requested before either arrives: 120 vertices in a cache of 100. -/
def twoLoads : List Step := [.enter 0, .makeRoom 0, .enter 1, .makeRoom 1, .assign 0, .assign 1]

/-- Pages on their way are not counted when room is made for the next one. -/
theorem budget_refuted : ¬ budgetFull := by
  intro h
  have hr : run (init [⟨60, none⟩, ⟨60, none⟩] 100 1) twoLoads
      = some { (init [⟨60, some 1⟩, ⟨60, some 1⟩] 100 1) with events := [0, 1] } := by decide +kernel
  have := h [⟨60, none⟩, ⟨60, none⟩] 100 1 twoLoads _ (by decide) hr
  revert this
  decide

/-- The bound of `budget` is met: two loads in flight exceed the budget by at most a page. -/
example : AtMost 2 (init [⟨60, none⟩, ⟨60, none⟩] 100 1) twoLoads := by decide +kernel

/-! ## The thickness of the mesh (C61) -/

/-- Every page has the thickness that was set last, whenever it was loaded. -/
def thicknessFull : Prop :=
  ∀ (pages : List Page) (max : Nat) (t0 t : Int) (l m : List Step) (c : Cache) (i v : Nat) (x : Int),
    (∀ s ∈ m, ∀ t', s ≠ .setThickness t') →
    run (init pages max t0) (l ++ .setThickness t :: m) = some c →
    c.pages[i]? = some ⟨v, some x⟩ → x = t

/-- **The thickness of pages that stay.**  After `set_thickness` a page that was in memory then,
and did not leave memory since (no load message for it, no clearing), has the new thickness. -/
theorem thickness_partial (pages : List Page) (max : Nat) (t0 t : Int) (l m : List Step)
    (c1 c : Cache) (i v : Nat) (x : Int) (hm : ∀ s ∈ m, ∀ t', s ≠ .setThickness t')
    (h1 : run (init pages max t0) (l ++ [.setThickness t]) = some c1)
    (h2 : run c1 m = some c) (hev : c.events.count i = c1.events.count i)
    (hl : Loaded c1 i) (hp : c.pages[i]? = some ⟨v, some x⟩) : x = t := by
  have keep : ∀ (s : Step) (a b : Cache), (∀ t', s ≠ .setThickness t') → step a s = some b →
      a.events.count i ≤ b.events.count i ∧
      (b.events.count i = a.events.count i →
        (∃ v y, a.pages[i]? = some ⟨v, y⟩ ∧ ∀ z, y = some z → z = t) →
        (∃ v y, b.pages[i]? = some ⟨v, y⟩ ∧ ∀ z, y = some z → z = t)) := by
    intro s a b hs e
    cases s with
    | enter k =>
      simp only [step, enter] at e
      cases hl : a.loading[k]? with
      | none => rw [hl] at e; simp at e
      | some bb =>
        rw [hl] at e
        cases bb with
        | true => simp only [Option.some.injEq] at e; subst e; simp
        | false =>
          simp only at e
          by_cases hm : hasMesh a.pages k = true
          · rw [if_pos hm] at e; simp only [Option.some.injEq] at e; subst e; simp
          · rw [if_neg hm] at e
            by_cases hv : vertsOf a.pages k < a.max
            · rw [if_pos hv] at e; simp only [Option.some.injEq] at e; subst e; simp
            · rw [if_neg hv] at e; simp at e
    | makeRoom k =>
      simp only [step, Option.some.injEq] at e
      subst e
      unfold makeRoom
      by_cases hk : k ∈ a.room
      · rw [if_pos hk]
        by_cases hv : numVertices a.pages + vertsOf a.pages k > a.max
        · rw [if_pos hv]
          unfold unload
          cases hf : a.lru.reverse.find? (fun j => hasMesh a.pages j) with
          | none => simp
          | some j =>
            simp only [List.count_append, List.count_singleton]
            refine ⟨by omega, ?_⟩
            rintro hc ⟨w, y, hy, hz⟩
            have hji : j ≠ i := by
              rintro rfl
              simp at hc
            refine ⟨w, y, ?_, hz⟩
            rw [setMesh_getElem?, if_neg hji, hy]
        · rw [if_neg hv]; exact ⟨le_refl _, fun _ h => h⟩
      · rw [if_neg hk]; exact ⟨le_refl _, fun _ h => h⟩
    | assign k =>
      simp only [step, Option.some.injEq] at e
      subst e
      unfold assign
      by_cases hk : k ∈ a.inflight
      · rw [if_pos hk]
        simp only [List.count_append, List.count_singleton]
        refine ⟨by omega, ?_⟩
        rintro hc ⟨w, y, hy, hz⟩
        have hji : k ≠ i := by
          rintro rfl
          simp at hc
        refine ⟨w, y, ?_, hz⟩
        rw [setMesh_getElem?, if_neg hji, hy]
      · rw [if_neg hk]; exact ⟨le_refl _, fun _ h => h⟩
    | look k =>
      simp only [step, Option.some.injEq] at e
      subst e
      split <;> exact ⟨le_refl _, fun _ h => h⟩
    | use k =>
      simp only [step, use] at e
      by_cases hr : k ∈ a.readers
      · rw [if_pos hr] at e
        by_cases hm : hasMesh a.pages k = true
        · rw [if_pos hm] at e
          cases hk : markRecent a.lru k with
          | none => rw [hk] at e; simp at e
          | some l => rw [hk] at e; simp only [Option.some.injEq] at e; subst e; exact ⟨le_refl _, fun _ h => h⟩
        · rw [if_neg hm] at e; simp at e
      · rw [if_neg hr] at e; simp only [Option.some.injEq] at e; subst e; exact ⟨le_refl _, fun _ h => h⟩
    | clear =>
      simp only [step, Option.some.injEq] at e
      subst e
      refine ⟨le_refl _, ?_⟩
      rintro _ ⟨w, y, hy, _⟩
      exact ⟨w, none, by simp [hy], by simp⟩
    | setThickness t' => exact absurd rfl (hs t')
  have gen : ∀ (m : List Step) (a b : Cache), (∀ s ∈ m, ∀ t', s ≠ .setThickness t') →
      run a m = some b → a.events.count i ≤ b.events.count i ∧
      (b.events.count i = a.events.count i →
        (∃ v y, a.pages[i]? = some ⟨v, y⟩ ∧ ∀ z, y = some z → z = t) →
        (∃ v y, b.pages[i]? = some ⟨v, y⟩ ∧ ∀ z, y = some z → z = t)) := by
    intro m
    induction m with
    | nil =>
      intro a b _ e
      simp only [run, Option.some.injEq] at e; subst e; exact ⟨le_refl _, fun _ h => h⟩
    | cons s m ih =>
      intro a b hm e
      simp only [run] at e
      cases hs : step a s with
      | none => rw [hs] at e; simp at e
      | some a2 =>
        rw [hs] at e
        obtain ⟨k1, k2⟩ := keep s a a2 (hm s (by simp)) hs
        obtain ⟨g1, g2⟩ := ih a2 b (fun s' h' => hm s' (by simp [h'])) (by simpa using e)
        exact ⟨by omega, fun hc hh => g2 (by omega) (k2 (by omega) hh)⟩
  have hstart : ∃ v y, c1.pages[i]? = some ⟨v, y⟩ ∧ ∀ z, y = some z → z = t := by
    rw [run_append] at h1
    cases h0 : run (init pages max t0) l with
    | none => rw [h0] at h1; simp at h1
    | some c0 =>
      rw [h0] at h1
      simp only [Option.bind_some, run, step, Option.some.injEq] at h1
      subst h1
      obtain ⟨w, y, hw⟩ := hl
      refine ⟨w, some y, hw, ?_⟩
      intro z hz
      simp only [List.getElem?_map] at hw
      cases hq : c0.pages[i]? with
      | none => rw [hq] at hw; simp at hw
      | some q =>
        rw [hq] at hw
        obtain ⟨qv, qm⟩ := q
        cases qm with
        | none => simp at hw
        | some qy => simp at hw hz; omega
  obtain ⟨w, y, hy, hz⟩ := (gen m c1 c hm h2).2 hev hstart
  rw [hp] at hy
  simp only [Option.some.injEq, Page.mk.injEq] at hy
  exact hz x hy.2.symm

example : ((run (init three 100 1) (loadNow 0 ++ [.setThickness 5])).bind (fun c1 =>
    (run c1 (loadNow 1)).map (fun c => (c1.events.count 0, c.events.count 0, c.pages[0]?))))
      = some (1, 1, some ⟨40, some 5⟩) := by decide +kernel

/-- `set_thickness` changes the pages in memory but not the value given to later pages. -/
theorem thickness_refuted : ¬ thicknessFull := by
  intro h
  have hr : run (init [⟨40, none⟩] 100 1) ([] ++ Step.setThickness 5 :: [.enter 0, .makeRoom 0, .assign 0])
      = some { (init [⟨40, some 1⟩] 100 1) with events := [0] } := by decide +kernel
  have := h [⟨40, none⟩] 100 1 5 [] [.enter 0, .makeRoom 0, .assign 0] _ 0 40 1 (by simp) hr rfl
  revert this
  decide

/-! ## Pages in use (C62) -/

/-- No interleaving makes a thread use a page that is not in memory. -/
def useSafeFull : Prop :=
  ∀ (pages : List Page) (max : Nat) (t : Int) (l : List Step) (c : Cache) (i : Nat),
    run (init pages max t) l = some c → (step c (.use i)).isSome = true

/-- **An undisturbed visit is safe.**  A thread that looks at a page and uses it with no other
thread's step between the two never uses a page that has gone. -/
theorem use_safe_partial (pages : List Page) (max : Nat) (t : Int) (l : List Step) (c : Cache)
    (i : Nat) (e : run (init pages max t) l = some c) (hl : Loaded c i) :
    ∃ c', run c [.look i, .use i] = some c' ∧ c'.visits = c.visits ++ [i] := by
  have hinv := inv_run (inv_init pages max t) e
  have hm := (hasMesh_iff c i).mpr hl
  have hmem : i ∈ c.lru := by
    rw [hinv.perm.mem_iff]; exact List.mem_range.mpr (hasMesh_lt hm)
  refine ⟨{ c with lru := i :: c.lru.erase i, readers := (i :: c.readers).erase i,
                   visits := c.visits ++ [i] }, ?_, rfl⟩
  simp only [run, step, Option.bind_some]
  rw [if_pos hm]
  unfold use
  simp only [List.mem_cons, true_or, if_true]
  rw [if_pos hm, markRecent_some hmem]
  rfl

example : ((run (init three 100 1) (loadNow 0)).map (fun c => decide (Loaded c 0))) = some true := by
  decide +kernel

/-- Another thread may evict the page between the look and the use: the test then dereferences a
null pointer. -/
theorem use_safe_refuted : ¬ useSafeFull := by
  intro h
  have hr : run (init [⟨60, some 1⟩, ⟨60, none⟩] 100 1) [.look 0, .enter 1, .makeRoom 1]
      = some { (init [⟨60, none⟩, ⟨60, none⟩] 100 1) with
               loading := [false, true], room := [1], readers := [0], events := [0] } := by
    decide +kernel
  have := h _ 100 1 [.look 0, .enter 1, .makeRoom 1] _ 0 hr
  revert this
  decide +kernel

/-- A page as large as the whole budget cannot be loaded: the assertion of
`load_node_if_needed` fails although it would fit. -/
theorem page_of_full_size : (enter (init [⟨100, none⟩] 100 1) 0).isNone = true := by decide

/-! ## Load messages (C63) -/

/-- Listeners learn of every load and unload. -/
def eventsFull : Prop :=
  ∀ (pages : List Page) (max : Nat) (t : Int) (l : List Step) (c : Cache) (i : Nat),
    run (init pages max t) l = some c →
    (Loaded c i ↔ ((∃ v m, pages[i]? = some ⟨v, some m⟩) ↔ c.events.count i % 2 = 0))

/-- `clear_cache` unloads pages without a message. -/
theorem events_refuted : ¬ eventsFull := by
  intro h
  have hr : run (init [⟨40, some 1⟩] 100 1) [.clear] = some (init [⟨40, none⟩] 100 1) := by
    decide +kernel
  have := (h _ 100 1 [.clear] _ 0 hr).mpr (by simp [init])
  revert this
  decide

example : Step.clear ∉ tour ∧ (run (init three 100 1) tour).isSome = true :=
  ⟨by decide, by decide +kernel⟩

/-- `on_paged_triangle_mesh_load_page` (src/edyn/util/paged_mesh_load_reporting.cpp 13-22): the
signal is published for the first shape, in the order of the view, whose mesh is the one that sent
the message.  Shapes are pairs of an entity and the address of its mesh. -/
def report (shapes : List (Nat × Nat)) (mesh index : Nat) : List (Nat × Nat) :=
  match shapes with
  | [] => []
  | (entity, m) :: rest => if m = mesh then [(entity, index)] else report rest mesh index

/-- Every entity that uses the mesh is told of the page. -/
def reportFull : Prop :=
  ∀ (shapes : List (Nat × Nat)) (mesh index entity : Nat), (entity, mesh) ∈ shapes →
    (entity, index) ∈ report shapes mesh index

/-- **Who is told.**  When no two entities share the mesh, the entity with that mesh is told of the
page, once, and nobody else is. -/
theorem report_partial (shapes : List (Nat × Nat)) (mesh index entity : Nat)
    (hmem : (entity, mesh) ∈ shapes) (huniq : ∀ e', (e', mesh) ∈ shapes → e' = entity) :
    report shapes mesh index = [(entity, index)] := by
  induction shapes with
  | nil => simp at hmem
  | cons s rest ih =>
    obtain ⟨e, m⟩ := s
    unfold report
    by_cases h : m = mesh
    · rw [if_pos h]
      subst h
      rw [huniq e (by simp)]
    · rw [if_neg h]
      refine ih ?_ (fun e' he' => huniq e' (by simp [he']))
      rcases List.mem_cons.mp hmem with h2 | h2
      · simp only [Prod.mk.injEq] at h2; exact absurd h2.2.symm h
      · exact h2

/-- **Nobody else is told.** -/
theorem report_only_users (shapes : List (Nat × Nat)) (mesh index : Nat) (r : Nat × Nat)
    (h : r ∈ report shapes mesh index) : r.2 = index ∧ (r.1, mesh) ∈ shapes := by
  induction shapes with
  | nil => simp [report] at h
  | cons s rest ih =>
    obtain ⟨e, m⟩ := s
    unfold report at h
    by_cases hm : m = mesh
    · rw [if_pos hm] at h
      simp only [List.mem_singleton] at h
      subst h; subst hm
      simp
    · rw [if_neg hm] at h
      obtain ⟨h1, h2⟩ := ih h
      exact ⟨h1, by simp [h2]⟩

example : (7, 3) ∈ [(5, 2), (7, 3)] ∧ (∀ e', (e', 3) ∈ [(5, 2), (7, 3)] → e' = 7) := by
  refine ⟨by simp, ?_⟩
  intro e' h
  simpa using h

/-- Of two entities that share a mesh only one is told. -/
theorem report_refuted : ¬ reportFull := by
  intro h
  have := h [(1, 9), (2, 9)] 9 4 2 (by simp)
  revert this
  decide

end Edyn.Mesh.Cache
