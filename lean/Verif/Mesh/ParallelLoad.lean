import Mathlib.Data.List.Basic
import Mathlib.Tactic.Linarith

/-!
# Model of pages loaded by several threads (C100)

`paged_triangle_mesh_s11n.cpp`: `paged_triangle_mesh_file_input_archive::load` hands a task per page
to the worker threads, and `load_mesh_context::load` reads the page.  With embedded pages all tasks
share one `std::ifstream`, with external pages each task opens a file of its own.

Threads are interleaved between the calls to the stream.  Simplification: a call to the stream is
atomic (in the code two concurrent calls are a data race), and the contents of the pages are blocks
of bytes of any type `M` of meshes.
-/

namespace Edyn.Mesh.Parallel

/-- Reading a mesh from a stream: `serialize(archive, mesh)` of `triangle_mesh_s11n.hpp` 33-49 is a
sequence of calls to `read_bytes` (`file_archive.hpp` 65-68), whose number depends on the sizes read
before. -/
inductive Reader (M : Type)
  | ret (m : M)
  | read (n : ℕ) (next : List UInt8 → Reader M)

/-- A `std::ifstream`: the position and whether `failbit` is set. -/
structure Stream where
  pos : ℕ
  bad : Bool

/-- `seek_position`, `file_archive.hpp` 55-57: `seekg` does nothing once `failbit` is set. -/
def Stream.seek (s : Stream) (p : ℕ) : Stream := if s.bad then s else ⟨p, false⟩

/-- `read_bytes`, `file_archive.hpp` 65-68: reading beyond the end sets `eofbit` and `failbit`, and
the value is not read. -/
def Stream.read (file : List UInt8) (s : Stream) (n : ℕ) : Option (List UInt8) × Stream :=
  if s.bad then (none, s)
  else if file.length < s.pos + n then (none, ⟨file.length, true⟩)
  else (some ((file.drop s.pos).take n), ⟨s.pos + n, false⟩)

/-- A task (`load_mesh_context`) in the course of `load`, `paged_triangle_mesh_s11n.cpp` 128-147.
`failed`: a call to `read_bytes` did not read the value, or its assertion failed. -/
inductive Task (M : Type)
  | waiting (index : ℕ)
  | reading (index : ℕ) (r : Reader M)
  | loaded
  | failed

/-- The shared stream, the tasks and the calls of `assign_mesh` in their order. -/
structure State (M : Type) where
  stream : Stream
  tasks : List (Task M)
  assigned : List (ℕ × M)

/-- What is loaded: the bytes of the file, `m_base_offset + m_offsets[index]` of the pages and how
the mesh is read. -/
structure Input (M : Type) where
  file : List UInt8
  offset : ℕ → ℕ
  reader : Reader M

/-- The next call by task `t`, embedded pages: `paged_triangle_mesh_s11n.cpp` 133-136 and 145-146. -/
def step {M : Type} (x : Input M) (s : State M) (t : ℕ) : State M :=
  match s.tasks[t]? with
  | some (.waiting i) =>
    { s with stream := s.stream.seek (x.offset i), tasks := s.tasks.set t (.reading i x.reader) }
  | some (.reading i (.ret m)) =>
    { s with tasks := s.tasks.set t .loaded, assigned := s.assigned ++ [(i, m)] }
  | some (.reading i (.read n k)) =>
    match s.stream.read x.file n with
    | (some b, st) => { s with stream := st, tasks := s.tasks.set t (.reading i (k b)) }
    | (none, st) => { s with stream := st, tasks := s.tasks.set t .failed }
  | _ => s

/-- A schedule: the tasks that make a call, one after the other. -/
def run {M : Type} (x : Input M) (s : State M) (sched : List ℕ) : State M := sched.foldl (step x) s

/-- The tasks as `load` makes them (112-126), for the given pages, and a stream at any position. -/
def start (M : Type) (pos : ℕ) (pages : List ℕ) : State M := ⟨⟨pos, false⟩, pages.map .waiting, []⟩

/-! ## External pages -/

/-- A task with a stream of its own. -/
structure OwnTask (M : Type) where
  stream : Stream
  task : Task M

/-- The tasks and the calls of `assign_mesh` in their order. -/
structure ExtState (M : Type) where
  tasks : List (OwnTask M)
  assigned : List (ℕ × M)

/-- What is loaded: the bytes of the file of each page (`get_submesh_path`, 17-28, gives different
names to different pages: C51), and how the mesh is read. -/
structure ExtInput (M : Type) where
  file : ℕ → List UInt8
  reader : Reader M

/-- The next call by task `t`, external pages: `paged_triangle_mesh_s11n.cpp` 137-141 and 145-146.
A new stream is at the beginning of its file. -/
def extStep {M : Type} (x : ExtInput M) (s : ExtState M) (t : ℕ) : ExtState M :=
  match s.tasks[t]? with
  | some ⟨_, .waiting i⟩ =>
    { s with tasks := s.tasks.set t ⟨⟨0, false⟩, .reading i x.reader⟩ }
  | some ⟨st, .reading i (.ret m)⟩ =>
    { tasks := s.tasks.set t ⟨st, .loaded⟩, assigned := s.assigned ++ [(i, m)] }
  | some ⟨st, .reading i (.read n k)⟩ =>
    match st.read (x.file i) n with
    | (some b, st') => { s with tasks := s.tasks.set t ⟨st', .reading i (k b)⟩ }
    | (none, st') => { s with tasks := s.tasks.set t ⟨st', .failed⟩ }
  | _ => s

/-- A schedule. -/
def extRun {M : Type} (x : ExtInput M) (s : ExtState M) (sched : List ℕ) : ExtState M :=
  sched.foldl (extStep x) s

/-- The tasks as `load` makes them. -/
def extStart (M : Type) (pages : List ℕ) : ExtState M :=
  ⟨pages.map fun i => ⟨⟨0, false⟩, .waiting i⟩, []⟩

/-! ## Specification -/

/-- The mesh that is in a file at a position, if there is one. -/
def meshAt {M : Type} (file : List UInt8) : Reader M → ℕ → Option M
  | .ret m, _ => some m
  | .read n k, p =>
    if file.length < p + n then none else meshAt file (k ((file.drop p).take n)) (p + n)

/-- **C100.** The full statement: if the file has a mesh for each page, then in every schedule
every page is given its mesh and no task fails. -/
def LoadsFull : Prop :=
  ∀ (M : Type) (x : Input M) (pos : ℕ) (pages sched : List ℕ),
    (∀ i ∈ pages, (meshAt x.file x.reader (x.offset i)).isSome) →
    (∀ i m, (i, m) ∈ (run x (start M pos pages) sched).assigned →
      meshAt x.file x.reader (x.offset i) = some m) ∧
    Task.failed ∉ (run x (start M pos pages) sched).tasks

/-- No task is in the course of loading. -/
def Quiet {M : Type} (s : State M) : Prop := ∀ i r, Task.reading i r ∉ s.tasks

/-- One page is loaded at a time: a task begins only when no other is in the course of loading. -/
def OneAtATime {M : Type} (x : Input M) (s : State M) (sched : List ℕ) : Prop :=
  ∀ before t after, sched = before ++ t :: after → ∀ i,
    (run x s before).tasks[t]? = some (.waiting i) → Quiet (run x s before)

/-! ## One page at a time -/

/-- The invariant of `loads_partial`. -/
structure Inv {M : Type} (x : Input M) (pages : List ℕ) (s : State M) : Prop where
  good : s.stream.bad = false
  waits : ∀ i, Task.waiting i ∈ s.tasks → i ∈ pages
  one : ∀ (t u i j : ℕ) (r q : Reader M), s.tasks[t]? = some (.reading i r) →
    s.tasks[u]? = some (.reading j q) → t = u
  right : ∀ i r, Task.reading i r ∈ s.tasks → i ∈ pages ∧
    meshAt x.file r s.stream.pos = meshAt x.file x.reader (x.offset i)
  done : ∀ i m, (i, m) ∈ s.assigned → meshAt x.file x.reader (x.offset i) = some m
  none_failed : Task.failed ∉ s.tasks

theorem inv_step {M : Type} (x : Input M) (pages : List ℕ)
    (hm : ∀ i ∈ pages, (meshAt x.file x.reader (x.offset i)).isSome) (s : State M)
    (h : Inv x pages s) (t : ℕ) (hq : ∀ i, s.tasks[t]? = some (.waiting i) → Quiet s) :
    Inv x pages (step x s t) := by
  have mem : ∀ {a b : Task M}, a ∈ s.tasks.set t b → a ∈ s.tasks ∨ a = b := fun ha =>
    List.mem_or_eq_of_mem_set ha
  unfold step
  split
  · rename_i i e
    have quiet := hq i e
    have hi := h.waits i (List.mem_of_getElem? e)
    have nored : ∀ (u j : ℕ) (q : Reader M),
        (s.tasks.set t (.reading i x.reader))[u]? = some (.reading j q) → u = t := by
      intro u j q hu
      by_contra hne
      rw [List.getElem?_set_ne (Ne.symm hne)] at hu
      exact quiet j q (List.mem_of_getElem? hu)
    refine ⟨by simp [Stream.seek, h.good], ?_, ?_, ?_, h.done, ?_⟩
    · intro j hj
      rcases mem hj with hj | hj
      · exact h.waits j hj
      · exact absurd hj (by simp)
    · intro a b j k r q ha hb
      rw [nored a j r ha, nored b k q hb]
    · intro j r hj
      rcases mem hj with hj | hj
      · exact absurd hj (quiet j r)
      · cases hj
        exact ⟨hi, by simp [Stream.seek, h.good]⟩
    · intro hf
      rcases mem hf with hf | hf
      · exact h.none_failed hf
      · exact absurd hf (by simp)
  · rename_i i m e
    have hr := h.right i _ (List.mem_of_getElem? e)
    refine ⟨h.good, ?_, ?_, ?_, ?_, ?_⟩
    · intro j hj
      rcases mem hj with hj | hj
      · exact h.waits j hj
      · exact absurd hj (by simp)
    · intro a b j k r q ha hb
      have key : ∀ (a j : ℕ) (r : Reader M),
          (s.tasks.set t .loaded)[a]? = some (.reading j r) → s.tasks[a]? = some (.reading j r) := by
        intro a j r ha
        by_cases hne : t = a
        · subst hne
          by_cases hl : t < s.tasks.length
          · rw [List.getElem?_set_self hl] at ha; simp at ha
          · rw [List.getElem?_eq_none (by simpa using Nat.le_of_not_lt hl)] at ha; simp at ha
        · rwa [List.getElem?_set_ne hne] at ha
      exact h.one a b j k r q (key a j r ha) (key b k q hb)
    · intro j r hj
      rcases mem hj with hj | hj
      · exact h.right j r hj
      · exact absurd hj (by simp)
    · intro j m' hj
      rcases List.mem_append.1 hj with hj | hj
      · exact h.done j m' hj
      · simp only [List.mem_singleton, Prod.mk.injEq] at hj
        obtain ⟨rfl, rfl⟩ := hj
        rw [← hr.2]; rfl
    · intro hf
      rcases mem hf with hf | hf
      · exact h.none_failed hf
      · exact absurd hf (by simp)
  · rename_i i n k e
    have hr := h.right i _ (List.mem_of_getElem? e)
    have hs := hm i hr.1
    rw [← hr.2] at hs
    have hlen : ¬ x.file.length < s.stream.pos + n := by
      intro hl
      simp [meshAt, hl] at hs
    have hread : s.stream.read x.file n =
        (some ((x.file.drop s.stream.pos).take n), ⟨s.stream.pos + n, false⟩) := by
      simp only [Stream.read, h.good, Bool.false_eq_true, if_false, if_neg hlen]
    rw [hread]
    have other : ∀ (u j : ℕ) (q : Reader M), s.tasks[u]? = some (.reading j q) → u = t :=
      fun u j q hu => h.one u t j i q _ hu e
    refine ⟨rfl, ?_, ?_, ?_, h.done, ?_⟩
    · intro j hj
      rcases mem hj with hj | hj
      · exact h.waits j hj
      · exact absurd hj (by simp)
    · intro a b j l r q ha hb
      have key : ∀ (a j : ℕ) (r : Reader M),
          (s.tasks.set t (.reading i (k ((x.file.drop s.stream.pos).take n))))[a]? =
            some (.reading j r) → a = t := by
        intro a j r ha
        by_contra hne
        rw [List.getElem?_set_ne (Ne.symm hne)] at ha
        exact hne (other a j r ha)
      rw [key a j r ha, key b l q hb]
    · intro j r hj
      obtain ⟨u, hu⟩ := List.getElem?_of_mem hj
      by_cases hne : t = u
      · subst hne
        by_cases hl : t < s.tasks.length
        · simp only [List.getElem?_set_self hl, Option.some.injEq, Task.reading.injEq] at hu
          obtain ⟨rfl, rfl⟩ := hu
          refine ⟨hr.1, ?_⟩
          rw [← hr.2]
          simp [meshAt, hlen]
        · simp only at hu
          rw [List.getElem?_eq_none (by simpa using Nat.le_of_not_lt hl)] at hu; simp at hu
      · simp only at hu
        rw [List.getElem?_set_ne hne] at hu
        exact absurd (other u j r hu).symm hne
    · intro hf
      rcases mem hf with hf | hf
      · exact h.none_failed hf
      · exact absurd hf (by simp)
  · exact h

theorem run_append {M : Type} (x : Input M) (s : State M) (a b : List ℕ) :
    run x s (a ++ b) = run x (run x s a) b := by
  simp [run, List.foldl_append]

theorem inv_run {M : Type} (x : Input M) (pages : List ℕ)
    (hm : ∀ i ∈ pages, (meshAt x.file x.reader (x.offset i)).isSome) (s : State M)
    (h : Inv x pages s) (sched : List ℕ) (ho : OneAtATime x s sched) :
    Inv x pages (run x s sched) := by
  induction sched generalizing s with
  | nil => exact h
  | cons t rest ih =>
    refine ih _ (inv_step x pages hm s h t (ho [] t rest rfl)) ?_
    intro before u after e i hi
    have := ho (t :: before) u after (by rw [e]; rfl) i
    exact this hi

theorem inv_start {M : Type} (x : Input M) (pos : ℕ) (pages : List ℕ) :
    Inv x pages (start M pos pages) := by
  have hr : ∀ i (r : Reader M), Task.reading i r ∉ (start M pos pages).tasks := by
    intro i r h; simp [start] at h
  refine ⟨rfl, ?_, ?_, fun i r h => absurd h (hr i r), ?_, ?_⟩
  · intro i h; simpa [start] using h
  · intro t u i j r q ht; exact absurd (List.mem_of_getElem? ht) (hr i r)
  · intro i m h; simp [start] at h
  · simp [start]

/-- **C100, partial: embedded pages, loaded one at a time.** Whatever the contents of the pages, in
whatever order they are loaded and however often, every page is given its mesh and no task fails.
Missing: tasks of several threads at once (`LoadsFull_false`). -/
theorem loads_partial {M : Type} (x : Input M) (pos : ℕ) (pages sched : List ℕ)
    (hm : ∀ i ∈ pages, (meshAt x.file x.reader (x.offset i)).isSome)
    (ho : OneAtATime x (start M pos pages) sched) :
    (∀ i m, (i, m) ∈ (run x (start M pos pages) sched).assigned →
      meshAt x.file x.reader (x.offset i) = some m) ∧
    Task.failed ∉ (run x (start M pos pages) sched).tasks :=
  let h := inv_run x pages hm _ (inv_start x pos pages) sched ho
  ⟨h.done, h.none_failed⟩

theorem replicate_step {M : Type} (x : Input M) (s : State M) (t n : ℕ) :
    run x s (List.replicate (n + 1) t) = run x (step x s t) (List.replicate n t) := rfl

/-- **C100: a load completes.** A task that is left alone on a working stream gives its page the
mesh of the page, and the stream still works. -/
theorem load_completes {M : Type} (x : Input M) (s : State M) (t i : ℕ) (m : M)
    (hb : s.stream.bad = false) (ht : s.tasks[t]? = some (.waiting i))
    (hm : meshAt x.file x.reader (x.offset i) = some m) :
    ∃ n, (run x s (List.replicate n t)).assigned = s.assigned ++ [(i, m)] ∧
      (run x s (List.replicate n t)).tasks = s.tasks.set t .loaded ∧
      (run x s (List.replicate n t)).stream.bad = false := by
  have hl : t < s.tasks.length := by
    by_contra hl
    rw [List.getElem?_eq_none (Nat.le_of_not_lt hl)] at ht
    simp at ht
  have reads : ∀ (r : Reader M) (s' : State M), s'.stream.bad = false →
      s'.tasks = s.tasks.set t (.reading i r) → s'.assigned = s.assigned →
      meshAt x.file r s'.stream.pos = some m →
      ∃ n, (run x s' (List.replicate n t)).assigned = s.assigned ++ [(i, m)] ∧
        (run x s' (List.replicate n t)).tasks = s.tasks.set t .loaded ∧
        (run x s' (List.replicate n t)).stream.bad = false := by
    intro r
    induction r with
    | ret m' =>
      intro s' hb' ht' ha' hm'
      have e : s'.tasks[t]? = some (.reading i (.ret m')) := by
        rw [ht', List.getElem?_set_self hl]
      simp only [meshAt, Option.some.injEq] at hm'
      subst hm'
      have hst : step x s' t = { s' with
          tasks := s'.tasks.set t .loaded, assigned := s'.assigned ++ [(i, m')] } := by
        simp only [step, e]
      refine ⟨1, ?_⟩
      rw [replicate_step, hst]
      exact ⟨by rw [← ha']; rfl, by simp [run, ht', List.set_set], hb'⟩
    | read n k ih =>
      intro s' hb' ht' ha' hm'
      have e : s'.tasks[t]? = some (.reading i (.read n k)) := by
        rw [ht', List.getElem?_set_self hl]
      have hlen : ¬ x.file.length < s'.stream.pos + n := by
        intro h; simp [meshAt, h] at hm'
      have hread : s'.stream.read x.file n =
          (some ((x.file.drop s'.stream.pos).take n), ⟨s'.stream.pos + n, false⟩) := by
        simp only [Stream.read, hb', Bool.false_eq_true, if_false, if_neg hlen]
      have hst : step x s' t = { s' with
          stream := ⟨s'.stream.pos + n, false⟩
          tasks := s'.tasks.set t (.reading i (k ((x.file.drop s'.stream.pos).take n))) } := by
        simp only [step, e, hread]
      obtain ⟨j, hj⟩ := ih ((x.file.drop s'.stream.pos).take n) (step x s' t) (by rw [hst])
        (by rw [hst, ht', List.set_set]) (by rw [hst]; exact ha')
        (by rw [hst]; simpa [meshAt, hlen] using hm')
      exact ⟨j + 1, by rw [replicate_step]; exact hj⟩
  have hst : step x s t = { s with
      stream := ⟨x.offset i, false⟩, tasks := s.tasks.set t (.reading i x.reader) } := by
    simp [step, ht, Stream.seek, hb]
  obtain ⟨n, hn⟩ := reads x.reader (step x s t) (by rw [hst]) (by rw [hst]) (by rw [hst])
    (by rw [hst]; exact hm)
  exact ⟨n + 1, by rw [replicate_step]; exact hn⟩

/-- `OneAtATime`, call by call. -/
theorem oneAtATime_cons {M : Type} (x : Input M) (s : State M) (t : ℕ) (rest : List ℕ)
    (h1 : ∀ i, s.tasks[t]? = some (.waiting i) → Quiet s)
    (h2 : OneAtATime x (step x s t) rest) : OneAtATime x s (t :: rest) := by
  intro before u after e i hi
  cases before with
  | nil =>
    simp only [List.nil_append, List.cons.injEq] at e
    obtain ⟨rfl, rfl⟩ := e
    exact h1 i hi
  | cons b before =>
    simp only [List.cons_append, List.cons.injEq] at e
    obtain ⟨rfl, rfl⟩ := e
    exact h2 before u after rfl i hi

theorem oneAtATime_nil {M : Type} (x : Input M) (s : State M) : OneAtATime x s [] := by
  intro before u after e
  simp at e

/-! ## External pages -/

/-- The invariant of `external_loads`, for one task. -/
def OwnInv {M : Type} (x : ExtInput M) (pages : List ℕ) (o : OwnTask M) : Prop :=
  match o.task with
  | .waiting i => i ∈ pages
  | .reading i r => i ∈ pages ∧ o.stream.bad = false ∧
      meshAt (x.file i) r o.stream.pos = meshAt (x.file i) x.reader 0
  | .loaded => True
  | .failed => False

/-- **C100, external pages.** In every schedule of any number of threads every page is given its
mesh and no task fails. -/
theorem external_loads {M : Type} (x : ExtInput M) (pages sched : List ℕ)
    (hm : ∀ i ∈ pages, (meshAt (x.file i) x.reader 0).isSome) :
    (∀ i m, (i, m) ∈ (extRun x (extStart M pages) sched).assigned →
      meshAt (x.file i) x.reader 0 = some m) ∧
    ∀ o ∈ (extRun x (extStart M pages) sched).tasks, o.task ≠ .failed := by
  suffices H : ∀ s : ExtState M, (∀ o ∈ s.tasks, OwnInv x pages o) →
      (∀ i m, (i, m) ∈ s.assigned → meshAt (x.file i) x.reader 0 = some m) →
      (∀ o ∈ (extRun x s sched).tasks, OwnInv x pages o) ∧
      ∀ i m, (i, m) ∈ (extRun x s sched).assigned → meshAt (x.file i) x.reader 0 = some m by
    obtain ⟨h1, h2⟩ := H (extStart M pages)
      (by intro o ho; simp only [extStart, List.mem_map] at ho; obtain ⟨i, hi, rfl⟩ := ho; exact hi)
      (by intro i m h; simp [extStart] at h)
    refine ⟨h2, fun o ho hf => ?_⟩
    have := h1 o ho
    simp [OwnInv, hf] at this
  induction sched with
  | nil => intro s h1 h2; exact ⟨h1, h2⟩
  | cons t rest ih =>
    intro s h1 h2
    have put : ∀ (o : OwnTask M), OwnInv x pages o → ∀ o' ∈ s.tasks.set t o, OwnInv x pages o' := by
      intro o ho o' ho'
      rcases List.mem_or_eq_of_mem_set ho' with h | rfl
      · exact h1 o' h
      · exact ho
    have key : (∀ o ∈ (extStep x s t).tasks, OwnInv x pages o) ∧
        ∀ i m, (i, m) ∈ (extStep x s t).assigned → meshAt (x.file i) x.reader 0 = some m := by
      unfold extStep
      split
      · rename_i st i e
        have hi := h1 _ (List.mem_of_getElem? e)
        exact ⟨put _ ⟨hi, rfl, rfl⟩, h2⟩
      · rename_i st i m e
        have hi := h1 _ (List.mem_of_getElem? e)
        refine ⟨put _ trivial, ?_⟩
        intro j m' hj
        rcases List.mem_append.1 hj with hj | hj
        · exact h2 j m' hj
        · simp only [List.mem_singleton, Prod.mk.injEq] at hj
          obtain ⟨rfl, rfl⟩ := hj
          rw [← hi.2.2]; rfl
      · rename_i st i n k e
        obtain ⟨hi, hb, hmesh⟩ := h1 _ (List.mem_of_getElem? e)
        have hs := hm i hi
        rw [← hmesh] at hs
        simp only at hb hs
        have hlen : ¬ (x.file i).length < st.pos + n := by
          intro hl; simp [meshAt, hl] at hs
        have hread : st.read (x.file i) n =
            (some (((x.file i).drop st.pos).take n), ⟨st.pos + n, false⟩) := by
          simp only [Stream.read, hb, Bool.false_eq_true, if_false, if_neg hlen]
        rw [hread]
        refine ⟨put _ ⟨hi, rfl, ?_⟩, h2⟩
        rw [← hmesh]
        simp [meshAt, hlen]
      · exact ⟨h1, h2⟩
    exact ih _ key.1 key.2

theorem ext_replicate {M : Type} (x : ExtInput M) (s : ExtState M) (n t : ℕ) :
    extRun x s (List.replicate (n + 1) t) = extRun x (extStep x s t) (List.replicate n t) := by
  simp [extRun, List.replicate_succ]

/-- **C100, external pages load.** Whatever the other tasks have done so far, a task that still waits
gives its page the mesh of the file of that page, once, after finitely many of its own calls. -/
theorem external_completes {M : Type} (x : ExtInput M) (s : ExtState M) (t i : ℕ) (st : Stream) (m : M)
    (ht : s.tasks[t]? = some ⟨st, .waiting i⟩) (hm : meshAt (x.file i) x.reader 0 = some m) :
    ∃ n, (extRun x s (List.replicate n t)).assigned = s.assigned ++ [(i, m)] ∧
      ∃ st', (extRun x s (List.replicate n t)).tasks = s.tasks.set t ⟨st', .loaded⟩ := by
  have hl : t < s.tasks.length := by
    by_contra hl
    rw [List.getElem?_eq_none (Nat.le_of_not_lt hl)] at ht
    simp at ht
  have reads : ∀ (r : Reader M) (s' : ExtState M) (p : ℕ),
      s'.tasks = s.tasks.set t ⟨⟨p, false⟩, .reading i r⟩ → s'.assigned = s.assigned →
      meshAt (x.file i) r p = some m →
      ∃ n, (extRun x s' (List.replicate n t)).assigned = s.assigned ++ [(i, m)] ∧
        ∃ st', (extRun x s' (List.replicate n t)).tasks = s.tasks.set t ⟨st', .loaded⟩ := by
    intro r
    induction r with
    | ret m' =>
      intro s' p ht' ha' hm'
      have e : s'.tasks[t]? = some ⟨⟨p, false⟩, .reading i (.ret m')⟩ := by
        rw [ht', List.getElem?_set_self hl]
      simp only [meshAt, Option.some.injEq] at hm'
      subst hm'
      have hst : extStep x s' t = ⟨s'.tasks.set t ⟨⟨p, false⟩, .loaded⟩, s'.assigned ++ [(i, m')]⟩ := by
        simp only [extStep, e]
      refine ⟨1, ?_⟩
      rw [ext_replicate, hst]
      exact ⟨by rw [← ha']; rfl, ⟨p, false⟩, by simp [extRun, ht', List.set_set]⟩
    | read n k ih =>
      intro s' p ht' ha' hm'
      have e : s'.tasks[t]? = some ⟨⟨p, false⟩, .reading i (.read n k)⟩ := by
        rw [ht', List.getElem?_set_self hl]
      have hlen : ¬ (x.file i).length < p + n := by
        intro h; simp [meshAt, h] at hm'
      have hread : (Stream.mk p false).read (x.file i) n =
          (some (((x.file i).drop p).take n), ⟨p + n, false⟩) := by
        simp only [Stream.read, Bool.false_eq_true, if_false, if_neg hlen]
      have hst : extStep x s' t = { s' with
          tasks := s'.tasks.set t ⟨⟨p + n, false⟩, .reading i (k (((x.file i).drop p).take n))⟩ } := by
        simp only [extStep, e, hread]
      obtain ⟨j, hj⟩ := ih (((x.file i).drop p).take n) (extStep x s' t) (p + n)
        (by rw [hst, ht', List.set_set]) (by rw [hst]; exact ha')
        (by simpa [meshAt, hlen] using hm')
      exact ⟨j + 1, by rw [ext_replicate]; exact hj⟩
  have hst : extStep x s t = { s with tasks := s.tasks.set t ⟨⟨0, false⟩, .reading i x.reader⟩ } := by
    simp only [extStep, ht]
  obtain ⟨n, hn⟩ := reads x.reader (extStep x s t) 0 (by rw [hst]) (by rw [hst]) hm
  exact ⟨n + 1, by rw [ext_replicate]; exact hn⟩

/-- Non-vacuous: one task, whose page has a mesh of one byte. -/
example : (extStart UInt8 [3]).tasks[0]? = some ⟨⟨0, false⟩, .waiting 3⟩ ∧
    meshAt [7] (.read 1 fun b => .ret (b.headD 0)) 0 = some 7 := by
  constructor <;> rfl

/-! ## Findings -/

/-- **Finding.** Once a read went beyond the end of the file no page is ever read again: no task
that still has to read a block assigns a mesh. -/
theorem broken_forever {M : Type} (x : Input M) (n : ℕ) (k : List UInt8 → Reader M)
    (hx : x.reader = .read n k) (s : State M) (hb : s.stream.bad = true)
    (hr : ∀ i m, Task.reading i (.ret m) ∉ s.tasks) (sched : List ℕ) :
    (run x s sched).assigned = s.assigned := by
  suffices H : (run x s sched).assigned = s.assigned ∧ (run x s sched).stream.bad = true ∧
      ∀ i m, Task.reading i (.ret m) ∉ (run x s sched).tasks from H.1
  induction sched generalizing s with
  | nil => exact ⟨rfl, hb, hr⟩
  | cons t rest ih =>
    have key : (step x s t).assigned = s.assigned ∧ (step x s t).stream.bad = true ∧
        ∀ i m, Task.reading i (.ret m) ∉ (step x s t).tasks := by
      unfold step
      split
      · refine ⟨rfl, by simp [Stream.seek, hb], ?_⟩
        intro i m h
        rcases List.mem_or_eq_of_mem_set h with h | h
        · exact hr i m h
        · rw [hx] at h; simp at h
      · rename_i i m e
        exact absurd (List.mem_of_getElem? e) (hr i m)
      · have hread : ∀ n, s.stream.read x.file n = (none, s.stream) := by
          intro n; simp [Stream.read, hb]
        rw [hread]
        refine ⟨rfl, hb, ?_⟩
        intro i m h
        rcases List.mem_or_eq_of_mem_set h with h | h
        · exact hr i m h
        · simp at h
      · exact ⟨rfl, hb, hr⟩
    obtain ⟨h1, h2, h3⟩ := ih _ key.2.1 key.2.2
    exact ⟨h1.trans key.1, h2, h3⟩

/-- Two pages of two bytes each. -/
def exInput : Input (List UInt8) where
  file := [1, 2, 3, 4]
  offset i := 2 * i
  reader := .read 1 fun a => .read 1 fun b => .ret (a ++ b)

/-- **Finding.** Two tasks position the shared stream before either reads: page 0 is given the mesh
of page 1, and the task of page 1 reads beyond the end and fails. -/
theorem wrong_page :
    (run exInput (start _ 0 [0, 1]) [0, 1, 0, 0, 0, 1]).assigned = [(0, [3, 4])] ∧
    meshAt exInput.file exInput.reader (exInput.offset 0) = some [1, 2] ∧
    (run exInput (start _ 0 [0, 1]) [0, 1, 0, 0, 0, 1]).stream.bad = true := by
  refine ⟨?_, ?_, ?_⟩ <;> rfl

/-- **C100 is false of the code.** -/
theorem LoadsFull_false : ¬ LoadsFull := by
  intro h
  have := (h _ exInput 0 [0, 1] [0, 1, 0, 0, 0, 1] (by
    intro i hi
    simp only [List.mem_cons, List.not_mem_nil, or_false] at hi
    rcases hi with rfl | rfl <;> rfl)).1 0 [3, 4] (by rw [wrong_page.1]; simp)
  rw [wrong_page.2.1] at this
  simp at this

/-- One task after the other: both pages are given their meshes, in either order. -/
example : (run exInput (start _ 7 [0, 1]) [1, 1, 1, 1, 0, 0, 0, 0]).assigned =
    [(1, [3, 4]), (0, [1, 2])] := rfl

example : OneAtATime exInput (start _ 7 [0, 1]) [1, 1, 1, 1, 0, 0, 0, 0] := by
  repeat' apply oneAtATime_cons
  all_goals first
    | exact oneAtATime_nil _ _
    | (intro i h j r hm
       simp [step, start, exInput, Stream.seek, Stream.read] at h hm)

example : ∀ i ∈ [0, 1], (meshAt exInput.file exInput.reader (exInput.offset i)).isSome := by
  intro i hi
  simp only [List.mem_cons, List.not_mem_nil, or_false] at hi
  rcases hi with rfl | rfl <;> rfl

end Edyn.Mesh.Parallel
