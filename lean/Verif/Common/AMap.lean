/-!
# Finite maps as association lists

Model of `std::map` / `std::unordered_map` used throughout the model: a list of key/value pairs in
which insertion replaces.  Only the documented behaviour of the standard containers is captured
(lookup after insertion/erasure, each key at most once); iteration order is the list order, i.e. an
arbitrary fixed order.
-/

namespace Edyn

/-- Association list, model of `std::unordered_map<K, V>` and `std::map<K, V>`. -/
structure AMap (K V : Type) where
  entries : List (K × V)
  deriving Repr, DecidableEq

namespace AMap

variable {K V : Type} [DecidableEq K]

/-- A default-constructed container. -/
def empty : AMap K V := ⟨[]⟩

def lookupList : List (K × V) → K → Option V
  | [], _ => none
  | (k', v) :: es, k => if k = k' then some v else lookupList es k

/-- `find` / `count` / `at`: `none` stands for "absent". -/
def get? (m : AMap K V) (k : K) : Option V := lookupList m.entries k

/-- `erase(key)`. -/
def erase (m : AMap K V) (k : K) : AMap K V := ⟨m.entries.filter (fun e => e.1 ≠ k)⟩

/-- `map[k] = v`. -/
def set (m : AMap K V) (k : K) (v : V) : AMap K V := ⟨(k, v) :: (m.erase k).entries⟩

/-- `count(k) > 0`. -/
def contains (m : AMap K V) (k : K) : Bool := (m.get? k).isSome

/-- The keys, in iteration order. -/
def keys (m : AMap K V) : List K := m.entries.map (·.1)

/-- Each key occurs at most once; guaranteed by the standard containers. -/
def WF (m : AMap K V) : Prop := m.keys.Nodup

@[simp] theorem get?_empty (k : K) : (empty : AMap K V).get? k = none := rfl

theorem lookupList_filter (es : List (K × V)) (k k' : K) :
    lookupList (es.filter (fun e => e.1 ≠ k)) k' = if k' = k then none else lookupList es k' := by
  induction es with
  | nil => simp [lookupList]
  | cons e es ih =>
    obtain ⟨a, b⟩ := e
    by_cases h : a = k
    · subst h
      rw [List.filter_cons_of_neg (by simp), ih]
      by_cases h2 : k' = a <;> simp [h2, lookupList]
    · rw [List.filter_cons_of_pos (by simpa using h)]
      simp only [lookupList]
      by_cases h2 : k' = a
      · subst h2; simp [h]
      · rw [if_neg h2, ih, if_neg h2]

@[simp] theorem get?_erase (m : AMap K V) (k k' : K) :
    (m.erase k).get? k' = if k' = k then none else m.get? k' :=
  lookupList_filter m.entries k k'

@[simp] theorem get?_set (m : AMap K V) (k k' : K) (v : V) :
    (m.set k v).get? k' = if k' = k then some v else m.get? k' := by
  have := get?_erase m k k'
  simp only [get?, set, lookupList] at *
  by_cases h : k' = k
  · simp [h]
  · simpa [h] using this

theorem lookupList_some_mem {es : List (K × V)} {k : K} {v : V} (h : lookupList es k = some v) :
    (k, v) ∈ es := by
  induction es with
  | nil => simp [lookupList] at h
  | cons e es ih =>
    obtain ⟨a, b⟩ := e
    simp only [lookupList] at h
    split at h
    · simp_all
    · exact List.mem_cons_of_mem _ (ih h)

theorem mem_of_get? {m : AMap K V} {k : K} {v : V} (h : m.get? k = some v) : (k, v) ∈ m.entries :=
  lookupList_some_mem h

theorem lookupList_none {es : List (K × V)} {k : K} (h : lookupList es k = none) :
    k ∉ es.map (·.1) := by
  induction es with
  | nil => simp
  | cons e es ih =>
    obtain ⟨a, b⟩ := e
    simp only [lookupList] at h
    split at h
    · simp at h
    · rename_i hk
      simp only [List.map_cons, List.mem_cons, not_or]
      exact ⟨hk, ih h⟩

theorem lookupList_of_mem {es : List (K × V)} (hn : (es.map (·.1)).Nodup) {k : K} {v : V}
    (h : (k, v) ∈ es) : lookupList es k = some v := by
  induction es with
  | nil => simp at h
  | cons e es ih =>
    obtain ⟨a, b⟩ := e
    simp only [List.map_cons, List.nodup_cons] at hn
    simp only [lookupList]
    rcases List.mem_cons.1 h with h | h'
    · cases h; simp
    · have : k ≠ a := by
        rintro rfl
        exact hn.1 (List.mem_map.2 ⟨(k, v), h', rfl⟩)
      simp [this, ih hn.2 h']

theorem get?_of_mem {m : AMap K V} (hw : m.WF) {k : K} {v : V} (h : (k, v) ∈ m.entries) :
    m.get? k = some v := lookupList_of_mem hw h

theorem mem_iff_get? {m : AMap K V} (hw : m.WF) {k : K} {v : V} :
    (k, v) ∈ m.entries ↔ m.get? k = some v := ⟨get?_of_mem hw, mem_of_get?⟩

omit [DecidableEq K] in
theorem wf_empty : (empty : AMap K V).WF := by simp [WF, keys, empty]

theorem wf_erase {m : AMap K V} (h : m.WF) (k : K) : (m.erase k).WF := by
  unfold WF keys erase at *
  exact h.sublist (List.Sublist.map _ List.filter_sublist)

theorem wf_set {m : AMap K V} (h : m.WF) (k : K) (v : V) : (m.set k v).WF := by
  unfold WF keys set
  simp only [List.map_cons, List.nodup_cons]
  refine ⟨?_, wf_erase h k⟩
  simp [erase]

theorem get?_none_iff {m : AMap K V} {k : K} : m.get? k = none ↔ k ∉ m.keys := by
  constructor
  · exact lookupList_none
  · intro h
    cases hg : m.get? k with
    | none => rfl
    | some v => exact absurd (List.mem_map.2 ⟨_, mem_of_get? hg, rfl⟩) h

theorem contains_iff {m : AMap K V} {k : K} : m.contains k = true ↔ ∃ v, m.get? k = some v := by
  simp [contains, Option.isSome_iff_exists]

end AMap
end Edyn
