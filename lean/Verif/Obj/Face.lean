import Verif.Obj.Read

/-!
# Reading `*.obj` files: faces (C92)
-/

namespace Edyn.Obj

open Edyn.Math V3

theorem digits_eq {w : List Char} {k : ℕ} (h : Numeral w k) : digits w = some k := by
  obtain ⟨h0, hd, hk⟩ := h
  have : w.takeWhile digit = w := by simpa using takeWhile_all w [] hd (by simp)
  simp [digits, this, h0, hk]

theorem stoi_eq {w : List Char} {k : ℕ} (h : Numeral w k) (hk : k ≤ 2147483647) : stoi w = some (k : ℤ) := by
  have hd := digits_eq h
  obtain ⟨h0, hc, -⟩ := h
  rcases w with _ | ⟨c, w⟩
  · exact absurd rfl h0
  · have h1 : c ≠ '-' := by rintro rfl; exact absurd (hc '-' (by simp)) (by decide)
    have h2 : c ≠ '+' := by rintro rfl; exact absurd (hc '+' (by simp)) (by decide)
    unfold stoi
    split
    · rename_i s heq; simp at heq; exact absurd heq.1 h1
    · rename_i s heq; simp at heq; exact absurd heq.1 h2
    · rw [hd]
      simp only [Option.map_some, Option.bind_some]
      rw [if_pos (by omega)]

theorem corner_stoi {w : List Char} {k : ℕ} (h : Corner w k) (hk : k ≤ 2147483647) :
    stoi (w.takeWhile (· ≠ '/')) = some (k : ℤ) := by
  have key {d : List Char} (hd : Numeral d k) : ∀ c ∈ d, decide (c ≠ '/') = true := by
    intro c hc
    have := hd.2.1 c hc
    by_contra hn
    have : c = '/' := by simpa using hn
    subst this
    exact absurd ‹digit '/' = true› (by decide)
  rcases h with h | ⟨d, r, rfl, h⟩
  · have : w.takeWhile (fun c => decide (c ≠ '/')) = w := by
      simpa using takeWhile_all w [] (key h) (by simp)
    rw [this]; exact stoi_eq h hk
  · rw [takeWhile_all d ('/' :: r) (key h) (by simp)]
    exact stoi_eq h hk

theorem u32_small {n : ℕ} (h : n < 4294967296) : u32 n = n := by unfold u32; omega

/-- What the loop appends, given the number of corners read so far, the first and the last of them. -/
def emit (tri : Bool) : ℕ → ℕ → ℕ → List ℕ → List ℕ
  | _, _, _, [] => []
  | count, first, prev, k :: ks =>
    (if tri && 3 ≤ count then [first, prev] else []) ++ k :: emit tri (count + 1) (if count = 0 then k else first) k ks

theorem faceLoop_eq (offset : ℕ) (tri : Bool) {ws : List (List Char)} {cs : List ℕ}
    (h : List.Forall₂ Corner ws cs) (hc : ∀ k ∈ cs, offset < k ∧ k ≤ 2147483647) :
    ∀ (fuel : ℕ) (i : Iss) (is : List ℕ) (count first prev : ℕ), i.Good ws → i.rest.length < fuel →
    faceLoop offset tri fuel i is count first prev =
      some (is ++ emit tri count first prev (cs.map fun k => k - 1 - offset)) := by
  induction h with
  | nil =>
    intro fuel i is count first prev g hf
    obtain ⟨fuel, rfl⟩ : ∃ n, fuel = n + 1 := ⟨fuel - 1, by omega⟩
    simp [faceLoop, (Iss.word_nil g).1, emit]
  | @cons w k ws cs hw _ ih =>
    intro fuel i is count first prev g hf
    obtain ⟨fuel, rfl⟩ : ∃ n, fuel = n + 1 := ⟨fuel - 1, by omega⟩
    obtain ⟨h1, g1, -, hlt, -⟩ := Iss.word_cons g
    obtain ⟨hk1, hk2⟩ := hc k (by simp)
    have e1 : u32 (k : ℤ) = k := u32_small (by omega)
    have e2 : u32 (1 + (offset : ℤ)) = 1 + offset := by
      have := u32_small (n := 1 + offset) (by omega)
      simpa using this
    have e3 : u32 ((k : ℤ) - 1 - offset) = k - 1 - offset := by
      have : ((k : ℤ) - 1 - offset) = ((k - 1 - offset : ℕ) : ℤ) := by omega
      rw [this]; exact u32_small (by omega)
    simp only [faceLoop, h1, corner_stoi hw hk2, e1, e2, e3]
    rw [if_neg (by omega), ih (fun k hk => hc k (by simp [hk])) _ _ _ _ _ _ g1 (by omega)]
    simp only [List.map_cons, emit]
    split <;> simp

theorem emit_false (count first prev : ℕ) (ks : List ℕ) : emit false count first prev ks = ks := by
  induction ks generalizing count first prev with
  | nil => rfl
  | cons k ks ih => simp [emit, ih]

theorem emit_fan (count first prev : ℕ) (ks : List ℕ) (h : 3 ≤ count) :
    emit true count first prev ks = (fan (first :: prev :: ks)).flatten := by
  induction ks generalizing count prev with
  | nil => rfl
  | cons k ks ih =>
    rw [emit, if_neg (by omega : ¬count = 0), ih (count + 1) k (by omega)]
    simp [h, fan]

/-- A face is cut into a fan. -/
theorem emit_true (a b : ℕ) (ks : List ℕ) (h : 3 ≤ ks.length) : emit true 0 a b ks = (fan ks).flatten := by
  rcases ks with _ | ⟨x, _ | ⟨y, _ | ⟨z, ks⟩⟩⟩ <;> simp at h
  simp [emit, emit_fan 3 x z ks (le_refl 3), fan]

theorem fan_length {α : Type} (l : List α) : ∀ t ∈ fan l, t.length = 3 := by
  intro t ht
  rcases l with _ | ⟨a, bs⟩
  · simp [fan] at ht
  · simp only [fan, List.mem_map] at ht
    obtain ⟨x, -, rfl⟩ := ht
    rfl

theorem fan_map {α β : Type} (f : α → β) (l : List α) : fan (l.map f) = (fan l).map (List.map f) := by
  rcases l with _ | ⟨a, bs⟩
  · rfl
  · simp [fan, List.zip_map', ← List.map_tail, List.zip_map, Function.comp_def]

variable {T : Type}

theorem triangles_flatten (vs : List (V3 T)) (ts : List (List ℕ)) (h : ∀ t ∈ ts, t.length = 3) :
    triangles vs ts.flatten = ts.map fun t => t.map (vs[·]?) := by
  induction ts with
  | nil => rfl
  | cons t ts ih =>
    have h3 := h t (by simp)
    obtain ⟨a, b, c, rfl⟩ : ∃ a b c, t = [a, b, c] := by
      rcases t with _ | ⟨a, _ | ⟨b, _ | ⟨c, _ | ⟨d, t⟩⟩⟩⟩ <;> simp at h3
      exact ⟨a, b, c, rfl⟩
    simp [triangles, ih fun t ht => h t (by simp [ht])]

variable [Field T]

theorem readFaceIndices_eq {s : List Char} {ws : List (List Char)} {cs : List ℕ} (hs : Words s ws)
    (h : List.Forall₂ Corner ws cs) (offset : ℕ) (tri : Bool) (is : List ℕ)
    (hc : ∀ k ∈ cs, offset < k ∧ k ≤ 2147483647) :
    readFaceIndices s is offset tri = some (is ++ emit tri 0 0 0 (cs.map fun k => k - 1 - offset)) :=
  faceLoop_eq offset tri h hc _ _ _ _ _ _ ⟨hs, rfl, by simp⟩ (by simp)

/-- A face line of a mesh. -/
theorem readFace_eq {s : List Char} {ws : List (List Char)} {cs : List ℕ} (hs : Words s ws)
    (h : List.Forall₂ Corner ws cs) (offset : ℕ) (m : Mesh T) (hc : ∀ k ∈ cs, offset < k ∧ k ≤ 2147483647)
    (hn : m.indices.length + cs.length < 4294967296) :
    readFace s m offset = some { m with indices := m.indices ++ cs.map fun k => k - 1 - offset,
                                        faces := m.faces ++ [m.indices.length, cs.length] } := by
  unfold readFace
  rw [readFaceIndices_eq hs h offset false m.indices hc, emit_false]
  have e1 : u32 m.indices.length = m.indices.length := u32_small (by omega)
  have e2 : u32 (((m.indices ++ cs.map fun k => k - 1 - offset).length : ℤ) - (m.indices.length : ℕ)) = cs.length := by
    have : (((m.indices ++ cs.map fun k => k - 1 - offset).length : ℤ) - (m.indices.length : ℕ)) = (cs.length : ℕ) := by
      simp
    rw [this]; exact u32_small (by omega)
  simp only [Option.map_some, e1, e2]

end Edyn.Obj
