import Verif.Obj.Spec

/-!
# Reading `*.obj` files: lines and words (C92)
-/

namespace Edyn.Obj

open Edyn.Math V3

theorem lines_append (l s : List Char) (h : '\n' ∉ l) : lines (l ++ '\n' :: s) = l :: lines s := by
  induction l with
  | nil => simp [lines]
  | cons c l ih =>
    simp only [List.mem_cons, not_or] at h
    simp [lines, ih h.2, Ne.symm h.1]

theorem lines_last (l : List Char) (h0 : l ≠ []) (h : '\n' ∉ l) : lines l = [l] := by
  induction l with
  | nil => exact absurd rfl h0
  | cons c l ih =>
    simp only [List.mem_cons, not_or] at h
    rcases l with _ | ⟨d, l⟩
    · simp [lines, Ne.symm h.1]
    · rw [lines, if_neg (Ne.symm h.1), ih (by simp) h.2]

/-- `std::getline` returns the lines. -/
theorem lines_eq {s : List Char} {ls : List (List Char)} (h : Lines s ls) : lines s = ls := by
  induction h with
  | nil => rfl
  | last l h0 h => exact lines_last l h0 h
  | cons l s ls h _ ih => rw [lines_append l s h, ih]

/-- Every text consists of lines. -/
theorem lines_exist (s : List Char) : Lines s (lines s) := by
  induction s with
  | nil => exact .nil
  | cons c s ih =>
    by_cases hc : c = '\n'
    · subst hc
      simpa [lines] using Lines.cons [] s _ (by simp) ih
    · rw [lines, if_neg hc]
      cases hs : lines s with
      | nil =>
        rw [hs] at ih
        cases ih
        exact .last [c] (by simp) (by simpa using Ne.symm hc)
      | cons l ls =>
        rw [hs] at ih
        cases ih with
        | last _ h0 h => exact .last _ (by simp) (by simpa using ⟨Ne.symm hc, h⟩)
        | cons _ s' _ h h' => exact .cons (c :: l) s' ls (by simpa using ⟨Ne.symm hc, h⟩) h'

theorem dropWhile_all {p : Char → Bool} (s r : List Char) (h : ∀ c ∈ s, p c = true)
    (hr : ∀ c ∈ r.head?, p c = false) : (s ++ r).dropWhile p = r := by
  induction s with
  | nil =>
    rcases r with _ | ⟨c, r⟩
    · rfl
    · have := hr c (by simp)
      simp [this]
  | cons c s ih => simp [h c (by simp), ih fun d hd => h d (by simp [hd])]

theorem takeWhile_all {p : Char → Bool} (s r : List Char) (h : ∀ c ∈ s, p c = true)
    (hr : ∀ c ∈ r.head?, p c = false) : (s ++ r).takeWhile p = s := by
  induction s with
  | nil =>
    rcases r with _ | ⟨c, r⟩
    · rfl
    · have := hr c (by simp)
      simp [this]
  | cons c s ih => simp [h c (by simp), ih fun d hd => h d (by simp [hd])]

/-- The stream is good and has the words `ws` left. -/
structure Iss.Good (i : Iss) (ws : List (List Char)) : Prop where
  words : Words i.rest ws
  fail : i.fail = false
  eof : i.eof = true → i.rest = []

theorem words_nil {ws : List (List Char)} (h : Words [] ws) : ws = [] := by
  generalize hs : ([] : List Char) = s at h
  cases h with
  | nil => rfl
  | cons s w r ws _ hw => simp at hs; exact absurd hs.2.1 hw

theorem Iss.word_nil {i : Iss} (h : i.Good []) : i.word.2 = none ∧ i.word.1.fail = true := by
  have hs : i.sentry.2 = false ∧ i.sentry.1.fail = true := by
    unfold Iss.sentry
    by_cases he : (i.eof || i.fail) = true
    · rw [if_pos he]; exact ⟨rfl, rfl⟩
    · rw [if_neg he]
      have : i.rest.dropWhile isSpace = [] := by
        have := h.words
        generalize i.rest = r at this
        generalize hn : ([] : List (List Char)) = ws at this
        cases this with
        | nil _ ha => simpa using dropWhile_all r [] ha (by simp)
        | cons => simp at hn
      rw [this]; exact ⟨rfl, rfl⟩
  unfold Iss.word
  simp [hs.1, hs.2]

theorem Iss.word_cons {i : Iss} {w : List Char} {ws : List (List Char)} (h : i.Good (w :: ws)) :
    i.word.2 = some w ∧ i.word.1.Good ws ∧ i.eof = false ∧ i.word.1.rest.length < i.rest.length ∧
    (i.word.1.eof = false → i.word.1.rest ≠ []) := by
  obtain ⟨hw, hf, he⟩ := h
  rcases i with ⟨rest, eof, fail⟩
  simp only at hw hf he
  subst hf
  have he' : eof = false := by
    cases eof with
    | false => rfl
    | true =>
      have h0 := he rfl
      rw [h0] at hw
      have := words_nil hw
      simp at this
  subst he'
  cases hw with
  | cons s w r ws hs hw hn hr hws =>
    have hd : (s ++ w ++ r).dropWhile isSpace = w ++ r := by
      rw [List.append_assoc]
      refine dropWhile_all _ _ hs ?_
      rcases w with _ | ⟨c, w⟩
      · exact absurd rfl hw
      · intro d hd
        simp at hd
        subst hd
        exact hn _ (by simp)
    have hsen : (⟨s ++ w ++ r, false, false⟩ : Iss).sentry = (⟨w ++ r, false, false⟩, true) := by
      unfold Iss.sentry
      simp only [Bool.or_self, Bool.false_eq_true, if_false, hd]
      rcases w with _ | ⟨c, w⟩
      · exact absurd rfl hw
      · rfl
    have h1 : (w ++ r).dropWhile (!isSpace ·) = r :=
      dropWhile_all w r (by simpa using hn) (by simpa using hr)
    have h2 : (w ++ r).takeWhile (!isSpace ·) = w :=
      takeWhile_all w r (by simpa using hn) (by simpa using hr)
    unfold Iss.word
    simp only [hsen, if_true, h1, h2, true_and]
    refine ⟨⟨hws, rfl, by simp⟩, ?_, by simp⟩
    have : 0 < w.length := List.length_pos_iff.2 hw
    simp; omega

/-- The words after the command of a line. -/
theorem words_tail {c : Char} {s : List Char} {ws : List (List Char)} (hc : isSpace c = false)
    (h : Words (c :: ' ' :: s) ws) : ∃ ws', ws = [c] :: ws' ∧ Words (' ' :: s) ws' := by
  generalize hl : c :: ' ' :: s = l at h
  cases h with
  | nil _ h =>
    have := h c (by rw [← hl]; simp)
    rw [this] at hc; simp at hc
  | cons a w r ws ha hw hn hr hws =>
    rcases a with _ | ⟨d, a⟩
    · rcases w with _ | ⟨d, w⟩
      · exact absurd rfl hw
      · simp only [List.nil_append, List.cons_append, List.cons.injEq] at hl
        obtain ⟨rfl, hl⟩ := hl
        rcases w with _ | ⟨d, w⟩
        · simp at hl
          exact ⟨ws, rfl, hl ▸ hws⟩
        · simp only [List.cons_append, List.cons.injEq] at hl
          have := hn d (by simp)
          rw [← hl.1] at this
          simp [isSpace] at this
    · simp only [List.cons_append, List.cons.injEq] at hl
      have := ha d (by simp)
      rw [← hl.1, hc] at this; simp at this

theorem command_cons {c : Char} (hc : c ≠ ' ') (s : List Char) :
    command (c :: ' ' :: s) = some ([c], ' ' :: s) := by
  simp [command, hc]

/-- If the command is a single letter, the line starts with the letter and a space. -/
theorem command_inv {l cmd s : List Char} {c : Char} (h : command l = some (cmd, s)) (hc : cmd = [c]) :
    ∃ r, l = c :: ' ' :: r := by
  subst hc
  unfold command at h
  by_cases hm : ' ' ∈ l
  · rw [if_pos hm] at h
    simp only [Option.some.injEq, Prod.mk.injEq] at h
    rcases l with _ | ⟨d, l⟩
    · simp at hm
    · by_cases hd : d = ' '
      · subst hd; simp at h
      · rw [List.takeWhile_cons_of_pos (by simpa using hd)] at h
        simp only [List.cons.injEq] at h
        obtain ⟨⟨rfl, h⟩, -⟩ := h
        rcases l with _ | ⟨e, l⟩
        · simp [Ne.symm hd] at hm
        · by_cases he : e = ' '
          · subst he; exact ⟨l, rfl⟩
          · rw [List.takeWhile_cons_of_pos (by simpa using he)] at h
            simp at h
  · rw [if_neg hm] at h; simp at h

variable {T : Type} [Field T]

theorem scalar_cons {num : List Char → Option T} {i : Iss} {w : List Char} {ws : List (List Char)} {x : T}
    (h : i.Good (w :: ws)) (hx : num w = some x) :
    i.scalar num = (i.word.1, some x) ∧ i.word.1.Good ws := by
  obtain ⟨h1, h2, -⟩ := Iss.word_cons h
  refine ⟨?_, h2⟩
  simp only [Iss.scalar, h1, hx]

theorem scalar_nil {num : List Char → Option T} {i : Iss} (h : i.Good []) :
    (i.scalar num).2 = none ∧ (i.scalar num).1.fail = true := by
  obtain ⟨h1, h2⟩ := Iss.word_nil h
  simp only [Iss.scalar, h1]
  exact ⟨trivial, h2⟩

theorem word_fail {i : Iss} (h : i.fail = true) : i.word.2 = none ∧ i.word.1.fail = true := by
  unfold Iss.word Iss.sentry
  simp [h]

theorem scalar_fail {num : List Char → Option T} {i : Iss} (h : i.fail = true) :
    (i.scalar num).1.fail = true := by
  obtain ⟨h1, h2⟩ := word_fail h
  simp only [Iss.scalar, h1]
  exact h2

theorem readV3_cons {num : List Char → Option T} {i : Iss} {a b c : List Char} {ws : List (List Char)}
    {x y z : T} (h : i.Good (a :: b :: c :: ws)) (hx : num a = some x) (hy : num b = some y)
    (hz : num c = some z) : (readV3 num i).2 = some ⟨x, y, z⟩ ∧ (readV3 num i).1.Good ws ∧
      (readV3 num i).1.fail = false := by
  obtain ⟨h1, g1⟩ := scalar_cons h hx
  obtain ⟨h2, g2⟩ := scalar_cons g1 hy
  obtain ⟨h3, g3⟩ := scalar_cons g2 hz
  unfold readV3
  simp only [h1, h2, h3]
  exact ⟨rfl, g3, g3.fail⟩

theorem readV3_nil {num : List Char → Option T} {i : Iss} (h : i.Good []) : (readV3 num i).1.fail = true := by
  unfold readV3
  exact scalar_fail (scalar_fail (scalar_nil h).2)

theorem readV3_one {num : List Char → Option T} {i : Iss} {a : List Char} {x : T} (h : i.Good [a])
    (hx : num a = some x) : (readV3 num i).1.fail = true := by
  obtain ⟨h1, g1⟩ := scalar_cons h hx
  unfold readV3
  simp only [h1]
  exact scalar_fail (scalar_nil g1).2

variable [DecidableEq T]

/-- Placing a vertex is scaling, rotating and moving it. -/
theorem apply_placed (p : Place T) (v : V3 T) : p.apply v = p.placed v := by
  have h1 : (if p.scale ≠ ⟨1, 1, 1⟩ then (⟨v.x * p.scale.x, v.y * p.scale.y, v.z * p.scale.z⟩ : V3 T) else v)
      = ⟨p.scale.x * v.x, p.scale.y * v.y, p.scale.z * v.z⟩ := by
    by_cases h : p.scale = ⟨1, 1, 1⟩
    · simp [h]
    · rw [if_pos h]; ext <;> exact mul_comm _ _
  have h2 (w : V3 T) : (if p.orn ≠ 1 then Quat.rotate p.orn w else w) = Quat.rotate p.orn w := by
    by_cases h : p.orn = 1
    · rw [h]; simp only [ne_eq, not_true_eq_false, if_false]
      ext <;> simp [Quat.rotate]
    · rw [if_pos h]
  have h3 (w : V3 T) : (if p.pos ≠ 0 then w + p.pos else w) = w + p.pos := by
    by_cases h : p.pos = 0
    · rw [h]; simp only [ne_eq, not_true_eq_false, if_false]; ext <;> simp
    · rw [if_pos h]
  unfold Place.apply Place.placed
  simp only [h1, h2, h3]

/-- A vertex line. -/
theorem readVertex_eq {num : List Char → Option T} (pl : Place T) {ws : List (List Char)} {v : V3 T}
    {c : Option (V3 T)} {s : List Char} (hs : Words s ws) (h : Means num (['v'] :: ws) (.vertex v c)) :
    readVertex num pl s = some (pl.placed v, c) := by
  have g : (⟨s, false, false⟩ : Iss).Good ws := ⟨hs, rfl, by simp⟩
  unfold readVertex
  cases h with
  | vertex a b c x y z ha hb hc =>
    obtain ⟨h1, g1, -⟩ := readV3_cons g ha hb hc
    simp only [h1, Option.map_some, apply_placed, Option.some.injEq, Prod.mk.injEq, true_and]
    by_cases he : (readV3 num ⟨s, false, false⟩).1.eof = true
    · rw [if_pos he]
    · rw [if_neg he, if_pos (readV3_nil g1)]
  | weighted a b c d x y z w ha hb hc hd =>
    obtain ⟨h1, g1, -⟩ := readV3_cons g ha hb hc
    simp only [h1, Option.map_some, apply_placed, Option.some.injEq, Prod.mk.injEq, true_and]
    by_cases he : (readV3 num ⟨s, false, false⟩).1.eof = true
    · rw [if_pos he]
    · rw [if_neg he, if_pos (readV3_one g1 hd)]
  | colored a b c d e f x y z u v w ha hb hc hd he hf =>
    obtain ⟨h1, g1, -⟩ := readV3_cons g ha hb hc
    obtain ⟨h2, -, hfail⟩ := readV3_cons g1 hd he hf
    have hne := (Iss.word_cons g1).2.2.1
    simp only [h1, Option.map_some, apply_placed, hne, Bool.false_eq_true, if_false, hfail, h2]

end Edyn.Obj
