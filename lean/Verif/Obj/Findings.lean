import Verif.Obj.Main
import Mathlib.Algebra.Field.Rat

/-!
# Reading `*.obj` files: examples and counterexamples (C92)
-/

namespace Edyn.Obj

open Edyn.Math V3

/-- Numbers for the examples: integers in decimal digits. -/
def int (w : List Char) : Option ℚ :=
  match w with
  | '-' :: d => if d ≠ [] ∧ d.all digit then (digits d).map fun n : ℕ => -(n : ℚ) else none
  | d => if d ≠ [] ∧ d.all digit then (digits d).map fun n : ℕ => (n : ℚ) else none

/-- As in the file. -/
def still : Place ℚ := ⟨0, 1, ⟨1, 1, 1⟩⟩
/-- Doubled, turned half around the third axis and moved. -/
def moved : Place ℚ := ⟨⟨10, 0, 0⟩, ⟨0, 0, 1, 0⟩, ⟨2, 2, 2⟩⟩

/-! ## The words of a text, computed -/

/-- The words. -/
def wordsOf : List Char → List (List Char)
  | [] => []
  | c :: s =>
    if isSpace c then wordsOf s
    else
      match s with
      | [] => [[c]]
      | d :: _ =>
        if isSpace d then [c] :: wordsOf s
        else
          match wordsOf s with
          | [] => [[c]]
          | w :: ws => (c :: w) :: ws

theorem words_space {c : Char} {s : List Char} {ws : List (List Char)} (hc : isSpace c = true) (h : Words s ws) :
    Words (c :: s) ws := by
  cases h with
  | nil _ h => exact .nil _ (by simpa [hc] using h)
  | cons s w r ws hs hw hn hr h => exact .cons (c :: s) w r ws (by simpa [hc] using hs) hw hn hr h

theorem words_exist (s : List Char) : Words s (wordsOf s) := by
  induction s with
  | nil => exact .nil [] (by simp)
  | cons c s ih =>
    by_cases hc : isSpace c = true
    · simpa [wordsOf, hc] using words_space hc ih
    · have hc' : isSpace c = false := by simpa using hc
      rcases s with _ | ⟨d, s⟩
      · simpa [wordsOf, hc'] using Words.cons [] [c] [] [] (by simp) (by simp) (by simpa using hc') (by simp) (.nil [] (by simp))
      · by_cases hd : isSpace d = true
        · rw [wordsOf, if_neg hc]
          simp only [hd, if_true]
          exact .cons [] [c] (d :: s) _ (by simp) (by simp) (by simpa using hc') (by simpa using hd) ih
        · have hd' : isSpace d = false := by simpa using hd
          rw [wordsOf, if_neg hc]
          simp only [hd', Bool.false_eq_true, if_false]
          generalize wordsOf (d :: s) = ws at ih
          generalize hl : d :: s = l at ih
          cases ih with
          | nil _ h => exact absurd (h d (by rw [← hl]; simp)) hd
          | cons a w r ws ha hw hn hr h =>
            rcases a with _ | ⟨e, a⟩
            · exact .cons [] (c :: w) r ws (by simp) (by simp) (by simpa [hc'] using hn) hr h
            · simp only [List.cons_append, List.cons.injEq] at hl
              exact absurd (ha d (by rw [hl.1]; simp)) hd

theorem words_unique {s : List Char} {ws ws' : List (List Char)} (h : Words s ws) (h' : Words s ws') : ws = ws' := by
  induction h generalizing ws' with
  | nil s hs =>
    have := Iss.word_nil (i := ⟨s, false, false⟩) ⟨.nil s hs, rfl, by simp⟩
    cases ws' with
    | nil => rfl
    | cons w ws' =>
      have h2 := (Iss.word_cons (i := ⟨s, false, false⟩) ⟨h', rfl, by simp⟩).1
      rw [this.1] at h2; simp at h2
  | cons s w r ws hs hw hn hr h ih =>
    have h1 := Iss.word_cons (i := ⟨s ++ w ++ r, false, false⟩) ⟨.cons s w r ws hs hw hn hr h, rfl, by simp⟩
    have hd : (⟨s ++ w ++ r, false, false⟩ : Iss).word.1.rest = r := by
      have e1 : (s ++ w ++ r).dropWhile isSpace = w ++ r := by
        rw [List.append_assoc]
        refine dropWhile_all _ _ hs ?_
        rcases w with _ | ⟨c, w⟩
        · exact absurd rfl hw
        · intro d hd
          simp at hd
          subst hd
          exact hn _ (by simp)
      have e2 : (w ++ r).dropWhile (!isSpace ·) = r := dropWhile_all w r (by simpa using hn) (by simpa using hr)
      unfold Iss.word Iss.sentry
      simp only [Bool.or_self, Bool.false_eq_true, if_false, e1]
      rcases w with _ | ⟨c, w⟩
      · exact absurd rfl hw
      · simpa using e2
    cases ws' with
    | nil =>
      have := Iss.word_nil (i := ⟨s ++ w ++ r, false, false⟩) ⟨h', rfl, by simp⟩
      rw [this.1] at h1; simp at h1
    | cons w' ws' =>
      have h2 := Iss.word_cons (i := ⟨s ++ w ++ r, false, false⟩) ⟨h', rfl, by simp⟩
      have hw' : w = w' := by
        have := h1.1.symm.trans h2.1
        simpa using this
      have h3 := h2.2.1.words
      rw [hd] at h3
      rw [hw', ih h3]

/-- A line is plain, decided. -/
def plain (l : List Char) : Bool :=
  match wordsOf l with
  | [c] :: _ => !(c = 'v' || c = 'f' || c = 'o') || (l.take 2 = [c, ' '])
  | _ => true

theorem plain_iff {l : List Char} (h : plain l = true) : Plain l := by
  intro c ws hc hw
  have := words_unique (words_exist l) hw
  unfold plain at h
  rw [this] at h
  have hc' : (c = 'v' || c = 'f' || c = 'o') = true := by rcases hc with rfl | rfl | rfl <;> rfl
  simp only [hc', Bool.not_true, Bool.false_or, decide_eq_true_eq] at h
  rcases l with _ | ⟨a, _ | ⟨b, s⟩⟩ <;> simp at h
  exact ⟨s, by rw [h.1, h.2]⟩

theorem plainFile_iff {file : List Char} (h : (lines file).all plain = true) : PlainFile file := by
  intro ls hl l hm
  rw [← lines_eq hl] at hm
  exact plain_iff (List.all_eq_true.1 h l hm)

/-- What the words of a line say, computed. -/
def cornerOf (w : List Char) : Option ℕ :=
  let d := w.takeWhile (· ≠ '/')
  if d.all digit then digits d else none

theorem cornerOf_eq {w : List Char} {k : ℕ} (h : cornerOf w = some k) : Corner w k := by
  unfold cornerOf at h
  simp only at h
  split at h
  · rename_i hd
    have hall : (w.takeWhile (fun x => decide (x ≠ '/'))).takeWhile digit = w.takeWhile (fun x => decide (x ≠ '/')) := by
      simpa using takeWhile_all (w.takeWhile (fun x => decide (x ≠ '/'))) [] (by simpa using hd) (by simp)
    unfold digits at h
    simp only [hall] at h
    split at h
    · simp at h
    · rename_i hne
      have hnum : Numeral (w.takeWhile (fun x => decide (x ≠ '/'))) k := ⟨hne, by simpa using hd, by simpa using h⟩
      have hsplit := List.takeWhile_append_dropWhile (p := fun x => decide (x ≠ '/')) (l := w)
      rcases hr : w.dropWhile (fun x => decide (x ≠ '/')) with _ | ⟨c, r⟩
      · rw [hr, List.append_nil] at hsplit
        rw [hsplit] at hnum
        exact .inl hnum
      · have hc : c = '/' := by
          have : (w.dropWhile (fun x => decide (x ≠ '/'))).head? = some c := by rw [hr]; rfl
          have h2 := List.head?_dropWhile_not (fun x => decide (x ≠ '/')) w
          rw [this] at h2
          simpa using h2
        subst hc
        rw [hr] at hsplit
        exact .inr ⟨_, r, hsplit.symm, hnum⟩
  · simp at h

/-- What the words of a line say, computed; `none`: it is not decided. -/
def itemOf (ws : List (List Char)) : Option (Item ℚ) :=
  match ws with
  | [] => some .other
  | w :: ws =>
    if w = ['v'] then
      match ws with
      | [a, b, c] => do return .vertex ⟨← int a, ← int b, ← int c⟩ none
      | [a, b, c, d] => do
        let x ← int a
        let y ← int b
        let z ← int c
        let _ ← int d
        return .vertex ⟨x, y, z⟩ none
      | [a, b, c, d, e, f] => do
        return .vertex ⟨← int a, ← int b, ← int c⟩ (some ⟨← int d, ← int e, ← int f⟩)
      | _ => none
    else if w = ['f'] then (ws.mapM cornerOf).map .face
    else if w = ['o'] then some (.object ws)
    else some .other

theorem itemOf_eq {ws : List (List Char)} {i : Item ℚ} (h : itemOf ws = some i) : Means int ws i := by
  unfold itemOf at h
  rcases ws with _ | ⟨w, ws⟩
  · simp at h; subst h; exact .blank
  · simp only at h
    split at h
    · rename_i hw
      subst hw
      split at h
      · rename_i a b c
        rcases ha : int a with _ | x <;> simp [ha] at h
        rcases hb : int b with _ | y <;> simp [hb] at h
        rcases hc : int c with _ | z <;> simp [hc] at h
        subst h; exact .vertex a b c x y z ha hb hc
      · rename_i a b c d
        rcases ha : int a with _ | x <;> simp [ha] at h
        rcases hb : int b with _ | y <;> simp [hb] at h
        rcases hc : int c with _ | z <;> simp [hc] at h
        rcases hd : int d with _ | u <;> simp [hd] at h
        subst h; exact .weighted a b c d x y z u ha hb hc hd
      · rename_i a b c d e f
        rcases ha : int a with _ | x <;> simp [ha] at h
        rcases hb : int b with _ | y <;> simp [hb] at h
        rcases hc : int c with _ | z <;> simp [hc] at h
        rcases hd : int d with _ | u <;> simp [hd] at h
        rcases he : int e with _ | v <;> simp [he] at h
        rcases hf : int f with _ | t <;> simp [hf] at h
        subst h; exact .colored a b c d e f x y z u v t ha hb hc hd he hf
      · simp at h
    · rename_i h1
      split at h
      · rename_i hw
        subst hw
        rcases hm : ws.mapM cornerOf with _ | cs <;> simp [hm] at h
        subst h
        refine .face ws cs ?_
        clear h1
        induction ws generalizing cs with
        | nil => simp at hm; subst hm; exact .nil
        | cons w ws ih =>
          simp only [List.mapM_cons, Option.pure_def, Option.bind_eq_bind] at hm
          rcases hk : cornerOf w with _ | k
          · rw [hk] at hm; simp at hm
          rcases hks : ws.mapM cornerOf with _ | ks
          · rw [hk, hks] at hm; simp at hm
          rw [hk, hks] at hm
          simp only [Option.bind_some, Option.some.injEq] at hm
          subst hm
          exact .cons (cornerOf_eq hk) (ih ks hks)
      · rename_i h2
        split at h
        · rename_i hw
          subst hw
          simp at h; subst h; exact .object ws
        · rename_i h3
          simp at h; subst h; exact .other w ws h1 h2 h3

/-- What a file says, computed. -/
def itemsOf (file : List Char) : Option (List (Item ℚ)) := (lines file).mapM fun l => itemOf (wordsOf l)

theorem itemsOf_says {file : List Char} {items : List (Item ℚ)} (h : itemsOf file = some items) :
    Says int file items := by
  refine ⟨lines file, lines_exist file, ?_⟩
  unfold itemsOf at h
  generalize lines file = ls at h
  induction ls generalizing items with
  | nil => simp at h; subst h; exact .nil
  | cons l ls ih =>
    simp only [List.mapM_cons, Option.pure_def, Option.bind_eq_bind] at h
    rcases hk : itemOf (wordsOf l) with _ | k
    · rw [hk] at h; simp at h
    rcases hks : ls.mapM (fun l => itemOf (wordsOf l)) with _ | ks
    · rw [hk, hks] at h; simp at h
    rw [hk, hks] at h
    simp only [Option.bind_some, Option.some.injEq] at h
    subst h
    exact .cons ⟨_, words_exist l, itemOf_eq hk⟩ (ih hks)

/-! ## Examples -/

/-- Two objects with comments, colours and texture coordinates. -/
def twoText : String :=
  "# a comment\no One\nv 0 0 0\nv 1 0 0\nv 1 1 0\nv 0 1 0\nf 1/1 2/2 3/3 4/4\no Two\nv 0 0 1 9 9 9\nv 1 0 1\nvn 0 0 1\nv 0 1 1 1\n\nf 5//1  6//1\t7//1\n"

/-- What the file says. -/
def twoItems : List (Item ℚ) :=
  [.other, .object [['O', 'n', 'e']], .vertex ⟨0, 0, 0⟩ none, .vertex ⟨1, 0, 0⟩ none, .vertex ⟨1, 1, 0⟩ none,
   .vertex ⟨0, 1, 0⟩ none, .face [1, 2, 3, 4], .object [['T', 'w', 'o']], .vertex ⟨0, 0, 1⟩ (some ⟨9, 9, 9⟩),
   .vertex ⟨1, 0, 1⟩ none, .other, .vertex ⟨0, 1, 1⟩ none, .other, .face [5, 6, 7]]

def twoParts : List (Part ℚ) :=
  [⟨some [['O', 'n', 'e']], [.vertex ⟨0, 0, 0⟩ none, .vertex ⟨1, 0, 0⟩ none,
    .vertex ⟨1, 1, 0⟩ none, .vertex ⟨0, 1, 0⟩ none, .face [1, 2, 3, 4]]⟩,
   ⟨some [['T', 'w', 'o']], [.vertex ⟨0, 0, 1⟩ (some ⟨9, 9, 9⟩), .vertex ⟨1, 0, 1⟩ none, .other,
    .vertex ⟨0, 1, 1⟩ none, .other, .face [5, 6, 7]]⟩]

example : loadMeshes int still [] twoText.toList = some
    [⟨" One".toList, [⟨0, 0, 0⟩, ⟨1, 0, 0⟩, ⟨1, 1, 0⟩, ⟨0, 1, 0⟩], [], [0, 1, 2, 3], [0, 4]⟩,
     ⟨" Two".toList, [⟨0, 0, 1⟩, ⟨1, 0, 1⟩, ⟨0, 1, 1⟩], [⟨9, 9, 9⟩], [0, 1, 2], [0, 3]⟩] := by
  decide +kernel

example : loadTri int moved {} twoText.toList = some
    ⟨[⟨10, 0, 0⟩, ⟨8, 0, 0⟩, ⟨8, -2, 0⟩, ⟨10, -2, 0⟩, ⟨10, 0, 2⟩, ⟨8, 0, 2⟩, ⟨10, -2, 2⟩],
     [0, 1, 2, 0, 2, 3, 4, 5, 6], none⟩ := by
  decide +kernel

/-- The two objects meet all conditions. -/
theorem two_says : Says int twoText.toList twoItems := itemsOf_says (by decide +kernel)
theorem two_plain : PlainFile twoText.toList := plainFile_iff (by decide +kernel)
theorem two_parts : Parts twoItems twoParts := by
  refine ⟨⟨[.other], by simp, rfl⟩, ?_, ?_⟩ <;> simp [twoParts, Item.isObject]
theorem two_own : OwnParts 0 twoParts := by
  refine ⟨by decide, ?_, by decide, ?_, trivial⟩ <;> unfold Own <;> decide

example : ∃ ms, loadMeshes int moved [] twoText.toList = some ([] ++ ms) ∧
    List.Forall₂ (Mesh.Of moved (points twoItems)) ms twoParts :=
  meshes_loaded_partial moved two_says two_plain two_parts two_own (by decide) (by decide) []

example : ∃ m, loadTri int moved { colors := some [] } twoText.toList = some m ∧
    m.vertices = (points twoItems).map moved.placed ∧ m.indices.length = 9 ∧ m.colors = some [⟨9, 9, 9⟩] := by
  decide +kernel

example : ∃ m, loadTri int moved { colors := some [] } twoText.toList = some m ∧
    triangles m.vertices m.indices = (faces twoItems).flatMap
      (fun cs => fan (cs.map fun k => (corner (points twoItems) k).map moved.placed)) := by
  obtain ⟨m, h1, -, h2, -⟩ := tri_mesh_loaded_partial moved two_says two_plain (by decide) (by decide) true
  exact ⟨m, h1, h2⟩

/-! ## Counterexamples -/

/-- The full statement: every file all of whose corners are vertices of the file is read as the objects
in it, whatever the white space and whichever object a vertex stands in. -/
def MeshesLoadedFull (num : List Char → Option T) [Field T] [DecidableEq T] : Prop :=
  ∀ (pl : Place T) (file : List Char) (items : List (Item T)) (parts : List (Part T)),
    Says num file items → Parts items parts → (points items).length ≤ 2147483647 →
    (∀ p ∈ parts, points p.body ≠ [] ∧ corners p.body < 4294967296 ∧
      ∀ cs ∈ faces p.body, ∀ k ∈ cs, (corner (points items) k).isSome) →
    ∃ ms, loadMeshes num pl [] file = some ms ∧ List.Forall₂ (Mesh.Of pl (points items)) ms parts

def sharedText : String := "o A\nv 0 0 0\nv 1 0 0\nf 1 2 3\no B\nv 0 1 0\nf 3 2 1\n"

/-- **C92, finding.**  Objects that use vertices of other objects, which the format allows, fail the
assertion in line 37; if assertions are off, the index wraps around. -/
theorem shared_vertices_fail : loadMeshes int still [] sharedText.toList = none := by decide +kernel

theorem meshesLoadedFull_false : ¬MeshesLoadedFull int := by
  intro h
  have hs : Says int sharedText.toList [.object [['A']], .vertex ⟨0, 0, 0⟩ none, .vertex ⟨1, 0, 0⟩ none,
      .face [1, 2, 3], .object [['B']], .vertex ⟨0, 1, 0⟩ none, .face [3, 2, 1]] := itemsOf_says (by decide +kernel)
  obtain ⟨ms, h1, -⟩ := h still _ _ [⟨some [['A']], [.vertex ⟨0, 0, 0⟩ none, .vertex ⟨1, 0, 0⟩ none, .face [1, 2, 3]]⟩,
    ⟨some [['B']], [.vertex ⟨0, 1, 0⟩ none, .face [3, 2, 1]]⟩] hs
    ⟨⟨[], by simp, rfl⟩, by simp [Item.isObject], by simp⟩ (by decide) (by decide)
  rw [shared_vertices_fail] at h1
  simp at h1

/-- **C92, finding.**  A command followed by a tab, or indented, is ignored: the vertices are lost and the
indices of the faces refer to vertices that do not exist. -/
theorem tab_vertex_lost : ∃ m : TriMesh ℚ,
    Says int "v\t0 0 0\n v 1 0 0\nv 0 1 0\nf 1 2 3".toList
      [.vertex ⟨0, 0, 0⟩ none, .vertex ⟨1, 0, 0⟩ none, .vertex ⟨0, 1, 0⟩ none, .face [1, 2, 3]] ∧
    loadTri int still {} "v\t0 0 0\n v 1 0 0\nv 0 1 0\nf 1 2 3".toList = some m ∧
    m = ⟨[⟨0, 1, 0⟩], [0, 1, 2], none⟩ :=
  ⟨_, itemsOf_says (by decide +kernel), by decide +kernel, rfl⟩

/-- The full statement for triangle meshes: whatever the white space. -/
def TriMeshLoadedFull (num : List Char → Option T) [Field T] [DecidableEq T] : Prop :=
  ∀ (pl : Place T) (file : List Char) (items : List (Item T)), Says num file items →
    (points items).length ≤ 2147483647 →
    (∀ cs ∈ faces items, 3 ≤ cs.length ∧ ∀ k ∈ cs, (corner (points items) k).isSome) →
    ∃ m, loadTri num pl {} file = some m ∧ m.vertices = (points items).map pl.placed ∧
      triangles m.vertices m.indices =
        (faces items).flatMap (fun cs => fan (cs.map fun k => (corner (points items) k).map pl.placed))

theorem triMeshLoadedFull_false : ¬TriMeshLoadedFull int := by
  intro h
  obtain ⟨m, h1, h2, h3⟩ := tab_vertex_lost
  obtain ⟨m', h4, h5, -⟩ := h still _ _ h1 (by decide) (by decide)
  rw [h2] at h4
  simp only [Option.some.injEq] at h4
  subst h4
  rw [h3] at h5
  exact absurd h5 (by decide +kernel)

/-- **C92, finding.**  The name of an object is kept with the space before it. -/
theorem name_with_space (num : List Char → Option ℚ) (pl : Place ℚ) (a : Loader ℚ) (n : List Char) :
    ∃ b, meshLine num pl a ('o' :: ' ' :: n) = some b ∧ b.mesh.name = ' ' :: n := by
  rw [meshLine, command_cons (by decide)]
  by_cases h : a.mesh.vertices = [] <;> simp [h]

/-- **C92, finding.**  Objects without a name after the letter are not separated. -/
theorem nameless_merged : loadMeshes int still [] "o\nv 0 0 0\no\nv 1 0 0\n".toList =
    some [⟨[], [⟨0, 0, 0⟩, ⟨1, 0, 0⟩], [], [], []⟩] := by decide +kernel

/-- **C92, finding.**  Corners counted backwards from the last vertex, which the format allows, become
indices out of range without an error. -/
theorem negative_corner : loadTri int still {} "v 0 0 0\nv 1 0 0\nv 0 1 0\nf -3 -2 -1\n".toList =
    some ⟨[⟨0, 0, 0⟩, ⟨1, 0, 0⟩, ⟨0, 1, 0⟩], [4294967292, 4294967293, 4294967294], none⟩ := by decide +kernel

/-- **C92, finding.**  Corners that are no vertices of the file are not detected. -/
theorem missing_vertex : loadTri int still {} "v 0 0 0\nf 1 2 3\n".toList =
    some ⟨[⟨0, 0, 0⟩], [0, 1, 2], none⟩ := by decide +kernel

/-- **C92, finding.**  A face with two corners shifts all triangles after it. -/
theorem two_corners_shift : ∃ m, loadTri int still {} "v 0 0 0\nv 1 0 0\nv 0 1 0\nf 1 2\nf 1 2 3\n".toList = some m ∧
    triangles m.vertices m.indices = [[some ⟨0, 0, 0⟩, some ⟨1, 0, 0⟩, some ⟨0, 0, 0⟩]] := by decide +kernel

/-- **C92, finding.**  If only some vertices have a colour, there is no telling which. -/
theorem colors_misaligned : ∃ m, loadTri int still { colors := some [] } "v 0 0 0\nv 1 0 0 7 7 7\n".toList = some m ∧
    m.vertices = [⟨0, 0, 0⟩, ⟨1, 0, 0⟩] ∧ m.colors = some [⟨7, 7, 7⟩] := by decide +kernel

/-- **C92, finding.**  A vertex with a missing coordinate is used although it was never read. -/
theorem short_vertex_undefined : loadTri int still {} "v 1 2\n".toList = none := by decide +kernel

/-- **C92, finding.**  After a coordinate which is not a number the others are not read at all. -/
theorem bad_number_undefined : loadTri int still {} "v x 2 3\n".toList = none := by decide +kernel

/-- **C92, finding.**  A second file read into the same arrays refers to the vertices of the first. -/
theorem second_file : ∃ n, (loadTri int still {} "v 0 0 0\nv 1 0 0\nv 0 1 0\nf 1 2 3\n".toList).bind
      (fun m => loadTri int still m "v 5 5 5\nv 6 5 5\nv 5 6 5\nf 1 2 3\n".toList) = some n ∧
    triangles n.vertices n.indices = List.replicate 2 [some ⟨0, 0, 0⟩, some ⟨1, 0, 0⟩, some ⟨0, 1, 0⟩] := by
  decide +kernel

/-- **C92, finding.**  A file without vertices fails the assertion in line 246 of the loaders of convex
shapes. -/
theorem empty_file_fails (c : Mesh ℚ → V3 ℚ) : loadConvex int still c "# nothing\n".toList = none := by
  have : loadMeshes int still [] "# nothing\n".toList = some [] := by decide +kernel
  unfold loadConvex
  rw [this]
  rfl

end Edyn.Obj
