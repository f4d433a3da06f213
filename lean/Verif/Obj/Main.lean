import Verif.Obj.Face
import Mathlib.Data.List.Forall2

/-!
# Reading `*.obj` files: the theorems (C92)
-/

namespace Edyn.Obj

open Edyn.Math V3

variable {T : Type} [Field T] [DecidableEq T]

/-- A plain line as the code sees it. -/
inductive Seen (num : List Char → Option T) (l : List Char) : Item T → Prop
  | vertex (s : List Char) (ws : List (List Char)) (p : V3 T) (c : Option (V3 T)) :
      command l = some (['v'], s) → Words s ws → Means num (['v'] :: ws) (.vertex p c) → Seen num l (.vertex p c)
  | face (s : List Char) (ws : List (List Char)) (cs : List ℕ) :
      command l = some (['f'], s) → Words s ws → List.Forall₂ Corner ws cs → Seen num l (.face cs)
  | object (s : List Char) (ws : List (List Char)) :
      command l = some (['o'], s) → Words s ws → Seen num l (.object ws)
  | none : command l = none → Seen num l .other
  | other (cmd s : List Char) : command l = some (cmd, s) → cmd ≠ ['v'] → cmd ≠ ['f'] → cmd ≠ ['o'] → Seen num l .other

omit [Field T] [DecidableEq T] in
theorem seen_of_line {num : List Char → Option T} {l : List Char} {i : Item T} (h : Line num l i) (hp : Plain l) :
    Seen num l i := by
  obtain ⟨ws, hw, hm⟩ := h
  have key (c : Char) (ws' : List (List Char)) (hc : c = 'v' ∨ c = 'f' ∨ c = 'o') (hws : ws = [c] :: ws') :
      ∃ s, command l = some ([c], s) ∧ Words s ws' := by
    subst hws
    obtain ⟨s, rfl⟩ := hp c ws' hc hw
    have hsp : isSpace c = false := by rcases hc with rfl | rfl | rfl <;> decide
    have hne : c ≠ ' ' := by rcases hc with rfl | rfl | rfl <;> decide
    obtain ⟨ws'', he, hw'⟩ := words_tail hsp hw
    simp only [List.cons.injEq, true_and] at he
    exact ⟨' ' :: s, command_cons hne s, he ▸ hw'⟩
  have other (hv : ∀ ws', ws ≠ ['v'] :: ws') (hf : ∀ ws', ws ≠ ['f'] :: ws') (ho : ∀ ws', ws ≠ ['o'] :: ws') :
      Seen num l .other := by
    cases hcmd : command l with
    | none => exact .none hcmd
    | some x =>
      obtain ⟨cmd, s⟩ := x
      have no (c : Char) (hsp : isSpace c = false) (hws : ∀ ws', ws ≠ [c] :: ws') : cmd ≠ [c] := by
        intro hc
        obtain ⟨r, rfl⟩ := command_inv hcmd hc
        obtain ⟨ws', he, -⟩ := words_tail hsp hw
        exact hws ws' he
      exact .other cmd s hcmd (no 'v' (by decide) hv) (no 'f' (by decide) hf) (no 'o' (by decide) ho)
  cases hm with
  | vertex a b c x y z ha hb hc =>
    obtain ⟨s, h1, h2⟩ := key 'v' _ (by simp) rfl
    exact .vertex s _ _ _ h1 h2 (.vertex a b c x y z ha hb hc)
  | weighted a b c d x y z w ha hb hc hd =>
    obtain ⟨s, h1, h2⟩ := key 'v' _ (by simp) rfl
    exact .vertex s _ _ _ h1 h2 (.weighted a b c d x y z w ha hb hc hd)
  | colored a b c d e f x y z u v w ha hb hc hd he hf =>
    obtain ⟨s, h1, h2⟩ := key 'v' _ (by simp) rfl
    exact .vertex s _ _ _ h1 h2 (.colored a b c d e f x y z u v w ha hb hc hd he hf)
  | face ws cs h =>
    obtain ⟨s, h1, h2⟩ := key 'f' _ (by simp) rfl
    exact .face s _ _ h1 h2 h
  | object ws =>
    obtain ⟨s, h1, h2⟩ := key 'o' _ (by simp) rfl
    exact .object s _ h1 h2
  | blank => exact other (by simp) (by simp) (by simp)
  | other w ws h1 h2 h3 =>
    exact other (by simpa using fun h => absurd h h1) (by simpa using fun h => absurd h h2)
      (by simpa using fun h => absurd h h3)

/-! ## Triangle meshes -/

theorem triLines_eq {num : List Char → Option T} (pl : Place T) {ls : List (List Char)} {items : List (Item T)}
    (h : List.Forall₂ (Seen num) ls items)
    (hf : ∀ cs ∈ faces items, 3 ≤ cs.length ∧ ∀ k ∈ cs, 0 < k ∧ k ≤ 2147483647) (a : TriMesh T) :
    ls.foldlM (triLine num pl) a = some ⟨a.vertices ++ (points items).map pl.placed,
      a.indices ++ (faces items).flatMap (fun cs => (fan (cs.map (· - 1))).flatten),
      a.colors.map (· ++ colors items)⟩ := by
  induction h generalizing a with
  | nil =>
    rcases a with ⟨v, i, c⟩
    simp [points, faces, colors]
  | @cons l i ls items hl _ ih =>
    have step : ∃ a', triLine num pl a l = some a' ∧
        a'.vertices ++ (points items).map pl.placed = a.vertices ++ (points (i :: items)).map pl.placed ∧
        a'.indices ++ (faces items).flatMap (fun cs => (fan (cs.map (· - 1))).flatten) =
          a.indices ++ (faces (i :: items)).flatMap (fun cs => (fan (cs.map (· - 1))).flatten) ∧
        a'.colors.map (· ++ colors items) = a.colors.map (· ++ colors (i :: items)) := by
      cases hl with
      | vertex s ws p c h1 h2 h3 =>
        refine ⟨_, by simp [triLine, h1, readVertex_eq pl h2 h3]; rfl, ?_, ?_, ?_⟩
        · simp [points]
        · simp [faces]
        · cases a.colors with
          | none => rfl
          | some x => cases c <;> simp [colors]
      | face s ws cs h1 h2 h3 =>
        obtain ⟨hlen, hk⟩ := hf cs (by simp [faces])
        refine ⟨{ a with indices := a.indices ++ (fan (cs.map (· - 1))).flatten }, ?_, ?_, ?_, ?_⟩
        · have := readFaceIndices_eq h2 h3 0 true a.indices hk
          rw [emit_true _ _ _ (by simpa using hlen)] at this
          simp [triLine, h1, this]
        · simp [points]
        · simp [faces]
        · simp [colors]
      | object s ws h1 h2 => exact ⟨a, by simp [triLine, h1], rfl, rfl, rfl⟩
      | none h1 => exact ⟨a, by simp [triLine, h1], rfl, rfl, rfl⟩
      | other cmd s h1 h2 h3 h4 => exact ⟨a, by simp [triLine, h1, h2, h3], rfl, rfl, rfl⟩
    obtain ⟨a', h1, h2, h3, h4⟩ := step
    rw [List.foldlM_cons, h1]
    show ls.foldlM (triLine num pl) a' = _
    rw [ih (fun cs hcs => hf cs (by
      cases i <;> simp_all [faces])) a', h2, h3, h4]

omit [Field T] [DecidableEq T] in
/-- The lines of a plain file. -/
theorem seen_of_says {num : List Char → Option T} {file : List Char} {items : List (Item T)}
    (h : Says num file items) (hp : PlainFile file) : List.Forall₂ (Seen num) (lines file) items := by
  obtain ⟨ls, hl, hi⟩ := h
  rw [lines_eq hl]
  have := hp ls hl
  clear hl hp
  induction hi with
  | nil => exact .nil
  | cons h _ ih =>
    exact .cons (seen_of_line h (this _ (by simp))) (ih fun l hl => this l (by simp [hl]))

/-- **C92, triangle meshes.**  From a file whose lines are plain and whose faces have at least three
corners, all of which are vertices of the file, `load_tri_mesh_from_obj` reads the vertices, scaled,
rotated and moved, the colours, and a fan of triangles for each face, in the order of the file. -/
theorem tri_mesh_loaded_partial {num : List Char → Option T} (pl : Place T) {file : List Char} {items : List (Item T)}
    (hs : Says num file items) (hp : PlainFile file) (hn : (points items).length ≤ 2147483647)
    (hf : ∀ cs ∈ faces items, 3 ≤ cs.length ∧ ∀ k ∈ cs, (corner (points items) k).isSome) (colored : Bool) :
    ∃ m, loadTri num pl { colors := if colored then some [] else none } file = some m ∧
      m.vertices = (points items).map pl.placed ∧
      triangles m.vertices m.indices =
        (faces items).flatMap (fun cs => fan (cs.map fun k => (corner (points items) k).map pl.placed)) ∧
      m.indices.length = 3 * (triangles m.vertices m.indices).length ∧
      m.colors = if colored then some (colors items) else none := by
  have hk : ∀ cs ∈ faces items, 3 ≤ cs.length ∧ ∀ k ∈ cs, 0 < k ∧ k ≤ 2147483647 := by
    intro cs hcs
    refine ⟨(hf cs hcs).1, fun k hk => ?_⟩
    have := (hf cs hcs).2 k hk
    unfold corner at this
    split at this
    · simp at this
    · simp at this; omega
  have h := triLines_eq pl (seen_of_says hs hp) hk { colors := if colored then some [] else none }
  refine ⟨_, h, by simp, ?_, ?_, ?_⟩
  · have : (faces items).flatMap (fun cs => (fan (cs.map (· - 1))).flatten) =
        ((faces items).flatMap fun cs => fan (cs.map (· - 1))).flatten := by
      induction faces items with
      | nil => rfl
      | cons cs l ih => simp [ih]
    simp only [List.nil_append]
    rw [this, triangles_flatten]
    · rw [List.map_flatMap]
      rw [List.flatMap_def, List.flatMap_def]
      congr 1
      refine List.map_congr_left fun cs hcs => ?_
      rw [← fan_map, List.map_map]
      congr 1
      refine List.map_congr_left fun k hk' => ?_
      have := (hk cs hcs).2 k hk'
      simp [corner, Nat.ne_of_gt this.1]
    · intro t ht
      simp only [List.mem_flatMap] at ht
      obtain ⟨cs, -, ht⟩ := ht
      exact fan_length _ t ht
  · have : (faces items).flatMap (fun cs => (fan (cs.map (· - 1))).flatten) =
        ((faces items).flatMap fun cs => fan (cs.map (· - 1))).flatten := by
      induction faces items with
      | nil => rfl
      | cons cs l ih => simp [ih]
    have h3 : ∀ t ∈ (faces items).flatMap (fun cs => fan (cs.map (· - 1))), t.length = 3 := by
      intro t ht
      simp only [List.mem_flatMap] at ht
      obtain ⟨cs, -, ht⟩ := ht
      exact fan_length _ t ht
    simp only [List.nil_append]
    rw [this, triangles_flatten _ _ h3, List.length_map]
    generalize (faces items).flatMap (fun cs => fan (cs.map (· - 1))) = ts at h3
    induction ts with
    | nil => rfl
    | cons t ts ih =>
      simp only [List.flatten_cons, List.length_append, List.length_cons]
      rw [h3 t (by simp), ih fun t ht => h3 t (by simp [ht])]; ring
  · cases colored <;> simp

/-! ## Meshes -/

/-- The array of faces, starting at index `n`. -/
def rangesFrom : ℕ → List (List ℕ) → List ℕ
  | _, [] => []
  | n, cs :: l => n :: cs.length :: rangesFrom (n + cs.length) l

theorem ranges_eq {α : Type} (g : ℕ → α) (fs : List (List ℕ)) (is : List ℕ) :
    (ranges (rangesFrom is.length fs)).map (fun f => (((is ++ fs.flatten).drop f.1).take f.2).map g) =
      fs.map (List.map g) := by
  induction fs generalizing is with
  | nil => rfl
  | cons cs fs ih =>
    have := ih (is ++ cs)
    simp only [List.length_append, List.append_assoc] at this
    simp only [rangesFrom, ranges, List.map_cons, List.flatten_cons, this]
    simp

/-- The number of corners. -/
def corners (items : List (Item T)) : ℕ := ((faces items).map List.length).sum

/-- A mesh after more items of the same part. -/
def Mesh.grow (pl : Place T) (m : Mesh T) (offset : ℕ) (items : List (Item T)) : Mesh T :=
  { m with vertices := m.vertices ++ (points items).map pl.placed,
           colors := m.colors ++ Obj.colors items,
           indices := m.indices ++ (Obj.faces items).flatMap (fun cs => cs.map fun k => k - 1 - offset),
           faces := m.faces ++ rangesFrom m.indices.length (Obj.faces items) }

theorem bodyLines_eq {num : List Char → Option T} (pl : Place T) {ls : List (List Char)} {items : List (Item T)}
    (h : List.Forall₂ (Seen num) ls items) (ho : ∀ i ∈ items, i.isObject = false) (a : Loader T)
    (hf : ∀ cs ∈ faces items, ∀ k ∈ cs, a.offset < k ∧ k ≤ 2147483647)
    (hn : a.mesh.indices.length + corners items < 4294967296) :
    ls.foldlM (meshLine num pl) a = some { a with mesh := a.mesh.grow pl a.offset items } := by
  induction h generalizing a with
  | nil =>
    rcases a with ⟨ms, ⟨n, v, c, i, f⟩, o⟩
    simp [points, faces, colors, Mesh.grow, rangesFrom]
  | @cons l i ls items hl _ ih =>
    have ho' := fun j hj => ho j (List.mem_cons_of_mem i hj)
    have next (a' : Loader T) (h1 : meshLine num pl a l = some a') (h2 : a'.offset = a.offset)
        (hf' : ∀ cs ∈ faces items, ∀ k ∈ cs, a.offset < k ∧ k ≤ 2147483647)
        (hn' : a'.mesh.indices.length + corners items < 4294967296)
        (h4 : a'.meshes = a.meshes)
        (h3 : a'.mesh.grow pl a.offset items = a.mesh.grow pl a.offset (i :: items)) :
        (l :: ls).foldlM (meshLine num pl) a = some { a with mesh := a.mesh.grow pl a.offset (i :: items) } := by
      rw [List.foldlM_cons, h1]
      show ls.foldlM (meshLine num pl) a' = _
      rw [ih ho' a' (by rwa [h2]) hn']
      rcases a' with ⟨ms, m, o⟩
      simp only at h2 h3 h4
      subst h2 h4
      rw [h3]
    cases hl with
    | vertex s ws p c h1 h2 h3 =>
      refine next { a with mesh := { a.mesh with vertices := a.mesh.vertices ++ [pl.placed p],
                                                 colors := a.mesh.colors ++ c.toList } }
        (by simp [meshLine, h1, readVertex_eq pl h2 h3]) rfl (by simpa [faces] using hf)
        (by simpa [faces, corners] using hn) rfl ?_
      cases c <;> simp [Mesh.grow, points, colors, faces]
    | face s ws cs h1 h2 h3 =>
      have hk := hf cs (by simp [faces])
      have hlen : a.mesh.indices.length + cs.length + corners items < 4294967296 := by
        have : corners (.face cs :: items) = cs.length + corners items := by simp [corners, faces]
        omega
      refine next { a with mesh := { a.mesh with indices := a.mesh.indices ++ cs.map fun k => k - 1 - a.offset,
                                                 faces := a.mesh.faces ++ [a.mesh.indices.length, cs.length] } } (by
          rw [meshLine, h1]
          simp only [List.cons.injEq, Char.reduceEq, and_true, if_false, if_true]
          rw [readFace_eq h2 h3 a.offset a.mesh hk (by omega)]; rfl) rfl
        (fun cs' hcs' => hf cs' (by simp_all [faces])) (by simp; omega) rfl ?_
      simp [Mesh.grow, points, colors, faces, rangesFrom]
    | object s ws h1 h2 => simpa [Item.isObject] using ho (.object ws) (by simp)
    | none h1 =>
      exact next a (by simp [meshLine, h1]) rfl (by simpa [faces] using hf) (by simpa [faces, corners] using hn) rfl rfl
    | other cmd s h1 h2 h3 h4 =>
      exact next a (by simp [meshLine, h1, h2, h3, h4]) rfl (by simpa [faces] using hf)
        (by simpa [faces, corners] using hn) rfl rfl

theorem forall₂_append {α β : Type} {R : α → β → Prop} {l : List α} {a b : List β} (h : List.Forall₂ R l (a ++ b)) :
    ∃ l1 l2, l = l1 ++ l2 ∧ List.Forall₂ R l1 a ∧ List.Forall₂ R l2 b := by
  induction a generalizing l with
  | nil => exact ⟨[], l, rfl, .nil, h⟩
  | cons x a ih =>
    cases h with
    | cons h1 h2 =>
      obtain ⟨l1, l2, rfl, h3, h4⟩ := ih h2
      exact ⟨_ :: l1, l2, rfl, .cons h1 h3, h4⟩

/-- The faces of a part refer to its own vertices, the vertices `off + 1` to `off + n` of the file. -/
def Own (off : ℕ) (p : Part T) : Prop :=
  ∀ cs ∈ faces p.body, ∀ k ∈ cs, off < k ∧ k ≤ off + (points p.body).length

/-- Every part has vertices and refers to its own only; `off` vertices come before. -/
def OwnParts : ℕ → List (Part T) → Prop
  | _, [] => True
  | off, p :: ps => points p.body ≠ [] ∧ Own off p ∧ OwnParts (off + (points p.body).length) ps

omit [Field T] [DecidableEq T] in
theorem points_append (a b : List (Item T)) : points (a ++ b) = points a ++ points b := by simp [points]

omit [Field T] [DecidableEq T] in
theorem points_items (p : Part T) : points p.items = points p.body := by
  rcases p with ⟨_ | n, b⟩ <;> simp [Part.items, points]

omit [Field T] [DecidableEq T] in
theorem faces_items (p : Part T) : faces p.items = faces p.body := by
  rcases p with ⟨_ | n, b⟩ <;> simp [Part.items, faces]

/-- A mesh read from the body of a part is what the part says. -/
theorem grow_of (pl : Place T) (pre post : List (V3 T)) (p : Part T) (n : List Char)
    (hn : Words n (p.name.getD [])) (ho : Own pre.length p) :
    (Mesh.grow pl { name := n } pre.length p.body).Of pl (pre ++ points p.body ++ post) p := by
  refine ⟨hn, by simp [Mesh.grow], by simp [Mesh.grow], ?_⟩
  unfold Mesh.polygons Mesh.grow
  simp only [List.nil_append, List.length_nil]
  have := ranges_eq (fun j => ((points p.body).map pl.placed)[j]?)
    ((faces p.body).map fun cs => cs.map fun k => k - 1 - pre.length) []
  simp only [List.nil_append, List.length_nil, ← List.flatMap_def] at this
  have hr : ∀ (fs : List (List ℕ)) (s : ℕ),
      rangesFrom s (fs.map fun cs => cs.map fun k => k - 1 - pre.length) = rangesFrom s fs := by
    intro fs
    induction fs with
    | nil => intro s; rfl
    | cons cs fs ih => intro s; simp [rangesFrom, ih]
  rw [hr] at this
  rw [this, List.map_map]
  refine List.map_congr_left fun cs hcs => ?_
  simp only [Function.comp_apply, List.map_map]
  refine List.map_congr_left fun k hk => ?_
  obtain ⟨h1, h2⟩ := ho cs hcs k hk
  simp only [Function.comp_apply, corner, if_neg (by omega : ¬k = 0), List.getElem?_map]
  congr 1
  rw [List.append_assoc, List.getElem?_append_right (by omega), List.getElem?_append_left (by omega)]

/-- The end of `load_meshes_from_obj_stream`. -/
def Loader.finish (a : Loader T) : List (Mesh T) :=
  if a.mesh.vertices ≠ [] then a.meshes ++ [a.mesh] else a.meshes

/-- The body of a part is read into a mesh that is still empty. -/
theorem part_body {num : List Char → Option T} (pl : Place T) (pre post : List (V3 T)) (p : Part T)
    {ls : List (List Char)} (h : List.Forall₂ (Seen num) ls p.body) (hb : ∀ i ∈ p.body, i.isObject = false)
    (ho : Own pre.length p) (hpts : pre.length + (points p.body).length ≤ 2147483647)
    (hcor : corners p.body < 4294967296) (ms : List (Mesh T)) (n : List Char)
    (hn : Words n (p.name.getD [])) (hv : points p.body ≠ []) :
    ∃ m, ls.foldlM (meshLine num pl) ⟨ms, { name := n }, pre.length⟩ = some ⟨ms, m, pre.length⟩ ∧
      m.Of pl (pre ++ points p.body ++ post) p ∧ m.vertices ≠ [] ∧
      m.vertices.length = (points p.body).length := by
  refine ⟨_, bodyLines_eq pl h hb _ (fun cs hcs k hk => ?_) (by simpa using hcor), grow_of pl pre post p n hn ho, ?_, ?_⟩
  · have := ho cs hcs k hk
    simp only; omega
  · simpa [Mesh.grow] using hv
  · simp [Mesh.grow]

theorem parts_read {num : List Char → Option T} (pl : Place T) (parts : List (Part T)) :
    ∀ (pre : List (V3 T)) (ls : List (List Char)) (a : Loader T),
    List.Forall₂ (Seen num) ls (parts.flatMap Part.items) → (∀ p ∈ parts, p.name.isSome) →
    (∀ p ∈ parts, ∀ i ∈ p.body, i.isObject = false) → OwnParts pre.length parts →
    pre.length + (points (parts.flatMap Part.items)).length ≤ 2147483647 →
    (∀ p ∈ parts, corners p.body < 4294967296) → a.mesh.vertices ≠ [] →
    a.offset + a.mesh.vertices.length = pre.length →
    ∃ a' ms, ls.foldlM (meshLine num pl) a = some a' ∧ a'.finish = a.meshes ++ [a.mesh] ++ ms ∧
      List.Forall₂ (Mesh.Of pl (pre ++ points (parts.flatMap Part.items))) ms parts := by
  induction parts with
  | nil =>
    intro pre ls a h _ _ _ _ _ hv _
    cases h
    exact ⟨a, [], rfl, by simp [Loader.finish, hv], .nil⟩
  | cons p parts ih =>
    intro pre ls a h hnm hb ho hpts hcor hv hoff
    rw [List.flatMap_cons] at h hpts
    rw [points_append, points_items] at hpts
    simp only [List.length_append] at hpts
    obtain ⟨l1, l2, rfl, h1, h2⟩ := forall₂_append h
    obtain ⟨name, hname⟩ := Option.isSome_iff_exists.1 (hnm p (by simp))
    obtain ⟨ho1, ho2, ho3⟩ := ho
    have hitems : p.items = .object name :: p.body := by simp [Part.items, hname]
    rw [hitems] at h1
    cases h1 with
    | @cons l _ l1 _ hl h1 =>
      cases hl with
      | object s ws hcmd hw =>
        obtain ⟨m, hm1, hm2, hm3, hm4⟩ := part_body pl pre (points (parts.flatMap Part.items)) p h1
          (hb p (by simp)) ho2 (by omega) (hcor p (by simp)) (a.meshes ++ [a.mesh]) s (by simpa [hname] using hw) ho1
        have hstep : meshLine num pl a l = some ⟨a.meshes ++ [a.mesh], { name := s }, pre.length⟩ := by
          have hu : u32 ((a.offset : ℤ) + (a.mesh.vertices.length : ℤ)) = pre.length := by
            have : ((a.offset : ℤ) + (a.mesh.vertices.length : ℤ)) = (pre.length : ℕ) := by omega
            rw [this]; exact u32_small (by omega)
          simp [meshLine, hcmd, hv, hu]
        have hpre : pre.length + (points p.body).length = (pre ++ points p.body).length := by simp
        obtain ⟨a', ms, ha1, ha2, ha3⟩ := ih (pre ++ points p.body) l2 ⟨a.meshes ++ [a.mesh], m, pre.length⟩ h2
          (fun q hq => hnm q (by simp [hq])) (fun q hq => hb q (by simp [hq])) (by rwa [← hpre])
          (by simp only [List.length_append]; omega) (fun q hq => hcor q (by simp [hq])) hm3 (by simp [hm4])
        refine ⟨a', m :: ms, ?_, by simpa using ha2, ?_⟩
        · rw [List.cons_append, List.foldlM_cons, hstep]
          show (l1 ++ l2).foldlM (meshLine num pl) _ = _
          rw [List.foldlM_append, hm1]
          exact ha1
        · have e : pre ++ points ((p :: parts).flatMap Part.items) =
              pre ++ points p.body ++ points (parts.flatMap Part.items) := by
            rw [List.flatMap_cons, points_append, points_items, List.append_assoc]
          rw [e]
          exact .cons hm2 ha3

omit [Field T] [DecidableEq T] in
theorem points_others {pre : List (Item T)} (h : ∀ i ∈ pre, i = .other) : points pre = [] := by
  induction pre with
  | nil => rfl
  | cons i pre ih =>
    rw [h i (by simp)]
    exact ih fun j hj => h j (by simp [hj])

theorem others_skip {num : List Char → Option T} (pl : Place T) {ls : List (List Char)} {pre : List (Item T)}
    (h : List.Forall₂ (Seen num) ls pre) (hpre : ∀ i ∈ pre, i = .other) (a : Loader T) :
    ls.foldlM (meshLine num pl) a = some a := by
  induction h with
  | nil => rfl
  | @cons l i ls pre hl _ ih =>
    rw [hpre i (by simp)] at hl
    have : meshLine num pl a l = some a := by
      cases hl with
      | none h1 => simp [meshLine, h1]
      | other cmd s h1 h2 h3 h4 => simp [meshLine, h1, h2, h3, h4]
    rw [List.foldlM_cons, this]
    exact ih fun j hj => hpre j (by simp [hj])

/-- **C92, meshes.**  From a file whose lines are plain and in which every object has vertices and its
faces refer to its own vertices only, `load_meshes_from_obj` appends one mesh for each object: with its
vertices, scaled, rotated and moved, its colours and its polygons. -/
theorem meshes_loaded_partial {num : List Char → Option T} (pl : Place T) {file : List Char} {items : List (Item T)}
    {parts : List (Part T)} (hs : Says num file items) (hp : PlainFile file) (hparts : Parts items parts)
    (hown : OwnParts 0 parts) (hn : (points items).length ≤ 2147483647)
    (hcor : ∀ p ∈ parts, corners p.body < 4294967296) (meshes : List (Mesh T)) :
    ∃ ms, loadMeshes num pl meshes file = some (meshes ++ ms) ∧
      List.Forall₂ (Mesh.Of pl (points items)) ms parts := by
  have h := seen_of_says hs hp
  obtain ⟨⟨pre, hpre, hi⟩, hb, hnm⟩ := hparts
  have hpts : points items = points (parts.flatMap Part.items) := by rw [hi, points_append, points_others hpre]; rfl
  rw [hpts] at hn ⊢
  rw [hi] at h
  obtain ⟨l0, ls, hl0, h0, h⟩ := forall₂_append h
  have hskip : (lines file).foldlM (meshLine num pl) ⟨meshes, {}, 0⟩ = ls.foldlM (meshLine num pl) ⟨meshes, {}, 0⟩ := by
    rw [hl0, List.foldlM_append, others_skip pl h0 hpre]; rfl
  unfold loadMeshes
  rw [hskip]
  clear hskip hl0 h0
  change ∃ ms, (ls.foldlM (meshLine num pl) ⟨meshes, {}, 0⟩).map Loader.finish = _ ∧ _
  rcases parts with _ | ⟨p, parts⟩
  · simp only [List.flatMap_nil] at h
    cases h
    exact ⟨[], by simp [Loader.finish], .nil⟩
  · rw [List.flatMap_cons] at h hn
    rw [points_append, points_items] at hn
    simp only [List.length_append] at hn
    obtain ⟨l1, l2, hls, h1, h2⟩ := forall₂_append h
    obtain ⟨ho1, ho2, ho3⟩ := hown
    have first : ∃ m, l1.foldlM (meshLine num pl) ⟨meshes, {}, 0⟩ = some ⟨meshes, m, 0⟩ ∧
        m.Of pl (points p.body ++ points (parts.flatMap Part.items)) p ∧ m.vertices ≠ [] ∧
        m.vertices.length = (points p.body).length := by
      rcases hname : p.name with _ | name
      · have hitems : p.items = p.body := by simp [Part.items, hname]
        rw [hitems] at h1
        exact part_body pl [] (points (parts.flatMap Part.items)) p h1 (hb p (by simp)) ho2
          (by simp only [List.length_nil]; omega)
          (hcor p (by simp)) meshes [] (by simpa [hname] using Words.nil [] (by simp)) ho1
      · have hitems : p.items = .object name :: p.body := by simp [Part.items, hname]
        rw [hitems] at h1
        cases h1 with
        | @cons l _ l1 _ hl h1 =>
          cases hl with
          | object s ws hcmd hw =>
            rw [List.foldlM_cons]
            have : meshLine num pl ⟨meshes, {}, 0⟩ l = some ⟨meshes, { name := s }, 0⟩ := by
              simp [meshLine, hcmd]
            rw [this]
            exact part_body pl [] (points (parts.flatMap Part.items)) p h1 (hb p (by simp)) ho2
              (by simp only [List.length_nil]; omega)
              (hcor p (by simp)) meshes s (by simpa [hname] using hw) ho1
    obtain ⟨m, hm1, hm2, hm3, hm4⟩ := first
    obtain ⟨a', ms, ha1, ha2, ha3⟩ := parts_read pl parts (points p.body) l2 ⟨meshes, m, 0⟩ h2
      (fun q hq => hnm q (by simpa using hq)) (fun q hq => hb q (by simp [hq])) (by simpa using ho3) hn
      (fun q hq => hcor q (by simp [hq])) hm3 (by simp [hm4])
    refine ⟨m :: ms, ?_, ?_⟩
    · rw [hls, List.foldlM_append, hm1]
      change ((l2.foldlM (meshLine num pl) ⟨meshes, m, 0⟩).map Loader.finish) = _
      rw [ha1]
      simp [ha2]
    · rw [List.flatMap_cons, points_append, points_items]
      exact .cons hm2 ha3

/-! ## Polyhedra and compounds -/

/-- **C92, polyhedra.**  Under the same conditions `load_convex_polyhedrons_from_obj` returns one polyhedron
for each object, with its centroid as centre: moved to the centre it is the object. -/
theorem polyhedra_loaded_partial {num : List Char → Option T} (pl : Place T) (centroid : Mesh T → V3 T)
    {file : List Char} {items : List (Item T)} {parts : List (Part T)} (hs : Says num file items)
    (hp : PlainFile file) (hparts : Parts items parts) (hne : parts ≠ []) (hown : OwnParts 0 parts)
    (hn : (points items).length ≤ 2147483647) (hcor : ∀ p ∈ parts, corners p.body < 4294967296) :
    ∃ qs, loadConvex num pl centroid file = some qs ∧
      List.Forall₂ (fun q p => ∃ m : Mesh T, m.Of pl (points items) p ∧ q.center = centroid m ∧
        q.vertices.map (q.center + ·) = m.vertices ∧ q.indices = m.indices ∧ q.faces = m.faces) qs parts := by
  obtain ⟨ms, h1, h2⟩ := meshes_loaded_partial pl hs hp hparts hown hn hcor []
  rw [List.nil_append] at h1
  have hms : ms ≠ [] := by
    rintro rfl
    cases h2
    exact hne rfl
  refine ⟨_, by simp [loadConvex, h1, hms]; rfl, ?_⟩
  rw [List.forall₂_map_left_iff]
  refine h2.imp fun m p h => ⟨m, h, rfl, ?_, rfl, rfl⟩
  rw [List.map_map]
  have : ((fun x => centroid m + x) ∘ fun x => x - centroid m) = id := by
    funext x
    ext <;> simp
  simp [this]

/-- **C92, compounds.**  Under the same conditions `load_compound_shape_from_obj` returns a compound with
one child for each object: the child in its place in the compound has the vertices of the object. -/
theorem compound_loaded_partial {num : List Char → Option T} (pl : Place T) (centroid : Mesh T → V3 T)
    {file : List Char} {items : List (Item T)} {parts : List (Part T)} (hs : Says num file items)
    (hp : PlainFile file) (hparts : Parts items parts) (hne : parts ≠ []) (hown : OwnParts 0 parts)
    (hn : (points items).length ≤ 2147483647) (hcor : ∀ p ∈ parts, corners p.body < 4294967296) :
    ∃ cs, loadCompound num pl centroid file = some cs ∧
      List.Forall₂ (fun c p => ∃ m : Mesh T, m.Of pl (points items) p ∧
        c.1.vertices.map (fun v => c.2.1 + Quat.rotate c.2.2 v) = m.vertices ∧ c.1.indices = m.indices ∧
        c.1.faces = m.faces) cs parts := by
  obtain ⟨qs, h1, h2⟩ := polyhedra_loaded_partial pl centroid hs hp hparts hne hown hn hcor
  have hqs : qs ≠ [] := by
    rintro rfl
    cases h2
    exact hne rfl
  refine ⟨_, by simp [loadCompound, h1, hqs]; rfl, ?_⟩
  rw [List.forall₂_map_left_iff]
  refine h2.imp fun q p => ?_
  rintro ⟨m, hm, -, hv, hi, hf⟩
  refine ⟨m, hm, ?_, hi, hf⟩
  rw [← hv]
  refine List.map_congr_left fun v _ => ?_
  ext <;> simp [Quat.rotate]

end Edyn.Obj
