import Verif.Obj.Model

/-!
# Reading `*.obj` files: what a file means (C92)

The part of the format that edyn reads, described without reference to the code: lines, words separated by
white space, vertices, faces whose corners are numbers of vertices counted from 1 over the whole file,
and objects.
-/

namespace Edyn.Obj

open Edyn.Math V3

/-- `s` consists of the lines `ls`.  The last line need not end with a newline. -/
inductive Lines : List Char → List (List Char) → Prop
  | nil : Lines [] []
  | last (l : List Char) : l ≠ [] → '\n' ∉ l → Lines l [l]
  | cons (l s : List Char) (ls : List (List Char)) : '\n' ∉ l → Lines s ls → Lines (l ++ '\n' :: s) (l :: ls)

/-- `s` consists of the words `ws`, with white space before, between and after them. -/
inductive Words : List Char → List (List Char) → Prop
  | nil (s : List Char) : (∀ c ∈ s, isSpace c = true) → Words s []
  | cons (s w r : List Char) (ws : List (List Char)) : (∀ c ∈ s, isSpace c = true) → w ≠ [] →
      (∀ c ∈ w, isSpace c = false) → (∀ c ∈ r.head?, isSpace c = true) → Words r ws →
      Words (s ++ w ++ r) (w :: ws)

/-- `w` is the number `k` in decimal digits. -/
def Numeral (w : List Char) (k : ℕ) : Prop :=
  w ≠ [] ∧ (∀ c ∈ w, digit c = true) ∧ w.foldl (fun n c => 10 * n + digitVal c) 0 = k

/-- `w` is a corner of a face at vertex `k`: `k`, `k/…`, where what follows the slash are texture
coordinates and normals. -/
def Corner (w : List Char) (k : ℕ) : Prop :=
  Numeral w k ∨ ∃ d r, w = d ++ '/' :: r ∧ Numeral d k

/-- What a line says. -/
inductive Item (T : Type)
  | vertex (p : V3 T) (color : Option (V3 T))
  | face (corners : List ℕ)
  | object (name : List (List Char))
  | other
deriving DecidableEq

variable {T : Type}

/-- The words of a line mean the item.  A vertex may have a weight, which has no meaning for edyn, or a
colour. -/
inductive Means (num : List Char → Option T) : List (List Char) → Item T → Prop
  | vertex (a b c : List Char) (x y z : T) : num a = some x → num b = some y → num c = some z →
      Means num [['v'], a, b, c] (.vertex ⟨x, y, z⟩ none)
  | weighted (a b c d : List Char) (x y z w : T) : num a = some x → num b = some y → num c = some z →
      num d = some w → Means num [['v'], a, b, c, d] (.vertex ⟨x, y, z⟩ none)
  | colored (a b c d e f : List Char) (x y z u v w : T) : num a = some x → num b = some y → num c = some z →
      num d = some u → num e = some v → num f = some w →
      Means num [['v'], a, b, c, d, e, f] (.vertex ⟨x, y, z⟩ (some ⟨u, v, w⟩))
  | face (ws : List (List Char)) (cs : List ℕ) : List.Forall₂ Corner ws cs →
      Means num (['f'] :: ws) (.face cs)
  | object (ws : List (List Char)) : Means num (['o'] :: ws) (.object ws)
  | blank : Means num [] .other
  | other (w : List Char) (ws : List (List Char)) : w ≠ ['v'] → w ≠ ['f'] → w ≠ ['o'] →
      Means num (w :: ws) .other

/-- A line says the item. -/
def Line (num : List Char → Option T) (l : List Char) (i : Item T) : Prop :=
  ∃ ws, Words l ws ∧ Means num ws i

/-- The file says the items, line by line. -/
def Says (num : List Char → Option T) (file : List Char) (items : List (Item T)) : Prop :=
  ∃ ls, Lines file ls ∧ List.Forall₂ (Line num) ls items

/-- A line whose command stands at the start and is followed by a space, if it is a command that edyn
reads. -/
def Plain (l : List Char) : Prop :=
  ∀ c ws, (c = 'v' ∨ c = 'f' ∨ c = 'o') → Words l ([c] :: ws) → ∃ s, l = c :: ' ' :: s

/-- All lines of the file are plain. -/
def PlainFile (file : List Char) : Prop := ∀ ls, Lines file ls → ∀ l ∈ ls, Plain l

/-- The vertices. -/
def points (items : List (Item T)) : List (V3 T) :=
  items.filterMap fun | .vertex p _ => some p | _ => none

/-- The colours. -/
def colors (items : List (Item T)) : List (V3 T) :=
  items.filterMap fun | .vertex _ c => c | _ => none

/-- The faces: the numbers of their vertices. -/
def faces (items : List (Item T)) : List (List ℕ) :=
  items.filterMap fun | .face cs => some cs | _ => none

/-- The corner `k` of a face: vertices are counted from 1. -/
def corner (ps : List (V3 T)) (k : ℕ) : Option (V3 T) := if k = 0 then none else ps[k - 1]?

/-- The triangles of a fan around the first corner. -/
def fan {α : Type} : List α → List (List α)
  | [] => []
  | a :: bs => (bs.zip bs.tail).map fun x => [a, x.1, x.2]

/-- Scaled, rotated and moved, in this order. -/
def Place.placed [Field T] (p : Place T) (v : V3 T) : V3 T :=
  Quat.rotate p.orn ⟨p.scale.x * v.x, p.scale.y * v.y, p.scale.z * v.z⟩ + p.pos

/-- The triangles of a loaded triangle mesh: the points at three consecutive indices. -/
def triangles (vs : List (V3 T)) : List ℕ → List (List (Option (V3 T)))
  | a :: b :: c :: is => [vs[a]?, vs[b]?, vs[c]?] :: triangles vs is
  | _ => []

/-- The array of faces of a mesh as pairs of a first index and a number of indices. -/
def ranges : List ℕ → List (ℕ × ℕ)
  | a :: n :: fs => (a, n) :: ranges fs
  | _ => []

/-- The polygons of a loaded mesh: the points at the indices of each face. -/
def Mesh.polygons (m : Mesh T) : List (List (Option (V3 T))) :=
  (ranges m.faces).map fun f => ((m.indices.drop f.1).take f.2).map (m.vertices[·]?)

/-- A part of a file: an object, or what comes before the first one, whose items are no objects. -/
structure Part (T : Type) where
  name : Option (List (List Char))
  body : List (Item T)

/-- The items of a part. -/
def Part.items (p : Part T) : List (Item T) := (p.name.map Item.object).toList ++ p.body

/-- The item starts an object. -/
def Item.isObject : Item T → Bool
  | .object _ => true
  | _ => false

/-- `parts` are the parts of `items`, after lines without meaning: all but the first have a name, which
may be missing if it is the part before the first object. -/
structure Parts (items : List (Item T)) (parts : List (Part T)) : Prop where
  items : ∃ pre : List (Item T), (∀ i ∈ pre, i = .other) ∧ items = pre ++ parts.flatMap Part.items
  body : ∀ p ∈ parts, ∀ i ∈ p.body, i.isObject = false
  named : ∀ p ∈ parts.tail, p.name.isSome

/-- The mesh is what the part says in a file with the vertices `ps`. -/
structure Mesh.Of [Field T] (pl : Place T) (ps : List (V3 T)) (m : Mesh T) (p : Part T) : Prop where
  name : Words m.name (p.name.getD [])
  vertices : m.vertices = (points p.body).map pl.placed
  colors : m.colors = Obj.colors p.body
  polygons : m.polygons = (Obj.faces p.body).map fun cs => cs.map fun k => (corner ps k).map pl.placed

end Edyn.Obj
