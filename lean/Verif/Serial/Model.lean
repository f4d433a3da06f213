/-
Model of edyn's serialization:
  /repo/include/edyn/serialization/memory_archive.hpp
  /repo/include/edyn/serialization/std_s11n.hpp
  /repo/include/edyn/serialization/s11n_util.hpp, entt_s11n.hpp

A C++ type that can be passed to an archive is described by a `Ty`; `serialize` for aggregate
types (math_s11n.hpp, the packets, triangle_mesh, ...) is always a sequence of `archive(field)`,
i.e. `Ty.struct`.  Every byte read from the input buffer and every element access goes through a
bounds-checked access returning `none`, so `none` stands for undefined behaviour.

Simplifications: a fundamental object is its object representation (a list of bytes, as copied
by `*dest = t`), and multi-byte sizes are little endian.  Sizes do not wrap (`size_t` is a `Nat`).
-/
import Mathlib.Data.Nat.Bitwise

namespace Edyn.Serial

/-- Types accepted by the archives. -/
inductive Ty where
  /-- A fundamental type of `n` bytes (memory_archive.hpp:31, `std::is_fundamental_v`). -/
  | scalar (n : Nat)
  /-- `bool`, a fundamental type of one byte. -/
  | bool
  /-- `entt::entity` and enums: read through a zero-initialised integer
  (s11n_util.hpp:9-20, entt_s11n.hpp:9-19). -/
  | enum (n : Nat)
  /-- Aggregates serialized field by field, `std::pair` (std_s11n.hpp:150-154), `std::array`
  (std_s11n.hpp:90-95); `struct 0` is an empty type, which is skipped (memory_archive.hpp:33). -/
  | struct (n : Nat) (f : Fin n → Ty)
  /-- `std::vector<T>` (std_s11n.hpp:31-41); `std::string` (19-29) is `vec (scalar 1)`. -/
  | vec (t : Ty)
  /-- `std::vector<bool>` (std_s11n.hpp:43-75). -/
  | vecBool
  /-- `std::optional<T>` (std_s11n.hpp:161-177). -/
  | opt (t : Ty)
  /-- `std::variant<Ts...>` with `n+1` distinct alternatives (std_s11n.hpp:102-139). -/
  | variant (n : Nat) (f : Fin (n + 1) → Ty)
  /-- `std::map<K, V>` with an unsigned integer key of `k` bytes (std_s11n.hpp:188-209). The only
  map serialized by the engine is `asset_ref::entity_map`, keyed by `entt::id_type`. -/
  | map (k : Nat) (t : Ty)

/-- Objects of each type. -/
def Val : Ty → Type
  | .scalar _ => List UInt8
  | .bool => Bool
  | .enum _ => List UInt8
  | .struct n f => (i : Fin n) → Val (f i)
  | .vec t => List (Val t)
  | .vecBool => List Bool
  | .opt t => Option (Val t)
  | .variant n f => (i : Fin (n + 1)) × Val (f i)
  | .map _ t => List (List UInt8 × Val t)

/-- A value-initialised object, `T{}`. -/
def dflt : (t : Ty) → Val t
  | .scalar n => List.replicate n 0
  | .bool => false
  | .enum n => List.replicate n 0
  | .struct _ f => fun i => dflt (f i)
  | .vec _ => ([] : List _)
  | .vecBool => ([] : List Bool)
  | .opt _ => (none : Option _)
  | .variant _ f => ⟨0, dflt (f 0)⟩
  | .map _ _ => ([] : List _)

/-! ### Integers as bytes -/

/-- The `n` little-endian bytes of `x`. -/
def enc : Nat → Nat → List UInt8
  | 0, _ => []
  | n + 1, x => UInt8.ofNat (x % 256) :: enc n (x / 256)

/-- The unsigned integer with the given little-endian bytes. -/
def dec : List UInt8 → Nat
  | [] => 0
  | b :: bs => b.toNat + 256 * dec bs

/-- `std::numeric_limits<uint16_t>::max()`. -/
def maxSize : Nat := 65535

/-- Object representation of a `bool`. -/
def boolByte : Bool → List UInt8
  | true => [1]
  | false => [0]

/-! ### Output

Writing produces the list of chunks handed to `write_bytes`, one per fundamental object. -/

/-- std_s11n.hpp:55 `num_sets`. -/
def numSets (size : Nat) : Nat := size / 32 + (if size % 32 ≠ 0 then 1 else 0)

/-- std_s11n.hpp:62-65: the set holding bits `start .. start + count - 1`. -/
def packSet (v : List Bool) (start : Nat) : Nat → Option Nat
  | 0 => some 0
  | j + 1 => do
    let s ← packSet v start j
    let b ← v[start + j]?
    some (s ||| (b.toNat <<< j))

/-- std_s11n.hpp:57-66 (output branch): sets `i, i+1, ..., i + m - 1`. -/
def packSets (v : List Bool) (size : Nat) : Nat → Nat → Option (List (List UInt8))
  | 0, _ => some []
  | m + 1, i => do
    let s ← packSet v (i * 32) (min (size - i * 32) 32)
    let cs ← packSets v size m (i + 1)
    some ([enc 4 s] ++ cs)

/-- Concatenate the results of `w` over a list. -/
def catM {α : Type} (w : α → Option (List (List UInt8))) : List α → Option (List (List UInt8))
  | [] => some []
  | x :: xs => do
    let a ← w x
    let b ← catM w xs
    some (a ++ b)

/-- `archive(t)` on an output archive. -/
def write : (t : Ty) → Val t → Option (List (List UInt8))
  | .scalar _, v => some [v]
  | .bool, v => some [boolByte v]
  | .enum _, v => some [v]
  | .struct n f, v => catM (fun i => write (f i) (v i)) (List.finRange n)
  | .vec t, v => do
    -- std_s11n.hpp:34-40
    let size := min (List.length v) maxSize
    let cs ← catM (write t) (List.take size v)
    some ([enc 2 size] ++ cs)
  | .vecBool, v => do
    -- std_s11n.hpp:46-67
    let size := min (List.length v) maxSize
    let cs ← packSets (List.take size v) size (numSets size) 0
    some ([enc 2 size] ++ cs)
  | .opt t, v =>
    -- std_s11n.hpp:163-175
    match v with
    | none => some [boolByte false]
    | some x => do
      let cs ← write t x
      some ([boolByte true] ++ cs)
  | .variant _ f, v => do
    -- std_s11n.hpp:132-137
    let cs ← write (f v.1) v.2
    some ([enc 1 v.1.val] ++ cs)
  | .map _ t, v => do
    -- std_s11n.hpp:190-192, 201-207
    let cs ← catM (fun p : List UInt8 × Val t => do
      let c ← write t p.2
      some ([p.1] ++ c)) v
    some ([enc 2 (min (List.length v) maxSize)] ++ cs)

/-- The source object after it has been passed to an output archive: std_s11n.hpp:24, 36, 48
resize the source itself (`operator()(const T&)` even casts constness away,
memory_archive.hpp:98). -/
def after : (t : Ty) → Val t → Val t
  | .scalar _, v => v
  | .bool, v => v
  | .enum _, v => v
  | .struct _ f, v => fun i => after (f i) (v i)
  | .vec t, v => List.map (after t) (List.take (min (List.length v) maxSize) v)
  | .vecBool, v => List.take (min (List.length v) maxSize) v
  | .opt t, v => Option.map (after t) v
  | .variant _ f, v => ⟨v.1, after (f v.1) v.2⟩
  | .map _ t, v => List.map (fun p : List UInt8 × Val t => (p.1, after t p.2)) v

/-- memory_output_archive::write_bytes, memory_archive.hpp:109-115: append to the buffer. -/
def memOut (buf : List UInt8) (cs : List (List UInt8)) : List UInt8 :=
  cs.foldl (fun b c => b ++ c) buf

/-- State of a `fixed_memory_output_archive`, memory_archive.hpp:167-170 (`m_size` is the length
of the buffer). -/
structure FixedOut where
  buf : List UInt8
  pos : Nat
  failed : Bool

/-- Store `c` at `pos`, bounds checked. -/
def store (buf : List UInt8) (pos : Nat) : List UInt8 → Option (List UInt8)
  | [] => some buf
  | b :: bs => if pos < buf.length then store (buf.set pos b) (pos + 1) bs else none

/-- fixed_memory_output_archive::write_bytes, memory_archive.hpp:153-165. -/
def fixedWrite (o : FixedOut) (c : List UInt8) : Option FixedOut :=
  if o.failed then some o
  else if o.pos + c.length > o.buf.length then some { o with failed := true }
  else (store o.buf o.pos c).map fun b => { o with buf := b, pos := o.pos + c.length }

/-- All chunks in order. -/
def fixedOut (o : FixedOut) : List (List UInt8) → Option FixedOut
  | [] => some o
  | c :: cs => do
    let o' ← fixedWrite o c
    fixedOut o' cs

/-! ### Input -/

/-- State of a `memory_input_archive`, memory_archive.hpp:67-70. -/
structure Ar where
  buf : List UInt8
  pos : Nat
  failed : Bool
  deriving DecidableEq

/-- Bounds-checked load of `n` bytes at `pos`. -/
def load (buf : List UInt8) (pos : Nat) : Nat → Option (List UInt8)
  | 0 => some []
  | n + 1 => do
    let b ← buf[pos]?
    let bs ← load buf (pos + 1) n
    some (b :: bs)

/-- memory_input_archive::read_bytes, memory_archive.hpp:52-64, for a target `t` of `n` bytes. -/
def readBytes (n : Nat) (t : List UInt8) (a : Ar) : Option (List UInt8 × Ar) :=
  if a.failed then some (t, a)
  else if a.pos + n > a.buf.length then some (t, { a with failed := true })
  else (load a.buf a.pos n).map fun bs => (bs, { a with pos := a.pos + n })

/-- `vector.resize(n)`: drop the tail or append value-initialised elements. -/
def resize {α : Type} (d : α) (n : Nat) (l : List α) : List α :=
  l.take n ++ List.replicate (n - l.length) d

/-- Read into each element of a list in turn. -/
def readEach {α : Type} (rd : α → Ar → Option (α × Ar)) : List α → Ar → Option (List α × Ar)
  | [], a => some ([], a)
  | x :: xs, a => do
    let r ← rd x a
    let rs ← readEach rd xs r.2
    some (r.1 :: rs.1, rs.2)

/-- Read into the listed fields of an aggregate in turn. -/
def readFields {n : Nat} {β : Fin n → Type} (rd : (i : Fin n) → β i → Ar → Option (β i × Ar)) :
    List (Fin n) → ((i : Fin n) → β i) → Ar → Option (((i : Fin n) → β i) × Ar)
  | [], v, a => some (v, a)
  | i :: is, v, a => do
    let r ← rd i (v i) a
    readFields rd is (Function.update v i r.1) r.2

/-- Assign element `i`, bounds checked. -/
def setAt (v : List Bool) (i : Nat) (b : Bool) : Option (List Bool) :=
  if i < v.length then some (v.set i b) else none

/-- std_s11n.hpp:70-72. -/
def unpackSet (set start : Nat) (v : List Bool) : Nat → Option (List Bool)
  | 0 => some v
  | j + 1 => do
    let v' ← unpackSet set start v j
    setAt v' (start + j) (0 < set &&& (1 <<< j))

/-- std_s11n.hpp:57-59, 68-73: sets `i, i+1, ..., i + m - 1`. `junk` is the content of the
uninitialised local `set` (line 68), which is what line 71 looks at when the read failed. -/
def unpackSets (junk : List UInt8) (size : Nat) :
    Nat → Nat → List Bool → Ar → Option (List Bool × Ar)
  | 0, _, v, a => some (v, a)
  | m + 1, i, v, a => do
    let r ← readBytes 4 junk a
    let v' ← unpackSet (dec r.1) (i * 32) v (min (size - i * 32) 32)
    unpackSets junk size m (i + 1) v' r.2

/-- `std::map::emplace` on a map kept sorted by key: no effect if the key is present. -/
def emplace {α : Type} (k : List UInt8) (x : α) :
    List (List UInt8 × α) → List (List UInt8 × α)
  | [] => [(k, x)]
  | p :: ps =>
    if dec k < dec p.1 then (k, x) :: p :: ps
    else if dec p.1 < dec k then p :: emplace k x ps
    else p :: ps

/-- std_s11n.hpp:195-199: the variable `pair` (here `k`, `x`) is shared by all rounds. -/
def readMap {α : Type} (kn : Nat) (rd : α → Ar → Option (α × Ar)) :
    Nat → List UInt8 → α → List (List UInt8 × α) → Ar → Option (List (List UInt8 × α) × Ar)
  | 0, _, _, m, a => some (m, a)
  | n + 1, k, x, m, a => do
    let rk ← readBytes kn k a
    let rx ← rd x rk.2
    readMap kn rd n rk.1 rx.1 (emplace rk.1 rx.1 m) rx.2

/-- `archive(t)` on a `memory_input_archive`; the second argument is the current content of the
target, the result its new content. -/
def read (junk : List UInt8) : (t : Ty) → Val t → Ar → Option (Val t × Ar)
  | .scalar n, v, a => readBytes n v a
  | .bool, v, a => do
    let r ← readBytes 1 (boolByte v) a
    some (decide (r.1 ≠ [0]), r.2)
  | .enum n, _, a => readBytes n (List.replicate n 0) a
  | .struct n f, v, a => readFields (fun i => read junk (f i)) (List.finRange n) v a
  | .vec t, v, a => do
    -- std_s11n.hpp:34-40
    let r ← readBytes 2 (enc 2 (min (List.length v) maxSize)) a
    readEach (read junk t) (resize (dflt t) (dec r.1) v) r.2
  | .vecBool, v, a => do
    -- std_s11n.hpp:46-74
    let r ← readBytes 2 (enc 2 (min (List.length v) maxSize)) a
    unpackSets junk (dec r.1) (numSets (dec r.1)) 0 (resize false (dec r.1) v) r.2
  | .opt t, v, a => do
    -- std_s11n.hpp:163-171
    let r ← readBytes 1 (boolByte (Option.isSome v)) a
    if r.1 ≠ [0] then do
      let x ← read junk t (dflt t) r.2
      some ((some x.1 : Option (Val t)), x.2)
    else some ((none : Option (Val t)), r.2)
  | .variant n f, v, a => do
    -- std_s11n.hpp:103-130
    let r ← readBytes 1 [0] a
    if h : dec r.1 < n + 1 then do
      let x ← read junk (f ⟨dec r.1, h⟩) (dflt (f ⟨dec r.1, h⟩)) r.2
      some (⟨⟨dec r.1, h⟩, x.1⟩, x.2)
    else some (v, r.2)
  | .map k t, v, a => do
    -- std_s11n.hpp:190-199
    let r ← readBytes 2 (enc 2 (min (List.length v) maxSize)) a
    readMap k (read junk t) (dec r.1) (List.replicate k 0) (dflt t) v r.2

/-! ### `serialization_sizeof` -/

/-- `sizeof(T)` for types without indirection. Simplification: no padding (true of every type the
engine passes here: vector3, arrays of indices, unordered_pair, tree_node). -/
def fixedSize : Ty → Option Nat
  | .scalar n => some n
  | .bool => some 1
  | .enum n => some n
  | .struct n f => (List.finRange n).foldr (fun i acc => do
      let a ← fixedSize (f i)
      let b ← acc
      some (a + b)) (some 0)
  | _ => none

/-- `serialization_sizeof`: std_s11n.hpp:77-100, 156-159, 179-186, 211-215; for aggregates the sum
over the members (triangle_mesh_s11n.hpp:16-30, 51-69, static_tree_s11n.hpp). The overload for
variants (141-148) does not compile when used and is not modelled (`none`). -/
def serSize : (t : Ty) → Val t → Option Nat
  | .scalar n, _ => some n
  | .bool, _ => some 1
  | .enum n, _ => some n
  | .struct n f, v => (List.finRange n).foldr (fun i acc => do
      let a ← serSize (f i) (v i)
      let b ← acc
      some (a + b)) (some 0)
  | .vec t, v => (fixedSize t).map fun s => 2 + List.length v * s
  | .vecBool, v => some (2 + numSets (List.length v) * 4)
  | .opt t, v =>
    match v with
    | none => some 1
    | some x => (serSize t x).map fun s => 1 + s
  | .variant _ _, _ => none
  | .map k t, v => (fixedSize t).map fun s => 2 + List.length v * (k + s)

end Edyn.Serial
