import Mathlib.Data.List.Basic
import Mathlib.Data.List.Perm.Basic
import Mathlib.Logic.Function.Basic
import Mathlib.Tactic.ByContra

/-!
# Packing constraint rows and giving impulses back (C38)

Model of `constraint_row_prep_cache` and `row_cache` (`include/edyn/dynamics/row_cache.hpp`), of the
order in which `prepare_constraints` fills them (`src/edyn/dynamics/solver.cpp`), and of `insert_rows`,
`pack_rows`, `update_impulse` and `assign_applied_impulses` (`src/edyn/dynamics/island_solver.cpp`).

`R`, `F` and `S` are the contents of ordinary rows, of friction (and rolling) rows and of spinning rows.
Constraint types are numbered by their place in `constraints_tuple`.
-/

namespace Edyn.Solver.Pack

variable {R F S T : Type}

/-- `constraint_row_prep_cache::element`, `row_cache.hpp` 60-72; a flag is whether the option is there. -/
structure Elem (R F S : Type) where
  row : R
  friction : Option F
  rolling : Option F
  spinning : Option S

/-- `constraint_row_prep_cache`, `row_cache.hpp` 56-87: the rows of all constraints of an entity, the
number of rows of each constraint and the index of the constraint to be consumed next. -/
structure Prep (R F S : Type) where
  rows : List (Elem R F S)
  perCon : List Nat
  cur : Nat

/-- `clear`, `row_cache.hpp` 169-181. -/
def Prep.clear : Prep R F S := ⟨[], [], 0⟩

/-- `add_constraint`, `row_cache.hpp` 93-95. -/
def Prep.addConstraint (p : Prep R F S) : Prep R F S := { p with perCon := p.perCon ++ [0] }

/-- `add_row`, `row_cache.hpp` 97-104, together with the friction rows then added to it (106-128);
`none` if an assertion fails or `rows_per_constraint`, of size 8, is exceeded. -/
def Prep.addRow (p : Prep R F S) (e : Elem R F S) : Option (Prep R F S) :=
  if p.rows.length < 16 ∧ 0 < p.perCon.length ∧ p.perCon.length ≤ 8 then
    some { p with rows := p.rows ++ [e], perCon := p.perCon.modify (p.perCon.length - 1) (· + 1) }
  else none

/-- The constraints there are: the rows that constraint type `t` of entity `e` makes, if it has one. -/
abbrev Cons (R F S : Type) := Nat → Nat → Option (List (Elem R F S))

/-- The loop body of `prepare_constraints`, `solver.cpp` 188-197, for the types `ts` (in the order of
`constraints_tuple`). -/
def prepare (con : Nat → Option (List (Elem R F S))) : List Nat → Prep R F S → Option (Prep R F S)
  | [], p => some p
  | t :: ts, p =>
    match con t with
    | none => prepare con ts p
    | some es => (es.foldlM (fun p e => Prep.addRow p e) p.addConstraint).bind (prepare con ts)

/-- `current_num_rows`, `row_cache.hpp` 163-167. -/
def Prep.currentNumRows (p : Prep R F S) : Option Nat := p.perCon[p.cur]?

/-- `consume_rows`, `row_cache.hpp` 143-160: the rows of the current constraint. -/
def Prep.consume (p : Prep R F S) : Option (List (Elem R F S) × Prep R F S) :=
  match p.perCon[p.cur]? with
  | none => none
  | some n =>
    let start := (p.perCon.take p.cur).sum
    some ((p.rows.drop start).take n, { p with cur := p.cur + 1 })

/-- `row_cache`, `row_cache.hpp` 23-47; friction rows come with their `normal_row_index`. -/
structure Cache (R F S : Type) where
  rows : List R
  conNumRows : List Nat
  flags : List (Bool × Bool × Bool)
  friction : List (F × Nat)
  rolling : List (F × Nat)
  spinning : List (S × Nat)

def Cache.empty : Cache R F S := ⟨[], [], [], [], [], []⟩

/-- The body of the lambda in `insert_rows`, `island_solver.cpp` 139-158. -/
def Cache.push (c : Cache R F S) (e : Elem R F S) : Cache R F S :=
  let i := c.rows.length
  { rows := c.rows ++ [e.row]
    conNumRows := c.conNumRows
    flags := c.flags ++ [(e.friction.isSome, e.rolling.isSome, e.spinning.isSome)]
    friction := c.friction ++ (e.friction.map fun f => (f, i)).toList
    rolling := c.rolling ++ (e.rolling.map fun f => (f, i)).toList
    spinning := c.spinning ++ (e.spinning.map fun f => (f, i)).toList }

/-- `insert_rows`, `island_solver.cpp` 113-160: the loop over the edges of the island for one type; the
entities found are returned. -/
def insertRows (con : Cons R F S) (t : Nat) :
    List Nat → (Nat → Prep R F S) × Cache R F S × List Nat →
      Option ((Nat → Prep R F S) × Cache R F S × List Nat)
  | [], s => some s
  | e :: es, (prep, cache, ents) =>
    match con e t with
    | none => insertRows con t es (prep, cache, ents)
    | some _ =>
      match (prep e).currentNumRows, (prep e).consume with
      | some n, some (rows, p') =>
        insertRows con t es (Function.update prep e p',
          rows.foldl Cache.push { cache with conNumRows := cache.conNumRows ++ [n] }, ents ++ [e])
      | _, _ => none

/-- `pack_rows`, `island_solver.cpp` 162-172. -/
def packRows (con : Cons R F S) (edges : List Nat) :
    List Nat → (Nat → Prep R F S) × Cache R F S → Option ((Nat → Prep R F S) × Cache R F S × List (List Nat))
  | [], (prep, cache) => some (prep, cache, [])
  | t :: ts, (prep, cache) =>
    match insertRows con t edges (prep, cache, []) with
    | none => none
    | some (prep', cache', ents) =>
      match packRows con edges ts (prep', cache') with
      | none => none
      | some (prep'', cache'', l) => some (prep'', cache'', ents :: l)

/-- The cursors of `assign_applied_impulses`, `island_solver.cpp` 239-243. -/
structure Cursors where
  con : Nat
  row : Nat
  friction : Nat
  rolling : Nat
  spinning : Nat

/-- The inner loop of `update_impulse`, `island_solver.cpp` 189-209: `num_rows` rows; `none` if it reads
out of range. -/
def readRows (impR : R → T) (impF : F → T × T) (impS : S → T) (c : Cache R F S) :
    Nat → Cursors → Option (List T × Cursors)
  | 0, k => some ([], k)
  | n + 1, k =>
    match c.flags[k.row]?, c.rows[k.row]? with
    | some (ff, fr, fs), some r =>
      let o1 := if ff then (c.friction[k.friction]?).map fun f => [(impF f.1).1, (impF f.1).2] else some []
      let o2 := if fr then (c.rolling[k.rolling]?).map fun f => [(impF f.1).1, (impF f.1).2] else some []
      let o3 := if fs then (c.spinning[k.spinning]?).map fun f => [impS f.1] else some []
      match o1, o2, o3 with
      | some l1, some l2, some l3 =>
        match readRows impR impF impS c n ⟨k.con, k.row + 1, k.friction + ff.toNat, k.rolling + fr.toNat,
            k.spinning + fs.toNat⟩ with
        | some (l, k') => some (impR r :: (l1 ++ l2 ++ l3 ++ l), k')
        | none => none
      | _, _, _ => none
    | _, _ => none

/-- `update_impulse`, `island_solver.cpp` 177-216: what is passed to the `store_applied_impulses` of
which entity. -/
def updateImpulse (impR : R → T) (impF : F → T × T) (impS : S → T) (c : Cache R F S) (t : Nat) :
    List Nat → Cursors → Option (List ((Nat × Nat) × List T) × Cursors)
  | [], k => some ([], k)
  | e :: es, k =>
    match c.conNumRows[k.con]? with
    | none => none
    | some n =>
      match readRows impR impF impS c n k with
      | none => none
      | some (l, k') =>
        match updateImpulse impR impF impS c t es { k' with con := k'.con + 1 } with
        | none => none
        | some (out, k'') => some (((e, t), l) :: out, k'')

/-- `update_impulses`, `assign_applied_impulses`, `island_solver.cpp` 218-248: types in order, each with
the entities packed for it. -/
def assign (impR : R → T) (impF : F → T × T) (impS : S → T) (c : Cache R F S) :
    List (Nat × List Nat) → Cursors → Option (List ((Nat × Nat) × List T))
  | [], _ => some []
  | (t, es) :: l, k =>
    match updateImpulse impR impF impS c t es k with
    | none => none
    | some (out, k') =>
      match assign impR impF impS c l k' with
      | none => none
      | some out' => some (out ++ out')

end Edyn.Solver.Pack
