import Verif.Serial.Props

/-!
# The content of actions on their way to the server (C98)

Models the serialization of `action_list` (`include/edyn/comp/action_list.hpp`) and of
`action_history` (`include/edyn/networking/comp/action_history.hpp`), the recording of pending
actions by the client (`append_actions`, `append_current_actions`,
`include/edyn/networking/util/client_snapshot_exporter.hpp`) and their import by the server
(`import_action`, `include/edyn/networking/util/server_snapshot_importer.hpp`; the client has the
same function in `input_state_history.hpp` 326-362 for its extrapolations).

Simplifications: one entity; timestamps are their eight bytes.  Trimming, merging and the choice
of the entries that are due are modelled in `ActionHistory` and `DispatchActions`.
-/

namespace Edyn.Net.ActionData

open Edyn.Serial

/-! ## Model -/

/-- `serialize(archive, action_list &)` on an output archive, `action_list.hpp` 23-32. -/
def writeList (t : Ty) (l : List (Val t)) : Option (List (List UInt8)) := do
  let size := min l.length 255
  let cs ← catM (write t) (l.take size)
  some ([enc 1 size] ++ cs)

/-- The list after it has been written: line 27 resizes the list that is being written. -/
def afterList (t : Ty) (l : List (Val t)) : List (Val t) :=
  (l.take (min l.length 255)).map (after t)

/-- `serialize(archive, action_list &)` on an input archive, `action_list.hpp` 23-32. -/
def readList (junk : List UInt8) (t : Ty) (l : List (Val t)) (a : Ar) :
    Option (List (Val t) × Ar) := do
  let r ← readBytes 1 (enc 1 (min l.length 255)) a
  readEach (read junk t) (resize (dflt t) (dec r.1) l) r.2

/-- `action_history::entry`, `action_history.hpp` 18-29. -/
structure Entry where
  time : List UInt8
  index : Nat
  data : List UInt8
deriving DecidableEq

/-- The bytes of `entry::data` as a `std::vector<uint8_t>`. -/
def toVec (d : List UInt8) : Val (.vec (.scalar 1)) := (d.map fun b => [b] : List (List UInt8))

/-- The bytes of a `std::vector<uint8_t>`. -/
def ofVec (v : Val (.vec (.scalar 1))) : List UInt8 := List.flatten (show List (List UInt8) from v)

/-- Lines 74-76 of `action_history.hpp`, output. -/
def writeEntry (e : Entry) : Option (List (List UInt8)) := do
  let ds ← write (.vec (.scalar 1)) (toVec e.data)
  some ([e.time] ++ [enc 1 e.index] ++ ds)

/-- Lines 74-76 of `action_history.hpp`, input. -/
def readEntry (junk : List UInt8) (e : Entry) (a : Ar) : Option (Entry × Ar) := do
  let t ← readBytes 8 e.time a
  let i ← readBytes 1 (enc 1 e.index) t.2
  let d ← read junk (.vec (.scalar 1)) (toVec e.data) i.2
  some (⟨t.1, dec i.1, ofVec d.1⟩, d.2)

/-- `serialize(archive, action_history &)` on an output archive, `action_history.hpp` 65-78. -/
def writeHist (h : List Entry) : Option (List (List UInt8)) := do
  let size := min h.length 255
  let cs ← catM writeEntry (h.take size)
  some ([enc 1 size] ++ cs)

/-- `serialize(archive, action_history &)` on an input archive, `action_history.hpp` 65-78. -/
def readHist (junk : List UInt8) (h : List Entry) (a : Ar) : Option (List Entry × Ar) := do
  let r ← readBytes 1 (enc 1 (min h.length 255)) a
  readEach (readEntry junk) (resize ⟨List.replicate 8 0, 0, []⟩ (dec r.1) h) r.2

/-- The `action_list<Action>` components of one entity, one for each registered action type. -/
abbrev Lists {n : Nat} (tys : Fin n → Ty) : Type := (i : Fin n) → Option (List (Val (tys i)))

/-- The entity at the client: its action lists and the entries of its history. -/
structure Client {n : Nat} (tys : Fin n → Ty) where
  lists : Lists tys
  hist : List Entry

/-- `append_actions<Action>` for the entity, `client_snapshot_exporter.hpp` 73-98; `i` is the
position of the action type, stored as an `uint8_t` (`action_history.hpp` 16, 20). -/
def appendActions {n : Nat} {tys : Fin n → Ty} (owner : Option Nat) (me : Nat) (time : List UInt8)
    (c : Client tys) (i : Fin n) : Option (Client tys) :=
  match c.lists i with
  | none => some c
  | some l =>
    if owner.isSome ∧ owner ≠ some me then some c
    else if l.isEmpty then some c
    else do
      let cs ← writeList (tys i) l
      some { lists := Function.update c.lists i (some (afterList (tys i) l))
             hist := c.hist ++ [⟨time, i.val % 256, memOut [] cs⟩] }

/-- `append_current_actions<Actions...>`, `client_snapshot_exporter.hpp` 100-104. -/
def appendCurrent {n : Nat} {tys : Fin n → Ty} (owner : Option Nat) (me : Nat)
    (time : List UInt8) (c : Client tys) : Option (Client tys) :=
  (List.finRange n).foldlM (appendActions owner me time) c

/-- An update of the client: its time and the actions pending at that time. -/
structure Update {n : Nat} (tys : Fin n → Ty) where
  time : List UInt8
  lists : Lists tys

/-- A sequence of updates; before each of them the user sets the action lists. -/
def run {n : Nat} {tys : Fin n → Ty} (owner : Option Nat) (me : Nat) (us : List (Update tys))
    (c : Client tys) : Option (Client tys) :=
  us.foldlM (fun c u => appendCurrent owner me u.time { c with lists := u.lists }) c

/-- `import_action_single<Action>`, `server_snapshot_importer.hpp` 233-252. -/
def importSingle {n : Nat} {tys : Fin n → Ty} (junk : List UInt8) (i : Fin n) (data : List UInt8)
    (s : Lists tys) : Option (Lists tys) := do
  let r ← readList junk (tys i) [] ⟨data, 0, false⟩
  if r.2.failed then some s
  else some (Function.update s i (some ((s i).getD [] ++ r.1)))

/-- `import_action`, `server_snapshot_importer.hpp` 43-49, 254-268.  Without action types there
is no function to call, with a single one the index is ignored, and `visit_tuple` with an index
outside of the tuple is undefined (`tuple_util.hpp` 166-170). -/
def importAction {n : Nat} {tys : Fin n → Ty} (junk : List UInt8) (s : Lists tys) (e : Entry) :
    Option (Lists tys) :=
  if n = 0 then some s
  else if h1 : n = 1 then importSingle junk ⟨0, by omega⟩ e.data s
  else if h : e.index < n then importSingle junk ⟨e.index, h⟩ e.data s
  else none

/-- The entries of a history imported one after the other. -/
def importAll {n : Nat} {tys : Fin n → Ty} (junk : List UInt8) (h : List Entry) (s : Lists tys) :
    Option (Lists tys) :=
  h.foldlM (importAction junk) s

/-! ## Specification -/

/-- The actions in a list that may be missing. -/
def acts {α : Type} (l : Option (List α)) : List α := l.getD []

/-- Number of bytes of the first 255 actions of a list, and one for their number. -/
def byteSize (t : Ty) (l : List (Val t)) : Nat :=
  1 + ((l.take 255).map fun x => ((write t x).map fun cs => (bytes cs).length).getD 0).sum

/-- What arrives of a list of pending actions: the first 255, unless they need more than 65535
bytes. -/
def delivered (t : Ty) (l : List (Val t)) : List (Val t) :=
  if byteSize t l ≤ 65535 then l.take 255 else []

/-- The list is small enough to be sent. -/
def Small (t : Ty) (l : List (Val t)) : Prop := l.length ≤ 255 ∧ byteSize t l ≤ 65535

/-- All actions are objects of their types. -/
def WellTyped {n : Nat} {tys : Fin n → Ty} (us : List (Update tys)) : Prop :=
  ∀ u ∈ us, u.time.length = 8 ∧ ∀ i, ∀ x ∈ acts (u.lists i), Ok (tys i) x

/-- **C98.** The full statement: whatever actions are pending at the updates of the client, the
client's lists are left as they are and every action of every list is in the server's list of
that type after its history has been sent, received and imported, in the same order. -/
def ActionsArriveFull : Prop :=
  ∀ (n : Nat) (tys : Fin n → Ty) (junk : List UInt8) (owner : Option Nat) (me : Nat)
    (us : List (Update tys)) (s : Lists tys) (c0 : Client tys), c0.hist = [] →
    (owner = none ∨ owner = some me) → n ≤ 256 → WellTyped us →
    ∃ c, run owner me us c0 = some c ∧ (∀ u, us.getLast? = some u → c.lists = u.lists) ∧
      ∃ cs h a s', writeHist c.hist = some cs ∧
        readHist junk [] ⟨memOut [] cs, 0, false⟩ = some (h, a) ∧ a.failed = false ∧
        importAll junk h s = some s' ∧
        ∀ i, acts (s' i) = acts (s i) ++ us.flatMap fun u => acts (u.lists i)

/-! ## Lists of actions -/

theorem dec_enc1 {x : Nat} (h : x ≤ 255) : dec (enc 1 x) = x := dec_enc 1 x (by omega)

theorem writeList_defined (t : Ty) (l : List (Val t)) : ∃ cs, writeList t l = some cs := by
  obtain ⟨c, hc⟩ := catM_some (write_defined t) (l.take (min l.length 255))
  exact ⟨[enc 1 (min l.length 255)] ++ c, by simp [writeList, hc]⟩

theorem catM_bytes {α : Type} (w : α → Option (List (List UInt8))) (l : List α)
    (cs : List (List UInt8)) (h : catM w l = some cs) :
    (bytes cs).length = (l.map fun x => ((w x).map fun cs => (bytes cs).length).getD 0).sum := by
  induction l generalizing cs with
  | nil => simp only [catM, Option.some.injEq] at h; subst h; rfl
  | cons x xs ih =>
    rcases e : w x with _ | a
    · simp [catM, e] at h
    · rcases e2 : catM w xs with _ | b
      · simp [catM, e, e2] at h
      · simp only [catM, e, e2, Option.bind_eq_bind, Option.bind_some, Option.some.injEq] at h
        subst h
        have := ih b e2
        simp only [bytes] at this ⊢
        simp [e, this]

theorem take_min {α : Type} (l : List α) (n : Nat) : l.take (min l.length n) = l.take n := by
  rcases Nat.le_total l.length n with h | h
  · rw [Nat.min_eq_left h, List.take_length, List.take_of_length_le h]
  · rw [Nat.min_eq_right h]

theorem writeList_size (t : Ty) (l : List (Val t)) (cs : List (List UInt8))
    (h : writeList t l = some cs) : (bytes cs).length = byteSize t l := by
  obtain ⟨c, hc⟩ := catM_some (write_defined t) (l.take (min l.length 255))
  simp only [writeList, hc, Option.bind_eq_bind, Option.bind_some, Option.some.injEq] at h
  subst h
  have := catM_bytes _ _ _ hc
  rw [take_min] at this
  simp only [bytes] at this ⊢
  rw [List.flatten_append, List.length_append, this]
  simp only [List.flatten_cons, List.flatten_nil, List.append_nil, enc_length]
  rfl

theorem readList_at (junk : List UInt8) (t : Ty) (l : List (Val t)) (hl : ∀ x ∈ l, Ok t x)
    (cs : List (List UInt8)) (hc : writeList t l = some cs) (a : Ar) (ha : At a cs.flatten) :
    readList junk t [] a = some (l.take 255, adv a cs.flatten.length) := by
  obtain ⟨c, hc'⟩ := catM_some (write_defined t) (l.take (min l.length 255))
  simp only [writeList, hc', Option.bind_eq_bind, Option.bind_some, Option.some.injEq] at hc
  subst hc
  rw [List.flatten_append] at ha ⊢
  simp only [List.flatten_cons, List.flatten_nil, List.append_nil] at ha ⊢
  have e1 := readBytes_at (enc 1 (min ([] : List (Val t)).length 255)) ha.left (enc_length 1 _)
  have hd : dec (enc 1 (min l.length 255)) = min l.length 255 := dec_enc1 (Nat.min_le_right _ _)
  have e2 := readEach_at (write t) (read junk t) (Clean t) (l.take (min l.length 255))
    (fun x hx cs hc t0 h0 a ha =>
      read_at junk t x (hl x (List.mem_of_mem_take hx)) cs hc t0 h0 a ha)
    (resize (dflt t) (min l.length 255) []) (clean_resize t _ [] (by intro x hx; cases hx))
    (by rw [resize_length]; simp) c hc' _ ha.right
  simp only [readList, e1, Option.bind_eq_bind, Option.bind_some, hd, e2, adv_adv,
    List.length_append, take_min]

theorem good_readList (junk : List UInt8) (t : Ty) (l : List (Val t)) :
    Good (readList junk t l) :=
  Good.bind (k := fun r a => readEach (read junk t) (resize (dflt t) (dec r) l) a)
    (Good.readBytes 1 _) (fun _ => Good.readEach (fun x => Good.read junk t x) _)

/-- Reading a list of which the end is missing fails. -/
theorem readList_truncated (junk : List UInt8) (t : Ty) (l : List (Val t))
    (hl : ∀ x ∈ l, Ok t x) (cs : List (List UInt8)) (hc : writeList t l = some cs) (c : Nat)
    (hlt : c < (bytes cs).length) :
    ∃ w a', readList junk t [] ⟨(bytes cs).take c, 0, false⟩ = some (w, a') ∧
      a'.failed = true := by
  have h1 := readList_at junk t l hl cs hc ⟨bytes cs, 0, false⟩
    ⟨rfl, by simp, [], by simp [bytes]⟩
  have h2 := (good_readList junk t []).trunc ⟨bytes cs, 0, false⟩ c _ _ rfl (Nat.zero_le _)
    (Nat.le_of_lt hlt) h1 rfl
  rw [if_neg (by simp only [adv]; rw [← bytes]; omega)] at h2
  exact h2

/-! ## Histories -/

theorem write_vec_take (t : Ty) (v : List (Val t)) :
    write (.vec t) v = write (.vec t) (show Val (.vec t) from v.take 65535) := by
  simp only [write, maxSize]
  rw [take_min, take_min, List.take_take, Nat.min_self, List.length_take]
  rw [show min (min 65535 v.length) 65535 = min v.length 65535 by omega]

theorem ofVec_toVec (d : List UInt8) : ofVec (toVec d) = d := by
  unfold ofVec toVec
  induction d with
  | nil => rfl
  | cons x xs ih =>
    show [x] ++ _ = _
    rw [show (List.map (fun b => [b]) xs).flatten = xs from ih]
    rfl

theorem writeEntry_defined (e : Entry) : ∃ cs, writeEntry e = some cs := by
  obtain ⟨c, hc⟩ := write_defined (.vec (.scalar 1)) (toVec e.data)
  exact ⟨[e.time] ++ [enc 1 e.index] ++ c, by simp [writeEntry, hc]⟩

/-- What is left of an entry once it has been written and read. -/
def cut (e : Entry) : Entry := { e with data := e.data.take 65535 }

theorem readEntry_at (junk : List UInt8) (e : Entry) (he : e.time.length = 8 ∧ e.index ≤ 255)
    (cs : List (List UInt8)) (hc : writeEntry e = some cs) (e0 : Entry) (a : Ar)
    (ha : At a cs.flatten) :
    readEntry junk e0 a = some (cut e, adv a cs.flatten.length) := by
  obtain ⟨c, hc'⟩ := write_defined (.vec (.scalar 1)) (toVec e.data)
  simp only [writeEntry, hc', Option.bind_eq_bind, Option.bind_some, Option.some.injEq] at hc
  subst hc
  rw [List.flatten_append, List.flatten_append] at ha ⊢
  simp only [List.flatten_cons, List.flatten_nil, List.append_nil] at ha ⊢
  have e1 := readBytes_at e0.time ha.left.left he.1
  have e2 := readBytes_at (enc 1 e0.index) ha.left.right (enc_length 1 _)
  have h3 : At (adv (adv a e.time.length) (enc 1 e.index).length) c.flatten := by
    have := ha.right
    rwa [List.length_append, ← adv_adv] at this
  have hw : write (.vec (.scalar 1)) (toVec (e.data.take 65535)) = some c := by
    rw [← hc']
    have := write_vec_take (.scalar 1) (toVec e.data)
    rw [this]
    refine congrArg (write (.vec (.scalar 1))) ?_
    exact List.map_take
  have e3 := read_at junk (.vec (.scalar 1)) (toVec (e.data.take 65535))
    ⟨by
      show (List.map (fun b => [b]) (e.data.take 65535)).length ≤ 65535
      rw [List.length_map, List.length_take]
      exact Nat.min_le_left _ _, by
      intro x hx
      have hx' : x ∈ (e.data.take 65535).map fun b => [b] := hx
      obtain ⟨b, -, rfl⟩ := List.mem_map.mp hx'
      rfl⟩ c hw (toVec e0.data) (by intro x _; trivial) _ h3
  simp only [readEntry, e1, e2, Option.bind_eq_bind, Option.bind_some, e3,
    List.length_append, dec_enc1 he.2, ofVec_toVec, cut]
  simp only [adv_adv]

/-- What a history looks like after it has been written and read back. -/
theorem history_round_trip (junk : List UInt8) (h : List Entry)
    (hh : ∀ e ∈ h, e.time.length = 8 ∧ e.index ≤ 255) (h0 : List Entry) :
    ∃ cs, writeHist h = some cs ∧ readHist junk h0 ⟨memOut [] cs, 0, false⟩ =
      some ((h.take 255).map fun e => { e with data := e.data.take 65535 },
        ⟨memOut [] cs, (memOut [] cs).length, false⟩) := by
  obtain ⟨c, hc⟩ := catM_some writeEntry_defined (h.take (min h.length 255))
  refine ⟨[enc 1 (min h.length 255)] ++ c, by simp [writeHist, hc], ?_⟩
  rw [memOut_eq, List.nil_append]
  have ha : At ⟨bytes ([enc 1 (min h.length 255)] ++ c), 0, false⟩
      (enc 1 (min h.length 255) ++ c.flatten) := ⟨rfl, by simp, [], by simp [bytes]⟩
  have e1 := readBytes_at (enc 1 (min h0.length 255)) ha.left (enc_length 1 _)
  have hd : dec (enc 1 (min h.length 255)) = min h.length 255 := dec_enc1 (Nat.min_le_right _ _)
  have key : ∀ (l : List Entry) (hl : ∀ e ∈ l, e.time.length = 8 ∧ e.index ≤ 255)
      (ts : List Entry) (_ : ts.length = l.length) (cs : List (List UInt8))
      (_ : catM writeEntry l = some cs) (a : Ar) (_ : At a cs.flatten),
      readEach (readEntry junk) ts a = some (l.map cut, adv a cs.flatten.length) := by
    intro l
    induction l with
    | nil =>
      intro _ ts ht cs hc a _
      have : ts = [] := by simpa using ht
      subst this
      simp only [catM, Option.some.injEq] at hc
      subst hc
      simp [readEach]
    | cons x xs ih =>
      intro hl ts ht cs hc a ha
      cases ts with
      | nil => simp at ht
      | cons t ts =>
        obtain ⟨b, hb⟩ := writeEntry_defined x
        obtain ⟨d, hd⟩ := catM_some writeEntry_defined xs
        simp only [catM, hb, hd, Option.bind_eq_bind, Option.bind_some, Option.some.injEq] at hc
        subst hc
        rw [List.flatten_append] at ha ⊢
        have e1 := readEntry_at junk x (hl x (by simp)) b hb t a ha.left
        have e2 := ih (fun y hy => hl y (by simp [hy])) ts (by simpa using ht) d hd _ ha.right
        simp only [readEach, e1, e2, Option.bind_eq_bind, Option.bind_some, adv_adv,
          List.length_append, List.map_cons]
  have e2 := key (h.take (min h.length 255)) (fun e he => hh e (List.mem_of_mem_take he))
    (resize ⟨List.replicate 8 0, 0, []⟩ (min h.length 255) h0) (by rw [resize_length]; simp)
    c hc _ ha.right
  simp only [readHist, e1, Option.bind_eq_bind, Option.bind_some, hd, e2, take_min]
  simp only [adv, bytes, List.flatten_append, List.flatten_cons, List.flatten_nil, List.append_nil,
    List.length_append, Nat.zero_add]
  rfl

/-! ## Recording and importing -/

section
variable {n : Nat} {tys : Fin n → Ty}

/-- The bytes of a list. -/
def listBytes (t : Ty) (l : List (Val t)) : List UInt8 := ((writeList t l).map bytes).getD []

/-- The entry of a list. -/
def entryOf (time : List UInt8) (r : (i : Fin n) × List (Val (tys i))) : Entry :=
  ⟨time, r.1.val % 256, listBytes (tys r.1) r.2⟩

/-- The lists that are not empty. -/
def pending (ls : Lists tys) (is : List (Fin n)) : List ((i : Fin n) × List (Val (tys i))) :=
  is.filterMap fun i => match ls i with
    | some (x :: xs) => some ⟨i, x :: xs⟩
    | _ => none

/-- The lists after an update. -/
def trimmed (ls : Lists tys) (is : List (Fin n)) : Lists tys := fun i =>
  if i ∈ is then (ls i).map (afterList (tys i)) else ls i

theorem appendActions_eq (owner : Option Nat) (me : Nat) (ho : owner = none ∨ owner = some me)
    (time : List UInt8) (c : Client tys) (i : Fin n) :
    appendActions owner me time c i = some
      { lists := trimmed c.lists [i]
        hist := c.hist ++ (pending c.lists [i]).map (entryOf time) } := by
  have hno : ¬ (owner.isSome ∧ owner ≠ some me) := by
    rcases ho with rfl | rfl <;> simp
  unfold appendActions
  rcases h : c.lists i with _ | l
  · have : trimmed c.lists [i] = c.lists := by
      funext j
      unfold trimmed
      split_ifs with hj
      · obtain rfl : j = i := by simpa using hj
        rw [h]; rfl
      · rfl
    simp [pending, h, this]
  · cases l with
    | nil =>
      have : trimmed c.lists [i] = c.lists := by
        funext j
        unfold trimmed
        split_ifs with hj
        · obtain rfl : j = i := by simpa using hj
          rw [h]; rfl
        · rfl
      simp [pending, h, this]
    | cons x xs =>
      obtain ⟨cs, hcs⟩ := writeList_defined (tys i) (x :: xs)
      have : trimmed c.lists [i] =
          Function.update c.lists i (some (afterList (tys i) (x :: xs))) := by
        funext j
        unfold trimmed
        split_ifs with hj
        · obtain rfl : j = i := by simpa using hj
          rw [h]; simp
        · rw [Function.update_of_ne (by simpa using hj)]
      simp only [if_neg hno, List.isEmpty_cons, Bool.false_eq_true, if_false, hcs,
        Option.bind_eq_bind, Option.bind_some, this, memOut_eq, List.nil_append]
      simp [pending, h, entryOf, listBytes, hcs]

theorem appendFold (owner : Option Nat) (me : Nat) (ho : owner = none ∨ owner = some me)
    (time : List UInt8) (is : List (Fin n)) (hn : is.Nodup) (c : Client tys) :
    is.foldlM (appendActions owner me time) c = some
      { lists := trimmed c.lists is
        hist := c.hist ++ (pending c.lists is).map (entryOf time) } := by
  induction is generalizing c with
  | nil =>
    have : trimmed c.lists [] = c.lists := by funext j; simp [trimmed]
    simp [pending, this]
  | cons i is ih =>
    have hni : i ∉ is := (List.nodup_cons.mp hn).1
    rw [List.foldlM_cons, appendActions_eq owner me ho]
    simp only [Option.bind_eq_bind, Option.bind_some]
    rw [ih (List.nodup_cons.mp hn).2]
    have hl : ∀ j ∈ is, trimmed c.lists [i] j = c.lists j := by
      intro j hj
      have : j ≠ i := fun e => hni (e ▸ hj)
      simp [trimmed, this]
    have h1 : trimmed (trimmed c.lists [i]) is = trimmed c.lists (i :: is) := by
      funext j
      unfold trimmed
      by_cases hj : j ∈ is
      · have : j ≠ i := fun e => hni (e ▸ hj)
        simp [hj, this]
      · by_cases hji : j = i
        · subst hji; simp [hj]
        · simp [hj, hji]
    have h2 : pending (trimmed c.lists [i]) is = pending c.lists is := by
      unfold pending
      exact List.filterMap_congr (fun j hj => by rw [hl j hj])
    have h3 : pending c.lists (i :: is) = pending c.lists [i] ++ pending c.lists is := by
      unfold pending
      rw [← List.filterMap_append]; rfl
    simp [h1, h2, h3, List.map_append]

theorem run_eq (owner : Option Nat) (me : Nat) (ho : owner = none ∨ owner = some me)
    (us : List (Update tys)) (c : Client tys) :
    ∃ c', run owner me us c = some c' ∧
      c'.hist = c.hist ++ us.flatMap (fun u =>
        (pending u.lists (List.finRange n)).map (entryOf u.time)) ∧
      ∀ u, us.getLast? = some u → c'.lists = trimmed u.lists (List.finRange n) := by
  induction us generalizing c with
  | nil => exact ⟨c, rfl, by simp, by simp⟩
  | cons u us ih =>
    have h1 := appendFold owner me ho u.time (List.finRange n) (List.nodup_finRange n)
      ({ c with lists := u.lists } : Client tys)
    obtain ⟨c', e1, e2, e3⟩ := ih
      { lists := trimmed u.lists (List.finRange n)
        hist := c.hist ++ (pending u.lists (List.finRange n)).map (entryOf u.time) }
    refine ⟨c', ?_, ?_, ?_⟩
    · unfold run at e1 ⊢
      rw [List.foldlM_cons]
      unfold appendCurrent at e1 ⊢
      rw [h1]
      exact e1
    · rw [e2]; simp
    · intro v hv
      cases us with
      | nil =>
        obtain rfl : u = v := by simpa using hv
        simp only [run, List.foldlM_nil] at e1
        obtain rfl := Option.some.inj e1
        rfl
      | cons w ws => exact e3 v (by simpa using hv)

/-- Add a list of actions. -/
def addTo (s : Lists tys) (r : (i : Fin n) × List (Val (tys i))) : Lists tys :=
  if byteSize (tys r.1) r.2 ≤ 65535 then
    Function.update s r.1 (some (acts (s r.1) ++ r.2.take 255))
  else s

theorem importSingle_eq (junk : List UInt8) (i : Fin n) (l : List (Val (tys i)))
    (hl : ∀ x ∈ l, Ok (tys i) x) (s : Lists tys) :
    importSingle junk i ((listBytes (tys i) l).take 65535) s = some (addTo s ⟨i, l⟩) := by
  obtain ⟨cs, hcs⟩ := writeList_defined (tys i) l
  have hs := writeList_size _ _ _ hcs
  have hb : listBytes (tys i) l = bytes cs := by simp [listBytes, hcs]
  unfold importSingle addTo
  rw [hb]
  by_cases h : byteSize (tys i) l ≤ 65535
  · rw [List.take_of_length_le (by omega)]
    have := readList_at junk (tys i) l hl cs hcs ⟨bytes cs, 0, false⟩
      ⟨rfl, by simp, [], by simp [bytes]⟩
    simp only [this, Option.bind_eq_bind, Option.bind_some, adv, Bool.false_eq_true, if_false]
    rw [if_pos h]
    rfl
  · obtain ⟨w, a', e, hf⟩ := readList_truncated junk (tys i) l hl cs hcs 65535 (by omega)
    simp only [e, Option.bind_eq_bind, Option.bind_some, hf, if_true]
    rw [if_neg h]

theorem importAction_eq (junk : List UInt8) (hn : n ≤ 256) (time : List UInt8)
    (r : (i : Fin n) × List (Val (tys i))) (hl : ∀ x ∈ r.2, Ok (tys r.1) x) (s : Lists tys) :
    importAction junk s (cut (entryOf time r)) = some (addTo s r) := by
  obtain ⟨i, l⟩ := r
  have hi : i.val % 256 = i.val := Nat.mod_eq_of_lt (by have := i.isLt; omega)
  have h0 : n ≠ 0 := by have := i.isLt; omega
  unfold importAction
  rw [if_neg h0]
  by_cases h1 : n = 1
  · rw [dif_pos h1]
    have : (⟨0, by omega⟩ : Fin n) = i := Fin.ext (by have := i.isLt; simp only; omega)
    rw [this]
    exact importSingle_eq junk _ l hl s
  · rw [dif_neg h1]
    simp only [cut, entryOf, hi]
    rw [dif_pos i.isLt]
    exact importSingle_eq junk i l hl s

/-- The actions of type `j` in a list of recorded lists. -/
def ofType (j : Fin n) (r : (i : Fin n) × List (Val (tys i))) : List (Val (tys j)) :=
  if h : r.1 = j then h ▸ delivered (tys r.1) r.2 else []

theorem addTo_acts (s : Lists tys) (r : (i : Fin n) × List (Val (tys i))) (j : Fin n) :
    acts (addTo s r j) = acts (s j) ++ ofType j r := by
  obtain ⟨i, l⟩ := r
  unfold addTo ofType delivered
  by_cases h : byteSize (tys i) l ≤ 65535
  · simp only [if_pos h]
    by_cases hj : i = j
    · subst hj
      simp [acts]
    · rw [Function.update_of_ne (fun e => hj e.symm), dif_neg hj]; simp
  · simp only [if_neg h]
    by_cases hj : i = j
    · subst hj; simp
    · simp [hj]

theorem foldl_addTo (rs : List ((i : Fin n) × List (Val (tys i)))) (s : Lists tys) (j : Fin n) :
    acts (rs.foldl addTo s j) = acts (s j) ++ rs.flatMap (ofType j) := by
  induction rs generalizing s with
  | nil => simp
  | cons r rs ih =>
    rw [List.foldl_cons, ih, addTo_acts, List.flatMap_cons, List.append_assoc]

theorem pending_ofType (ls : Lists tys) (is : List (Fin n)) (hn : is.Nodup) (j : Fin n) :
    (pending ls is).flatMap (ofType j) =
      if j ∈ is then delivered (tys j) (acts (ls j)) else [] := by
  induction is with
  | nil => rfl
  | cons i is ih =>
    have hni : i ∉ is := (List.nodup_cons.mp hn).1
    have h3 : pending ls (i :: is) = pending ls [i] ++ pending ls is := by
      unfold pending
      rw [← List.filterMap_append]; rfl
    have h1 : (pending ls [i]).flatMap (ofType j) =
        if j = i then delivered (tys j) (acts (ls j)) else [] := by
      by_cases hj : j = i
      · subst hj
        rw [if_pos rfl]
        rcases h : ls j with _ | l
        · simp [pending, h, acts, delivered]
        · cases l with
          | nil => simp [pending, h, acts, delivered]
          | cons x xs => simp [pending, h, acts, ofType]
      · rw [if_neg hj]
        rcases h : ls i with _ | l
        · simp [pending, h]
        · cases l with
          | nil => simp [pending, h]
          | cons x xs => simp [pending, h, ofType, Ne.symm hj]
    rw [h3, List.flatMap_append, h1, ih (List.nodup_cons.mp hn).2]
    by_cases hj : j = i
    · subst hj; simp [hni]
    · simp [hj]

theorem importAll_eq (junk : List UInt8) (hn : n ≤ 256)
    (rs : List (List UInt8 × ((i : Fin n) × List (Val (tys i)))))
    (hl : ∀ r ∈ rs, ∀ x ∈ r.2.2, Ok (tys r.2.1) x) (s : Lists tys) :
    importAll junk (rs.map fun r => cut (entryOf r.1 r.2)) s =
      some ((rs.map fun r => r.2).foldl addTo s) := by
  induction rs generalizing s with
  | nil => rfl
  | cons r rs ih =>
    unfold importAll at ih ⊢
    rw [List.map_cons, List.foldlM_cons, importAction_eq junk hn r.1 r.2 (hl r (by simp))]
    simp only [Option.bind_eq_bind, Option.bind_some, List.map_cons, List.foldl_cons]
    exact ih (fun q hq => hl q (by simp [hq])) _

end

/-! ## C98 -/

/-- What exactly arrives, as long as the history has at most 255 entries: of every list of
pending actions the first 255, or nothing at all if these need more than 65535 bytes. -/
theorem actions_exact {n : Nat} {tys : Fin n → Ty} (junk : List UInt8) (owner : Option Nat)
    (me : Nat) (us : List (Update tys)) (s : Lists tys) (c0 : Client tys) (h0 : c0.hist = [])
    (ho : owner = none ∨ owner = some me) (hn : n ≤ 256) (hw : WellTyped us) :
    ∃ c, run owner me us c0 = some c ∧
      (∀ u, us.getLast? = some u → ∀ i, acts (c.lists i) = (acts (u.lists i)).take 255) ∧
      (c.hist.length ≤ 255 → ∃ cs h a s', writeHist c.hist = some cs ∧
        readHist junk [] ⟨memOut [] cs, 0, false⟩ = some (h, a) ∧ a.failed = false ∧
        importAll junk h s = some s' ∧
        ∀ i, acts (s' i) =
          acts (s i) ++ us.flatMap fun u => delivered (tys i) (acts (u.lists i))) := by
  obtain ⟨c, e1, e2, e3⟩ := run_eq owner me ho us c0
  rw [h0, List.nil_append] at e2
  have hpend : ∀ u ∈ us, ∀ r ∈ pending u.lists (List.finRange n), ∀ x ∈ r.2, Ok (tys r.1) x := by
    intro u hu r hr x hx
    unfold pending at hr
    obtain ⟨i, -, hi⟩ := List.mem_filterMap.mp hr
    rcases h : u.lists i with _ | l
    · simp [h] at hi
    · cases l with
      | nil => simp [h] at hi
      | cons y ys =>
        simp only [h, Option.some.injEq] at hi
        subst hi
        exact (hw u hu).2 i x (by simpa [acts, h] using hx)
  refine ⟨c, e1, ?_, ?_⟩
  · intro u hu i
    rw [e3 u hu]
    have hmem : u ∈ us := List.mem_of_getLast? hu
    rcases h : u.lists i with _ | l
    · simp [trimmed, h, acts]
    · simp only [trimmed, List.mem_finRange, if_true, h, Option.map_some, acts, Option.getD_some,
        afterList, take_min]
      conv_rhs => rw [← List.map_id (l.take 255)]
      exact List.map_congr_left (fun x hx =>
        (source_unchanged_partial junk (tys i) x ((hw u hmem).2 i x
          (by simpa [acts, h] using List.mem_of_mem_take hx))).1)
  · intro hlen
    obtain ⟨cs, w1, w2⟩ := history_round_trip junk c.hist (by
      intro e he
      rw [e2] at he
      obtain ⟨u, hu, he⟩ := List.mem_flatMap.mp he
      obtain ⟨r, -, rfl⟩ := List.mem_map.mp he
      exact ⟨(hw u hu).1, by simp only [entryOf]; omega⟩) []
    rw [List.take_of_length_le hlen] at w2
    let rs : List (List UInt8 × ((i : Fin n) × List (Val (tys i)))) :=
      us.flatMap fun u => (pending u.lists (List.finRange n)).map fun r => (u.time, r)
    have hrs : (c.hist.map fun e => ({ e with data := e.data.take 65535 } : Entry)) =
        rs.map fun r => cut (entryOf r.1 r.2) := by
      rw [e2]
      simp only [rs, List.map_flatMap, List.map_map]
      rfl
    have himp := importAll_eq junk hn rs (by
      intro r hr x hx
      obtain ⟨u, hu, hr⟩ := List.mem_flatMap.mp hr
      obtain ⟨q, hq, rfl⟩ := List.mem_map.mp hr
      exact hpend u hu q hq x hx) s
    rw [← hrs] at himp
    refine ⟨cs, _, _, _, w1, w2, rfl, himp, ?_⟩
    intro i
    rw [foldl_addTo]
    congr 1
    simp only [rs, List.map_flatMap, List.map_map, List.flatMap_assoc]
    refine List.flatMap_congr (fun u _ => ?_)
    have := pending_ofType u.lists (List.finRange n) (List.nodup_finRange n) i
    simp only [List.mem_finRange, if_true] at this
    rw [← this]
    congr 1
    conv_rhs => rw [← List.map_id (pending u.lists (List.finRange n))]
    rfl

/-- **C98, partial: within the limits.** If every list of pending actions is small enough and the
history has at most 255 entries, every action arrives, in order, and the client's lists are left
as they are.  Missing: longer lists and histories, for which it is false
(`ActionsArriveFull_false`). -/
theorem actions_arrive_partial {n : Nat} {tys : Fin n → Ty} (junk : List UInt8)
    (owner : Option Nat) (me : Nat) (us : List (Update tys)) (s : Lists tys) (c0 : Client tys)
    (h0 : c0.hist = []) (ho : owner = none ∨ owner = some me) (hn : n ≤ 256) (hw : WellTyped us)
    (hs : ∀ u ∈ us, ∀ i, Small (tys i) (acts (u.lists i))) :
    ∃ c, run owner me us c0 = some c ∧
      (∀ u, us.getLast? = some u → ∀ i, acts (c.lists i) = acts (u.lists i)) ∧
      (c.hist.length ≤ 255 → ∃ cs h a s', writeHist c.hist = some cs ∧
        readHist junk [] ⟨memOut [] cs, 0, false⟩ = some (h, a) ∧ a.failed = false ∧
        importAll junk h s = some s' ∧
        ∀ i, acts (s' i) = acts (s i) ++ us.flatMap fun u => acts (u.lists i)) := by
  obtain ⟨c, e1, e2, e3⟩ := actions_exact junk owner me us s c0 h0 ho hn hw
  refine ⟨c, e1, ?_, ?_⟩
  · intro u hu i
    rw [e2 u hu i, List.take_of_length_le (hs u (List.mem_of_getLast? hu) i).1]
  · intro hl
    obtain ⟨cs, h, a, s', f1, f2, f3, f4, f5⟩ := e3 hl
    refine ⟨cs, h, a, s', f1, f2, f3, f4, fun i => ?_⟩
    rw [f5 i]
    congr 1
    refine List.flatMap_congr (fun u hu => ?_)
    obtain ⟨g1, g2⟩ := hs u hu i
    rw [delivered, if_pos g2, List.take_of_length_le g1]

/-- Nothing is recorded for an entity owned by another client. -/
theorem others_not_recorded {n : Nat} {tys : Fin n → Ty} (o me : Nat) (h : o ≠ me)
    (time : List UInt8) (c : Client tys) : appendCurrent (some o) me time c = some c := by
  have key : ∀ is : List (Fin n), is.foldlM (appendActions (some o) me time) c = some c := by
    intro is
    induction is with
    | nil => rfl
    | cons i is ih =>
      have : appendActions (some o) me time c i = some c := by
        unfold appendActions
        rcases c.lists i with _ | l
        · rfl
        · simp [h]
      rw [List.foldlM_cons, this]
      exact ih
  exact key _

/-- Whatever bytes a client sends as an action, with an index of a registered type they are
imported without undefined behaviour; all other types keep their actions, and the actions of that
type that were already there stay in front. -/
theorem import_defined {n : Nat} {tys : Fin n → Ty} (junk : List UInt8) (s : Lists tys)
    (e : Entry) (h : e.index < n) :
    ∃ s', importAction junk s e = some s' ∧
      (∀ j, j.val ≠ e.index → 1 < n → s' j = s j) ∧ ∀ j, acts (s j) <+: acts (s' j) := by
  have key : ∀ i : Fin n, ∃ s', importSingle junk i e.data s = some s' ∧
      (∀ j, j ≠ i → s' j = s j) ∧ ∀ j, acts (s j) <+: acts (s' j) := by
    intro i
    obtain ⟨y, a', e1, -⟩ := (good_readList junk (tys i) []).step ⟨e.data, 0, false⟩
    unfold importSingle
    simp only [e1, Option.bind_eq_bind, Option.bind_some]
    by_cases hf : a'.failed = true
    · rw [if_pos hf]
      exact ⟨s, rfl, fun _ _ => rfl, fun _ => List.prefix_refl _⟩
    · rw [if_neg hf]
      refine ⟨_, rfl, fun j hj => Function.update_of_ne hj _ _, fun j => ?_⟩
      by_cases hj : j = i
      · subst hj
        simp [acts]
      · rw [Function.update_of_ne hj]
        exact List.prefix_refl _
  unfold importAction
  rw [if_neg (by omega)]
  by_cases h1 : n = 1
  · rw [dif_pos h1]
    obtain ⟨s', f1, f2, f3⟩ := key ⟨0, by omega⟩
    exact ⟨s', f1, fun j _ h2 => by omega, f3⟩
  · rw [dif_neg h1, dif_pos h]
    obtain ⟨s', f1, f2, f3⟩ := key ⟨e.index, h⟩
    exact ⟨s', f1, fun j hj _ => f2 j (fun e => hj (by rw [e])), f3⟩

/-- An action whose bytes end too early is dropped as a whole. -/
theorem truncated_ignored {n : Nat} {tys : Fin n → Ty} (junk : List UInt8) (s : Lists tys)
    (i : Fin n) (l : List (Val (tys i))) (hl : ∀ x ∈ l, Ok (tys i) x) (cs : List (List UInt8))
    (hc : writeList (tys i) l = some cs) (k : Nat) (hk : k < (bytes cs).length)
    (time : List UInt8) :
    importAction junk s ⟨time, i.val, (bytes cs).take k⟩ = some s := by
  obtain ⟨w, a', e, hf⟩ := readList_truncated junk (tys i) l hl cs hc k hk
  have hs : importSingle junk i ((bytes cs).take k) s = some s := by
    unfold importSingle
    simp only [e, Option.bind_eq_bind, Option.bind_some, hf, if_true]
  unfold importAction
  have := i.isLt
  rw [if_neg (by omega)]
  by_cases h1 : n = 1
  · rw [dif_pos h1]
    have : (⟨0, by omega⟩ : Fin n) = i := Fin.ext (by simp only; omega)
    rw [this]; exact hs
  · rw [dif_neg h1, dif_pos i.isLt]; exact hs

/-- **Finding.** With two or more action types, an entry with any other index makes the server
call through a pointer read from beyond a table: the index of a received entry is never
checked. -/
theorem bad_index_undefined {n : Nat} {tys : Fin n → Ty} (junk : List UInt8) (s : Lists tys)
    (e : Entry) (hn : 2 ≤ n) (h : n ≤ e.index) : importAction junk s e = none := by
  unfold importAction
  rw [if_neg (by omega), dif_neg (by omega), dif_neg (by omega)]

/-! ### Findings and examples -/

/-- One type of actions, one byte each. -/
def byteTys : Fin 1 → Ty := fun _ => .scalar 1

/-- `k` actions pending at one update. -/
def many (k : Nat) : Update byteTys :=
  ⟨List.replicate 8 0, fun _ => some (List.replicate k [0] : List (List UInt8))⟩

theorem many_wellTyped (us : List (Update byteTys)) (h : ∀ u ∈ us, ∃ k, u = many k) :
    WellTyped us := by
  intro u hu
  obtain ⟨k, rfl⟩ := h u hu
  refine ⟨rfl, fun i x hx => ?_⟩
  have hx' : x ∈ (List.replicate k [0] : List (List UInt8)) := hx
  rw [List.eq_of_mem_replicate hx']
  rfl

/-- **C98 is false of the code**: of 256 actions pending at the same time the last one is removed
from the client's own list. -/
theorem ActionsArriveFull_false : ¬ ActionsArriveFull := by
  intro h
  obtain ⟨c, e1, e2, -⟩ := h 1 byteTys [] none 0 [many 256] (fun _ => none)
    ⟨fun _ => none, []⟩ rfl (Or.inl rfl) (by decide)
    (many_wellTyped _ (by intro u hu; exact ⟨256, by simpa using hu⟩))
  obtain ⟨c', e1', e2', -⟩ := actions_exact [] none 0 [many 256] (fun _ => none)
    ⟨fun _ => none, []⟩ rfl (Or.inl rfl) (by decide)
    (many_wellTyped _ (by intro u hu; exact ⟨256, by simpa using hu⟩))
  rw [e1] at e1'
  obtain rfl := Option.some.inj e1'
  have h1 := e2 (many 256) rfl
  have h2 := e2' (many 256) rfl 0
  rw [h1] at h2
  have h3 := congrArg List.length h2
  have h4 : (acts ((many 256).lists 0)).length = 256 := List.length_replicate
  rw [List.length_take, h4] at h3
  exact absurd h3 (by decide)

/-- **Finding.** A list that needs more than 65535 bytes is lost as a whole: none of its actions
reaches the server, although it may have only two. -/
theorem large_list_lost {n : Nat} {tys : Fin n → Ty} (junk : List UInt8) (s : Lists tys)
    (hn : n ≤ 256) (time : List UInt8) (ht : time.length = 8) (i : Fin n)
    (l : List (Val (tys i))) (hl : ∀ x ∈ l, Ok (tys i) x) (hb : 65535 < byteSize (tys i) l) :
    ∃ c cs h a s', appendActions none 0 time
        ⟨Function.update (fun _ => none) i (some l), []⟩ i = some c ∧
      writeHist c.hist = some cs ∧
      readHist junk [] ⟨memOut [] cs, 0, false⟩ = some (h, a) ∧ a.failed = false ∧
      h.length = 1 ∧ importAll junk h s = some s' ∧ s' = s := by
  let ls : Lists tys := Function.update (fun _ => none) i (some l)
  have hne : l ≠ [] := by rintro rfl; simp [byteSize] at hb
  obtain ⟨x, xs, rfl⟩ := List.exists_cons_of_ne_nil hne
  have hp : pending ls [i] = [⟨i, x :: xs⟩] := by simp [pending, ls]
  have e1 := appendActions_eq none 0 (Or.inl rfl) time ⟨ls, []⟩ i
  simp only [hp, List.map_cons, List.map_nil, List.nil_append] at e1
  obtain ⟨cs, w1, w2⟩ := history_round_trip junk [entryOf time ⟨i, x :: xs⟩] (by
    intro e he
    obtain rfl : e = _ := by simpa using he
    exact ⟨ht, by simp only [entryOf]; omega⟩) []
  refine ⟨_, cs, _, _, _, e1, w1, w2, rfl, by simp, ?_, rfl⟩
  have := importAll_eq junk hn [(time, ⟨i, x :: xs⟩)] (by
    intro r hr y hy
    obtain rfl : r = _ := by simpa using hr
    exact hl y hy) s
  have hadd : addTo s ⟨i, x :: xs⟩ = s := by
    unfold addTo
    rw [if_neg (Nat.not_le.mpr hb)]
  simp only [List.map_cons, List.map_nil, List.foldl_cons, List.foldl_nil, hadd] at this
  exact this

theorem byteSize_bytes (l : List (Val (.scalar 1))) (hl : ∀ x ∈ l, Ok (.scalar 1) x) :
    byteSize (.scalar 1) l = 1 + min 255 l.length := by
  have h : ∀ m : List (Val (.scalar 1)), (∀ x ∈ m, Ok (.scalar 1) x) →
      (m.map fun x => ((write (.scalar 1) x).map fun cs => (bytes cs).length).getD 0).sum =
        m.length := by
    intro m
    induction m with
    | nil => intro _; rfl
    | cons x xs ih =>
      intro hm
      have hx : ((write (.scalar 1) x).map fun cs => (bytes cs).length).getD 0 = 1 := by
        have : List.length x = 1 := hm x (by simp)
        show (List.append x []).length = 1
        exact (congrArg List.length (List.append_nil (show List UInt8 from x))).trans this
      rw [List.map_cons, List.sum_cons, ih (fun y hy => hm y (by simp [hy])), hx,
        List.length_cons, Nat.add_comm]
  unfold byteSize
  have := h (l.take 255) (fun x hx => hl x (List.mem_of_mem_take hx))
  rw [this, List.length_take]

/-- Non-vacuity: three updates of the client with two, none and three pending actions; all five
arrive. -/
example : ∃ c, run none 0 [many 2, many 0, many 3] ⟨fun _ => none, []⟩ = some c ∧
    c.hist.length = 2 ∧ ∃ cs h a s', writeHist c.hist = some cs ∧
      readHist [] [] ⟨memOut [] cs, 0, false⟩ = some (h, a) ∧
      importAll [] h (fun _ => none : Lists byteTys) = some s' ∧ (acts (s' 0)).length = 5 := by
  have hm : ∀ u ∈ [many 2, many 0, many 3], ∃ k ≤ 3, u = many k := by
    intro u hu
    simp only [List.mem_cons, List.not_mem_nil, or_false] at hu
    rcases hu with rfl | rfl | rfl
    exacts [⟨2, by decide, rfl⟩, ⟨0, by decide, rfl⟩, ⟨3, by decide, rfl⟩]
  obtain ⟨c, e1, -, e3⟩ := actions_arrive_partial [] none 0 [many 2, many 0, many 3]
    (fun _ => none) ⟨fun _ => none, []⟩ rfl (Or.inl rfl) (by decide)
    (many_wellTyped _ (fun u hu => by obtain ⟨k, -, h⟩ := hm u hu; exact ⟨k, h⟩)) (by
      intro u hu i
      obtain ⟨k, hk, rfl⟩ := hm u hu
      have hl : (acts ((many k).lists i)).length = k := List.length_replicate
      have hb := byteSize_bytes (acts ((many k).lists i))
        (fun x hx => (many_wellTyped [many k] (by simp)) (many k) (by simp) |>.2 i x hx)
      exact ⟨by omega, by
        show byteSize (.scalar 1) (acts ((many k).lists i)) ≤ 65535
        omega⟩)
  obtain ⟨c', f1, f2, -⟩ := run_eq none 0 (Or.inl rfl) [many 2, many 0, many 3]
    (⟨fun _ => none, []⟩ : Client byteTys)
  rw [e1] at f1
  obtain rfl := Option.some.inj f1
  have hl : c.hist.length = 2 := by
    rw [f2]; rfl
  obtain ⟨cs, h, a, s', g1, g2, -, g4, g5⟩ := e3 (by omega)
  refine ⟨c, e1, hl, cs, h, a, s', g1, g2, g4, ?_⟩
  rw [g5 0]
  rfl

/-- Non-vacuity of `large_list_lost`: two actions of 40000 bytes each. -/
example : ∃ l : List (Val (.vec (.scalar 1))), l.length = 2 ∧
    (∀ x ∈ l, Ok (.vec (.scalar 1)) x) ∧ 65535 < byteSize (.vec (.scalar 1)) l := by
  let v : Val (.vec (.scalar 1)) := toVec (List.replicate 40000 0)
  have hv : Ok (.vec (.scalar 1)) v := by
    refine ⟨?_, ?_⟩
    · show (List.map (fun b : UInt8 => [b]) (List.replicate 40000 0)).length ≤ 65535
      rw [List.length_map, List.length_replicate]; omega
    · intro x hx
      have hx' : x ∈ List.map (fun b : UInt8 => [b]) (List.replicate 40000 0) := hx
      obtain ⟨b, -, rfl⟩ := List.mem_map.mp hx'
      rfl
  refine ⟨[v, v], rfl, ?_, ?_⟩
  · intro x hx
    simp only [List.mem_cons, List.not_mem_nil, or_false, or_self] at hx
    exact hx ▸ hv
  obtain ⟨cs, hc⟩ := write_defined (.vec (.scalar 1)) v
  have hs : (bytes cs).length ≥ 40000 := by
    have hl : List.length (show List (List UInt8) from v) = 40000 := by
      show (List.map (fun b : UInt8 => [b]) (List.replicate 40000 0)).length = 40000
      rw [List.length_map, List.length_replicate]
    have h1 := serialization_sizeof_exact (.vec (.scalar 1)) v hv cs hc
      (2 + List.length (show List (List UInt8) from v) * 1) rfl
    omega
  have : byteSize (.vec (.scalar 1)) [v, v] = 1 + ((bytes cs).length + ((bytes cs).length + 0)) := by
    simp [byteSize, hc]
  omega

end Edyn.Net.ActionData
