/-
Theorems about serialization (properties C13, C14, C15).

C13  `round_trip`, `round_trip_archive`, `fixed_output_exact`: reading back what was written gives
     the same value and consumes exactly the written bytes.
C14  `reads_in_bounds`, `failure_sticky`, `truncation_detected`; a failed read leaves the target
     unchanged only for plain types (`failed_read_keeps_target_partial`); it does not for
     entities, optionals, variants and maps (`failed_read_alters_*`).
C15  false of the code (`long_vector_altered`, `long_map_desynchronises`); within the limit the
     source is unchanged (`source_unchanged_partial`).
Also `serialization_sizeof_exact`.
-/
import Verif.Serial.Lemmas

namespace Edyn.Serial

/-! ### Specification -/

/-- No `std::map` occurs in the type. -/
def MapFree : Ty → Prop
  | .struct _ f => ∀ i, MapFree (f i)
  | .vec t => MapFree t
  | .opt t => MapFree t
  | .variant _ f => ∀ i, MapFree (f i)
  | .map _ _ => False
  | _ => True

/-- `v` is an object of type `t` whose containers respect the documented limits: at most 65535
elements and 256 alternatives. Fundamental objects have the size of their type, maps are sorted
by key without repetition, and the values of a map contain no further maps. -/
def Ok : (t : Ty) → Val t → Prop
  | .scalar n, v => List.length v = n
  | .bool, _ => True
  | .enum n, v => List.length v = n
  | .struct _ f, v => ∀ i, Ok (f i) (v i)
  | .vec t, v => List.length v ≤ 65535 ∧ ∀ x, List.Mem x v → Ok t x
  | .vecBool, v => List.length v ≤ 65535
  | .opt t, v => ∀ x, v = some x → Ok t x
  | .variant n f, v => n < 256 ∧ Ok (f v.1) v.2
  | .map k t, v => List.length v ≤ 65535 ∧ MapFree t ∧
      (∀ p : List UInt8 × Val t, List.Mem p v → List.length p.1 = k ∧ Ok t p.2) ∧
      List.Pairwise (fun p q : List UInt8 × Val t => dec p.1 < dec q.1) v

/-- Every `std::map` reachable in the read target is empty (reading a map adds to it). -/
def Clean : (t : Ty) → Val t → Prop
  | .struct _ f, v => ∀ i, Clean (f i) (v i)
  | .vec t, v => ∀ x, List.Mem x v → Clean t x
  | .map _ _, v => v = ([] : List _)
  | .scalar _, _ | .bool, _ | .enum _, _ | .vecBool, _ | .opt _, _ | .variant _ _, _ => True

/-- The bytes appended to a `memory_output_archive`'s buffer. -/
def bytes (cs : List (List UInt8)) : List UInt8 := cs.flatten

/-! ### Writing is defined -/

theorem catM_some {α : Type} {w : α → Option (List (List UInt8))} (h : ∀ x, ∃ c, w x = some c)
    (l : List α) : ∃ c, catM w l = some c := by
  induction l with
  | nil => exact ⟨[], rfl⟩
  | cons x xs ih =>
    obtain ⟨a, ha⟩ := h x
    obtain ⟨b, hb⟩ := ih
    exact ⟨a ++ b, by simp [catM, ha, hb]⟩

theorem packSet_some (v : List Bool) (start j : Nat) (h : j = 0 ∨ start + j ≤ v.length) :
    ∃ s, packSet v start j = some s ∧ s < 2 ^ j ∧
      ∀ i, i < j → v[start + i]? = some (s.testBit i) := by
  induction j with
  | zero => exact ⟨0, rfl, by simp, fun i hi => absurd hi (by omega)⟩
  | succ j ih =>
    obtain ⟨s, hs, hlt, hb⟩ := ih (by omega)
    have hj : start + j < v.length := by omega
    refine ⟨s ||| (v[start + j].toNat <<< j), ?_, ?_, ?_⟩
    · simp [packSet, hs, List.getElem?_eq_getElem hj]
    · apply Nat.or_lt_two_pow
      · exact Nat.lt_trans hlt (Nat.pow_lt_pow_right (by omega) (by omega))
      · rw [Nat.shiftLeft_eq]
        cases v[start + j] <;> simp [Nat.pow_succ, Nat.two_pow_pos]
    · intro i hi
      rw [Nat.testBit_or, Nat.testBit_shiftLeft]
      by_cases e : i = j
      · subst e
        rw [Nat.testBit_lt_two_pow hlt, List.getElem?_eq_getElem hj]
        cases v[start + i] <;> simp
      · rw [hb i (by omega)]
        have : ¬ (j ≤ i) := by omega
        simp [this]

theorem packSets_some (v : List Bool) (m i : Nat) :
    ∃ cs, packSets v v.length m i = some cs := by
  induction m generalizing i with
  | zero => exact ⟨[], rfl⟩
  | succ m ih =>
    obtain ⟨cs, hc⟩ := ih (i + 1)
    obtain ⟨s, hs, -⟩ := packSet_some v (i * 32) (min (v.length - i * 32) 32) (by omega)
    exact ⟨[enc 4 s] ++ cs, by simp [packSets, hs, hc]⟩

/-- Writing never touches an element outside a container. -/
theorem write_defined (t : Ty) (v : Val t) : ∃ cs, write t v = some cs := by
  induction t with
  | scalar n => exact ⟨[v], rfl⟩
  | bool => exact ⟨[boolByte v], rfl⟩
  | enum n => exact ⟨[v], rfl⟩
  | struct n f ih => exact catM_some (fun i => ih i (v i)) _
  | vec t ih =>
    obtain ⟨c, hc⟩ := catM_some ih (List.take (min (List.length v) maxSize) v)
    exact ⟨[enc 2 (min (List.length v) maxSize)] ++ c, by simp [write, hc]⟩
  | vecBool =>
    have hl : (List.take (min (List.length v) maxSize) v).length = min (List.length v) maxSize :=
      (List.length_take).trans (Nat.min_eq_left (Nat.min_le_left _ _))
    obtain ⟨c, hc⟩ := packSets_some (List.take (min (List.length v) maxSize) v)
      (numSets (min (List.length v) maxSize)) 0
    rw [hl] at hc
    refine ⟨[enc 2 (min (List.length v) maxSize)] ++ c, ?_⟩
    simp [write, hc]
  | opt t ih =>
    cases v with
    | none => exact ⟨_, rfl⟩
    | some x =>
      obtain ⟨c, hc⟩ := ih x
      exact ⟨[boolByte true] ++ c, by simp [write, hc]⟩
  | variant n f ih =>
    obtain ⟨c, hc⟩ := ih v.1 v.2
    exact ⟨[enc 1 v.1.val] ++ c, by simp [write, hc]⟩
  | map k t ih =>
    obtain ⟨c, hc⟩ := catM_some (w := fun p : List UInt8 × Val t => do
      let c ← write t p.2
      some ([p.1] ++ c)) (fun p => by
        obtain ⟨c, hc⟩ := ih p.2
        exact ⟨[p.1] ++ c, by simp [hc]⟩) v
    refine ⟨[enc 2 (min (List.length v) maxSize)] ++ c, ?_⟩
    simp only [write]
    rw [hc]; rfl

/-! ### Round trip -/

theorem readEach_at {α : Type} (w : α → Option (List (List UInt8)))
    (rd : α → Ar → Option (α × Ar)) (C : α → Prop) (l : List α)
    (h : ∀ x ∈ l, ∀ cs, w x = some cs → ∀ t0, C t0 → ∀ a, At a cs.flatten →
      rd t0 a = some (x, adv a cs.flatten.length))
    (ts : List α) (ht : ∀ t ∈ ts, C t) (hl : ts.length = l.length)
    (cs : List (List UInt8)) (hc : catM w l = some cs) (a : Ar) (ha : At a cs.flatten) :
    readEach rd ts a = some (l, adv a cs.flatten.length) := by
  induction l generalizing ts cs a with
  | nil =>
    have : ts = [] := by simpa using hl
    subst this
    simp only [catM, Option.some.injEq] at hc
    subst hc
    simp [readEach]
  | cons x xs ih =>
    cases ts with
    | nil => simp at hl
    | cons t ts =>
      obtain ⟨c, hwc⟩ : ∃ c, w x = some c := by
        rcases e : w x with _ | c
        · simp [catM, e] at hc
        · exact ⟨c, rfl⟩
      obtain ⟨d, hwd⟩ : ∃ d, catM w xs = some d := by
        rcases e : catM w xs with _ | d
        · simp [catM, e, hwc] at hc
        · exact ⟨d, rfl⟩
      simp only [catM, hwc, hwd, Option.bind_eq_bind, Option.bind_some, Option.some.injEq] at hc
      subst hc
      rw [List.flatten_append] at ha ⊢
      have e1 := h x (by simp) c hwc t (ht t (by simp)) a ha.left
      have e2 := ih (fun y hy => h y (by simp [hy])) ts (fun y hy => ht y (by simp [hy]))
        (by simpa using hl) d hwd _ ha.right
      simp only [readEach, e1, e2, Option.bind_eq_bind, Option.bind_some, adv_adv,
        List.length_append]

theorem readFields_at {n : Nat} {β : Fin n → Type} (w : (i : Fin n) → Option (List (List UInt8)))
    (rd : (i : Fin n) → β i → Ar → Option (β i × Ar)) (C : (i : Fin n) → β i → Prop)
    (v : (i : Fin n) → β i)
    (h : ∀ i, ∀ cs, w i = some cs → ∀ t0, C i t0 → ∀ a, At a cs.flatten →
      rd i t0 a = some (v i, adv a cs.flatten.length))
    (is : List (Fin n)) (hn : is.Nodup) (t : (i : Fin n) → β i) (ht : ∀ i ∈ is, C i (t i))
    (cs : List (List UInt8)) (hc : catM w is = some cs) (a : Ar) (ha : At a cs.flatten) :
    readFields rd is t a = some ((fun i => if i ∈ is then v i else t i),
      adv a cs.flatten.length) := by
  induction is generalizing t cs a with
  | nil =>
    simp only [catM, Option.some.injEq] at hc
    subst hc
    simp [readFields]
  | cons i is ih =>
    obtain ⟨c, hwc⟩ : ∃ c, w i = some c := by
      rcases e : w i with _ | c
      · simp [catM, e] at hc
      · exact ⟨c, rfl⟩
    obtain ⟨d, hwd⟩ : ∃ d, catM w is = some d := by
      rcases e : catM w is with _ | d
      · simp [catM, e, hwc] at hc
      · exact ⟨d, rfl⟩
    simp only [catM, hwc, hwd, Option.bind_eq_bind, Option.bind_some, Option.some.injEq] at hc
    subst hc
    rw [List.flatten_append] at ha ⊢
    have hni : i ∉ is := (List.nodup_cons.mp hn).1
    have e1 := h i c hwc (t i) (ht i (by simp)) a ha.left
    have e2 := ih (List.nodup_cons.mp hn).2 (Function.update t i (v i)) (fun j hj => by
      have : j ≠ i := fun e => hni (e ▸ hj)
      rw [Function.update_of_ne this]
      exact ht j (by simp [hj])) d hwd _ ha.right
    simp only [readFields, e1, Option.bind_eq_bind, Option.bind_some, e2, adv_adv,
      List.length_append, Option.some.injEq, Prod.mk.injEq, and_true]
    funext j
    by_cases hj : j ∈ is
    · simp [hj]
    · by_cases hji : j = i
      · subst hji; simp [hj]
      · simp [hj, hji]

theorem unpackSets_at (junk : List UInt8) (v : List Bool) (m i : Nat) (w : List Bool)
    (hw : w.length = v.length) (cs : List (List UInt8))
    (hc : packSets v v.length m i = some cs) (a : Ar) (ha : At a cs.flatten) :
    ∃ out, unpackSets junk v.length m i w a = some (out, adv a cs.flatten.length) ∧
      out.length = v.length ∧
      ∀ k, out[k]? = if i * 32 ≤ k ∧ k < (i + m) * 32 then v[k]? else w[k]? := by
  induction m generalizing i w cs a with
  | zero =>
    simp only [packSets, Option.some.injEq] at hc
    subst hc
    exact ⟨w, by simp [unpackSets], hw, fun k => by rw [if_neg (by omega)]⟩
  | succ m ih =>
    obtain ⟨s, hs, hlt, hb⟩ :=
      packSet_some v (i * 32) (min (v.length - i * 32) 32) (by omega)
    obtain ⟨d, hd⟩ := packSets_some v m (i + 1)
    simp only [packSets, hs, hd, Option.bind_eq_bind, Option.bind_some, Option.some.injEq] at hc
    subst hc
    rw [List.flatten_append] at ha ⊢
    simp only [List.flatten_cons, List.flatten_nil, List.append_nil] at ha ⊢
    have e1 := readBytes_at junk ha.left (enc_length 4 s)
    have hs32 : s < 256 ^ 4 := by
      refine Nat.lt_of_lt_of_le hlt ?_
      exact Nat.le_trans (Nat.pow_le_pow_right (by omega) (Nat.min_le_right _ _)) (by decide)
    obtain ⟨w', hw', hl', hg'⟩ := unpackSet_some s (i * 32) w (min (v.length - i * 32) 32)
      (by omega)
    obtain ⟨out, ho, hlo, hgo⟩ := ih (i + 1) w' (by omega) d hd _ ha.right
    refine ⟨out, ?_, hlo, ?_⟩
    · simp only [unpackSets, e1, dec_enc 4 s hs32, hw', ho, Option.bind_eq_bind,
        Option.bind_some, adv_adv, List.length_append]
    · intro k
      rw [hgo k]
      by_cases h1 : (i + 1) * 32 ≤ k ∧ k < (i + 1 + m) * 32
      · rw [if_pos h1, if_pos (by omega)]
      · rw [if_neg h1, hg' k]
        by_cases h2 : i * 32 ≤ k ∧ k < i * 32 + min (v.length - i * 32) 32
        · rw [if_pos h2, if_pos (by omega), ← hb (k - i * 32) (by omega)]
          congr 1; omega
        · rw [if_neg h2]
          by_cases h3 : i * 32 ≤ k ∧ k < (i + (m + 1)) * 32
          · rw [if_pos h3, List.getElem?_eq_none (by omega), List.getElem?_eq_none (by omega)]
          · rw [if_neg h3]

theorem emplace_last {α : Type} (k : List UInt8) (x : α) (m : List (List UInt8 × α))
    (h : ∀ p ∈ m, dec p.1 < dec k) : emplace k x m = m ++ [(k, x)] := by
  induction m with
  | nil => rfl
  | cons p ps ih =>
    have h1 := h p (by simp)
    simp [emplace, Nat.not_lt.mpr (Nat.le_of_lt h1), h1, ih (fun q hq => h q (by simp [hq]))]

theorem readMap_at {α : Type} (kn : Nat) (w : α → Option (List (List UInt8)))
    (rd : α → Ar → Option (α × Ar)) (l : List (List UInt8 × α))
    (h : ∀ p ∈ l, ∀ cs, w p.2 = some cs → ∀ t0, ∀ a, At a cs.flatten →
      rd t0 a = some (p.2, adv a cs.flatten.length))
    (hk : ∀ p ∈ l, p.1.length = kn)
    (hs : l.Pairwise fun p q => dec p.1 < dec q.1)
    (k : List UInt8) (x : α) (m : List (List UInt8 × α))
    (hm : ∀ p ∈ m, ∀ q ∈ l, dec p.1 < dec q.1)
    (cs : List (List UInt8)) (hc : catM (fun p : List UInt8 × α => do
      let c ← w p.2
      some ([p.1] ++ c)) l = some cs) (a : Ar) (ha : At a cs.flatten) :
    readMap kn rd l.length k x m a = some (m ++ l, adv a cs.flatten.length) := by
  induction l generalizing k x m cs a with
  | nil =>
    simp only [catM, Option.some.injEq] at hc
    subst hc
    simp [readMap]
  | cons p ps ih =>
    obtain ⟨c, hwc⟩ : ∃ c, w p.2 = some c := by
      rcases e : w p.2 with _ | c
      · simp [catM, e] at hc
      · exact ⟨c, rfl⟩
    obtain ⟨d, hwd⟩ : ∃ d, catM (fun p : List UInt8 × α => do
        let c ← w p.2
        some ([p.1] ++ c)) ps = some d := by
      rcases e : catM (fun p : List UInt8 × α => do
        let c ← w p.2
        some ([p.1] ++ c)) ps with _ | d
      · simp only [catM, hwc, e] at hc
        simp at hc
      · exact ⟨d, rfl⟩
    simp only [catM, hwc, hwd] at hc
    simp only [Option.bind_eq_bind, Option.bind_some, Option.some.injEq] at hc
    subst hc
    rw [List.flatten_append, List.flatten_append] at ha ⊢
    simp only [List.flatten_cons, List.flatten_nil, List.append_nil] at ha ⊢
    have e1 := readBytes_at k ha.left.left (hk p (by simp))
    have e2 := h p (by simp) c hwc x _ ha.left.right
    have hpw := List.pairwise_cons.mp hs
    have e3 := emplace_last p.1 p.2 m (fun q hq => hm q hq p (by simp))
    have ha2 := ha.right
    rw [List.length_append] at ha2
    have e4 := ih (fun q hq => h q (by simp [hq])) (fun q hq => hk q (by simp [hq])) hpw.2
      p.1 p.2 (m ++ [(p.1, p.2)]) (fun q hq r hr => by
        rcases List.mem_append.mp hq with hq | hq
        · exact hm q hq r (by simp [hr])
        · simp only [List.mem_singleton] at hq; subst hq; exact hpw.1 r hr) d hwd _ ha2
    simp only [List.length_cons, readMap, e1, Option.bind_eq_bind, Option.bind_some, e2, e3,
      adv_adv, e4, List.append_assoc, List.singleton_append, List.length_append, Nat.add_assoc]

theorem clean_of_mapFree (t : Ty) (h : MapFree t) (v : Val t) : Clean t v := by
  induction t with
  | struct n f ih => exact fun i => ih i (h i) (v i)
  | vec t ih => exact fun x _ => ih h x
  | map k t ih => exact h.elim
  | _ => trivial

/-- A value-initialised object is a clean read target. -/
theorem clean_dflt (t : Ty) : Clean t (dflt t) := by
  induction t with
  | struct n f ih => exact fun i => ih i
  | vec t ih => exact fun x hx => nomatch hx
  | map k t ih => rfl
  | _ => trivial

theorem clean_resize (t : Ty) (n : Nat) (v : List (Val t)) (h : ∀ x, List.Mem x v → Clean t x) :
    ∀ x ∈ resize (dflt t) n v, Clean t x := by
  intro x hx
  rcases List.mem_append.mp hx with hx | hx
  · exact h x (List.mem_of_mem_take hx)
  · rw [List.eq_of_mem_replicate hx]; exact clean_dflt t

theorem read_at (junk : List UInt8) (t : Ty) (v : Val t) (hv : Ok t v) (cs : List (List UInt8))
    (hc : write t v = some cs) (t0 : Val t) (h0 : Clean t t0) (a : Ar) (ha : At a cs.flatten) :
    read junk t t0 a = some (v, adv a cs.flatten.length) := by
  induction t generalizing cs a with
  | scalar n =>
    change List UInt8 at v t0
    obtain rfl : [v] = cs := Option.some.inj hc
    simp only [List.flatten_cons, List.flatten_nil, List.append_nil] at ha ⊢
    exact readBytes_at t0 ha hv
  | bool =>
    obtain rfl : [boolByte v] = cs := Option.some.inj hc
    simp only [List.flatten_cons, List.flatten_nil, List.append_nil] at ha ⊢
    have hl : (boolByte v).length = 1 := by rcases v with _ | _ <;> rfl
    simp only [read, readBytes_at _ ha hl, Option.bind_eq_bind, Option.bind_some]
    rcases v with _ | _ <;> rfl
  | enum n =>
    change List UInt8 at v t0
    obtain rfl : [v] = cs := Option.some.inj hc
    simp only [List.flatten_cons, List.flatten_nil, List.append_nil] at ha ⊢
    exact readBytes_at _ ha hv
  | struct n f ih =>
    have := readFields_at (fun i => write (f i) (v i)) (fun i => read junk (f i))
      (fun i => Clean (f i)) v (fun i cs hc t0 h0 a ha => ih i (v i) (hv i) cs hc t0 h0 a ha)
      (List.finRange n) (List.nodup_finRange n) t0 (fun i _ => h0 i) cs hc a ha
    simp only [List.mem_finRange, if_true] at this
    exact this
  | vec t ih =>
    change List (Val t) at v t0
    have hm : min (List.length v) maxSize = List.length v := Nat.min_eq_left hv.1
    obtain ⟨c, hc'⟩ := catM_some (write_defined t) v
    simp only [write] at hc
    have e0 : catM (write t) (List.take (min (List.length v) maxSize) v) = some c := by
      rw [hm, List.take_length]; exact hc'
    rw [e0] at hc
    simp only [hm, Option.bind_eq_bind, Option.bind_some, Option.some.injEq] at hc
    subst hc
    rw [List.flatten_append] at ha ⊢
    simp only [List.flatten_cons, List.flatten_nil, List.append_nil] at ha ⊢
    have e1 := readBytes_at (enc 2 (min (List.length t0) maxSize)) ha.left (enc_length 2 _)
    have e2 := readEach_at (write t) (read junk t) (Clean t) v
      (fun x hx cs hc t0 h0 a ha => ih x (hv.2 x hx) cs hc t0 h0 a ha)
      (resize (dflt t) (List.length v) t0) (clean_resize t _ t0 h0) (resize_length _ _ _)
      c hc' _ ha.right
    simp only [read, e1, Option.bind_eq_bind, Option.bind_some, dec_enc2 _ hv.1, e2, adv_adv,
      List.length_append]
    rfl
  | vecBool =>
    change List Bool at v t0
    have hm : min (List.length v) maxSize = List.length v := Nat.min_eq_left hv
    obtain ⟨c, hc'⟩ := packSets_some v (numSets (List.length v)) 0
    simp only [write] at hc
    have e0 : packSets (List.take (min (List.length v) maxSize) v) (min (List.length v) maxSize)
        (numSets (min (List.length v) maxSize)) 0 = some c := by
      rw [hm, List.take_length]; exact hc'
    rw [e0] at hc
    simp only [hm, Option.bind_eq_bind, Option.bind_some, Option.some.injEq] at hc
    subst hc
    rw [List.flatten_append] at ha ⊢
    simp only [List.flatten_cons, List.flatten_nil, List.append_nil] at ha ⊢
    have e1 := readBytes_at (enc 2 (min (List.length t0) maxSize)) ha.left (enc_length 2 _)
    obtain ⟨out, e2, hl, hg⟩ := unpackSets_at junk v (numSets (List.length v)) 0
      (resize false (List.length v) t0) (resize_length _ _ _) c hc' _ ha.right
    have hout : out = v := by
      apply List.ext_getElem?
      intro k
      rw [hg k]
      by_cases hk : k < (0 + numSets (List.length v)) * 32
      · rw [if_pos (by omega)]
      · have : List.length v ≤ k := by
          simp only [numSets] at hk
          split_ifs at hk <;> omega
        rw [if_neg (by omega), List.getElem?_eq_none (by rw [resize_length]; exact this),
          List.getElem?_eq_none this]
    subst hout
    simp only [read, e1, Option.bind_eq_bind, Option.bind_some, dec_enc2 _ hv, e2, adv_adv,
      List.length_append]
    rfl
  | opt t ih =>
    cases v with
    | none =>
      obtain rfl : [boolByte false] = cs := Option.some.inj hc
      simp only [List.flatten_cons, List.flatten_nil, List.append_nil] at ha ⊢
      have e1 := readBytes_at (n := 1) (boolByte (Option.isSome t0)) ha rfl
      simp only [read, e1, Option.bind_eq_bind, Option.bind_some]
      rw [if_neg (by decide)]
    | some x =>
      obtain ⟨c, hc'⟩ := write_defined t x
      simp only [write, hc', Option.bind_eq_bind, Option.bind_some, Option.some.injEq] at hc
      subst hc
      rw [List.flatten_append] at ha ⊢
      simp only [List.flatten_cons, List.flatten_nil, List.append_nil] at ha ⊢
      have e1 := readBytes_at (n := 1) (boolByte (Option.isSome t0)) ha.left rfl
      have e2 := ih x (hv x rfl) c hc' (dflt t) (clean_dflt t) _ ha.right
      have e3 : boolByte true ≠ [0] := by decide
      simp only [read, e1, Option.bind_eq_bind, Option.bind_some]
      rw [if_pos e3, e2]
      simp
  | variant n f ih =>
    obtain ⟨i, x⟩ := v
    obtain ⟨hn, hx⟩ := hv
    obtain ⟨c, hc'⟩ := write_defined (f i) x
    simp only [write] at hc
    rw [hc'] at hc
    simp only [Option.bind_eq_bind, Option.bind_some, Option.some.injEq] at hc
    subst hc
    rw [List.flatten_append] at ha ⊢
    simp only [List.flatten_cons, List.flatten_nil, List.append_nil] at ha ⊢
    have e1 := readBytes_at [0] ha.left (enc_length 1 _)
    have e2 := ih i x hx c hc' (dflt (f i)) (clean_dflt _) _ ha.right
    have hi : dec (enc 1 i.val) = i.val := dec_enc 1 _ (by have := i.isLt; omega)
    have hlt : dec (enc 1 i.val) < n + 1 := by rw [hi]; exact i.isLt
    have hfin : (⟨dec (enc 1 i.val), hlt⟩ : Fin (n + 1)) = i := Fin.ext hi
    simp only [read, e1, Option.bind_eq_bind, Option.bind_some]
    rw [dif_pos hlt]
    have gen : ∀ j : Fin (n + 1), j = i →
        ((read junk (f j) (dflt (f j)) (adv a (enc 1 i.val).length)).bind fun y =>
          some ((⟨j, y.1⟩ : Val (.variant n f)), y.2)) =
        some ((⟨i, x⟩ : Val (.variant n f)),
          adv a (enc 1 i.val ++ c.flatten).length) := by
      rintro j rfl
      simp only [e2, Option.bind_some, adv_adv, List.length_append]
    exact gen _ hfin
  | map k t ih =>
    change List (List UInt8 × Val t) at v t0
    obtain ⟨h1, h2, h3, h4⟩ := hv
    have hm : min (List.length v) maxSize = List.length v := Nat.min_eq_left h1
    obtain ⟨c, hc'⟩ := catM_some (w := fun p : List UInt8 × Val t => do
      let c ← write t p.2
      some ([p.1] ++ c)) (fun p => by
        obtain ⟨c, hc⟩ := write_defined t p.2
        exact ⟨[p.1] ++ c, by simp [hc]⟩) v
    simp only [write] at hc
    rw [hc'] at hc
    simp only [hm, Option.bind_eq_bind, Option.bind_some, Option.some.injEq] at hc
    subst hc
    rw [List.flatten_append] at ha ⊢
    simp only [List.flatten_cons, List.flatten_nil, List.append_nil] at ha ⊢
    have e1 := readBytes_at (enc 2 (min (List.length t0) maxSize)) ha.left (enc_length 2 _)
    obtain rfl : t0 = ([] : List _) := h0
    have e2 := readMap_at k (write t) (read junk t) v
      (fun p hp cs hc t0 a ha => ih p.2 (h3 p hp).2 cs hc t0 (clean_of_mapFree t h2 t0) a ha)
      (fun p hp => (h3 p hp).1) h4 (List.replicate k 0) (dflt t) [] (fun p hp => by cases hp)
      c hc' _ ha.right
    simp only [read, e1, Option.bind_eq_bind, Option.bind_some, dec_enc2 _ h1, e2, adv_adv,
      List.length_append, List.nil_append]
    rfl

/-- **C13.** Write `v`, in limits, anywhere in a buffer; read it back from there into any clean
target (e.g. a value-initialised one, or any target at all if the type contains no maps). The
result is `v`, and the archive has consumed exactly the bytes written and has not failed. -/
theorem round_trip (junk : List UInt8) (t : Ty) (v : Val t) (hv : Ok t v) (t0 : Val t)
    (h0 : Clean t t0) (before behind : List UInt8) :
    ∃ cs, write t v = some cs ∧
      read junk t t0 ⟨before ++ bytes cs ++ behind, before.length, false⟩ =
        some (v, ⟨before ++ bytes cs ++ behind, before.length + (bytes cs).length, false⟩) := by
  obtain ⟨cs, hc⟩ := write_defined t v
  refine ⟨cs, hc, ?_⟩
  exact read_at junk t v hv cs hc t0 h0 _ ⟨rfl, by simp, behind, by simp [bytes]⟩

/-- memory_output_archive appends exactly those bytes. -/
theorem memOut_eq (buf : List UInt8) (cs : List (List UInt8)) :
    memOut buf cs = buf ++ bytes cs := by
  unfold memOut bytes
  induction cs generalizing buf with
  | nil => simp
  | cons c cs ih => simp [ih]

/-- **C13**, end to end with the archives: a fresh output buffer, then a fresh input archive; at
the end the input is at `eof`. -/
theorem round_trip_archive (junk : List UInt8) (t : Ty) (v : Val t) (hv : Ok t v) :
    ∃ cs, write t v = some cs ∧
      read junk t (dflt t) ⟨memOut [] cs, 0, false⟩ =
        some (v, ⟨memOut [] cs, (memOut [] cs).length, false⟩) := by
  obtain ⟨cs, hc, hr⟩ := round_trip junk t v hv (dflt t) (clean_dflt t) [] []
  refine ⟨cs, hc, ?_⟩
  simpa [memOut_eq] using hr

/-! ### Untrusted input -/

/-- **C14.** Whatever the bytes, the type, the target and the state of the archive, reading is
defined: no byte outside the buffer (and no element outside a container) is ever touched. The
position only moves forward, within the buffer. -/
theorem reads_in_bounds (junk : List UInt8) (t : Ty) (t0 : Val t) (a : Ar) :
    ∃ v a', read junk t t0 a = some (v, a') ∧ a'.buf = a.buf ∧ a.pos ≤ a'.pos ∧
      (a.pos ≤ a.buf.length → a'.pos ≤ a.buf.length) := by
  obtain ⟨v, a', h1, h2, h3, h4, -⟩ := (Good.read junk t t0).step a
  exact ⟨v, a', h1, h2, h3, h4⟩

/-- **C14.** Failure is sticky: a failed archive stays failed and never moves again. -/
theorem failure_sticky (junk : List UInt8) (t : Ty) (t0 : Val t) (a : Ar) (h : a.failed = true) :
    ∃ v, read junk t t0 a = some (v, a) := by
  obtain ⟨v, a', h1, -, -, -, h5⟩ := (Good.read junk t t0).step a
  exact ⟨v, by rw [h1, h5 h]⟩

/-- **C14.** Truncation is always detected: reading from any proper prefix of the bytes of a value
ends with `failed()`. -/
theorem truncation_detected (junk : List UInt8) (t : Ty) (v : Val t) (hv : Ok t v) (t0 : Val t)
    (h0 : Clean t t0) (cs : List (List UInt8)) (hc : write t v = some cs) (c : Nat)
    (hlt : c < (bytes cs).length) :
    ∃ w a', read junk t t0 ⟨(bytes cs).take c, 0, false⟩ = some (w, a') ∧ a'.failed = true := by
  have h1 := read_at junk t v hv cs hc t0 h0 ⟨bytes cs, 0, false⟩
    ⟨rfl, by simp, [], by simp [bytes]⟩
  have h2 := (Good.read junk t t0).trunc ⟨bytes cs, 0, false⟩ c v _ rfl (Nat.zero_le _)
    (Nat.le_of_lt hlt) h1 rfl
  rw [if_neg (by simp only [adv]; rw [← bytes]; omega)] at h2
  exact h2

/-- Types whose readers only ever assign through fundamental reads. -/
def Plain : Ty → Prop
  | .scalar _ => True
  | .bool => True
  | .struct _ f => ∀ i, Plain (f i)
  | .vec t => Plain t
  | _ => False

theorem readBytes_failed (n : Nat) (t : List UInt8) (a : Ar) (h : a.failed = true) :
    readBytes n t a = some (t, a) := by simp [readBytes, h]

/-- The property as written in C14: a read from a failed archive leaves its target unchanged. -/
def FailedReadKeepsTarget (junk : List UInt8) (t : Ty) (v : Val t) : Prop :=
  ∀ a : Ar, a.failed = true → read junk t v a = some (v, a)

/-- **C14**, partial: a read from a failed archive leaves the target unchanged for numbers, bools,
aggregates, arrays, and vectors and strings of them. Missing: entities/enums, optionals, variants,
maps and `vector<bool>`, for which it is false (below). -/
theorem failed_read_keeps_target_partial (junk : List UInt8) (t : Ty) (ht : Plain t) (v : Val t)
    (hv : Ok t v) : FailedReadKeepsTarget junk t v := by
  intro a ha
  induction t with
  | scalar n => exact readBytes_failed n v a ha
  | bool =>
    simp only [read, readBytes_failed _ _ _ ha, Option.bind_eq_bind, Option.bind_some]
    rcases v with _ | _ <;> rfl
  | struct n f ih =>
    have key : ∀ is : List (Fin n), readFields (fun i => read junk (f i)) is v a = some (v, a) := by
      intro is
      induction is with
      | nil => rfl
      | cons i is ih2 =>
        have e := ih i (ht i) (v i) (hv i)
        simp only [readFields, e, Option.bind_eq_bind, Option.bind_some]
        have e2 : Function.update (β := fun i => Val (f i)) v i (v i) = v :=
          Function.update_eq_self i v
        exact (congrArg (fun u => readFields (fun i => read junk (f i)) is u a) e2).trans ih2
    exact key _
  | vec t ih =>
    change List (Val t) at v
    have hm : min (List.length v) maxSize = List.length v := Nat.min_eq_left hv.1
    have hr : resize (dflt t) (List.length v) v = v := by simp [resize]
    have key : ∀ l : List (Val t), (∀ x ∈ l, Ok t x) →
        readEach (read junk t) l a = some (l, a) := by
      intro l hl
      induction l with
      | nil => rfl
      | cons x xs ih2 =>
        have e := ih ht x (hl x (by simp))
        simp [readEach, e, ih2 (fun y hy => hl y (by simp [hy]))]
    simp only [read, readBytes_failed _ _ _ ha, Option.bind_eq_bind, Option.bind_some, hm,
      dec_enc2 _ hv.1, hr]
    exact key v hv.2
  | _ => exact ht.elim

/-- Finding: a read from a failed archive sets an entity (or enum) to zero, i.e. to a valid
entity. -/
theorem failed_read_alters_entity (junk : List UInt8) (n : Nat) (v : List UInt8) (a : Ar)
    (h : a.failed = true) :
    read junk (.enum n) v a = some ((List.replicate n 0 : List UInt8), a) :=
  readBytes_failed _ _ _ h

/-- Finding: a read from a failed archive resets the content of an engaged optional. -/
theorem failed_read_alters_optional (junk : List UInt8) (n : Nat) (x : List UInt8) (a : Ar)
    (h : a.failed = true) :
    read junk (.opt (.scalar n)) (some x : Option (List UInt8)) a =
      some ((some (List.replicate n 0) : Option (List UInt8)), a) := by
  have e1 : readBytes n (List.replicate n 0) a = some (List.replicate n 0, a) :=
    readBytes_failed _ _ _ h
  have e2 : ((readBytes n (List.replicate n 0) a).bind fun x =>
      some ((some x.1 : Option (List UInt8)), x.2)) = some (some (List.replicate n 0), a) := by
    rw [e1]; rfl
  simp only [read, readBytes_failed _ _ _ h, Option.bind_eq_bind, Option.bind_some]
  exact (if_pos (show boolByte true ≠ [0] by decide)).trans e2

/-- Finding: a read from a failed archive replaces a variant by its value-initialised first
alternative, whatever it held. -/
theorem failed_read_alters_variant (junk : List UInt8) (n k : Nat) (f : Fin (n + 1) → Ty)
    (hf : f 0 = .scalar k) (v : Val (.variant n f)) (a : Ar) (h : a.failed = true) :
    read junk (.variant n f) v a = some ((⟨0, dflt (f 0)⟩ : Val (.variant n f)), a) := by
  have e := failed_read_keeps_target_partial junk (f 0) (by rw [hf]; trivial) (dflt (f 0)) (by
    rw [hf]; exact List.length_replicate) a h
  simp only [read, readBytes_failed _ _ _ h, Option.bind_eq_bind, Option.bind_some]
  rw [dif_pos (by simp [dec])]
  have gen : ∀ j : Fin (n + 1), j = 0 →
      ((read junk (f j) (dflt (f j)) a).bind fun y =>
        some ((⟨j, y.1⟩ : Val (.variant n f)), y.2)) =
      some ((⟨0, dflt (f 0)⟩ : Val (.variant n f)), a) := by
    rintro j rfl
    simp [e]
  exact gen _ (Fin.ext (by simp [dec]))

/-- Finding: a read from a failed archive inserts a zero key into a non-empty map. -/
theorem failed_read_alters_map :
    read [] (.map 1 (.scalar 1)) ([([5], [7])] : List (List UInt8 × List UInt8))
      ⟨[], 0, true⟩ =
    some (([([0], [0]), ([5], [7])] : List (List UInt8 × List UInt8)), ⟨[], 0, true⟩) := rfl

/-- Finding: reading a `vector<bool>` from a failed archive copies uninitialised memory into the
target. -/
theorem failed_read_leaks_uninitialised :
    read [255, 255, 255, 255] .vecBool ([false, false] : List Bool) ⟨[], 0, true⟩ =
      some (([true, true] : List Bool), ⟨[], 0, true⟩) := by rfl

/-! ### Long containers -/

/-- The property as written in C15: serialization does not change the source, and reading back
gives the source. -/
def LongContainersSurvive (junk : List UInt8) (t : Ty) (v : Val t) : Prop :=
  after t v = v ∧ ∃ cs, write t v = some cs ∧
    read junk t (dflt t) ⟨bytes cs, 0, false⟩ =
      some (v, ⟨bytes cs, (bytes cs).length, false⟩)

/-- **C15** is false of the code for every vector (or string) longer than 65535: the source
itself is cut down to 65535 elements, and only those are written. -/
theorem long_vector_altered (t : Ty) (v : List (Val t)) (h : 65535 < v.length) :
    (after (.vec t) v : List (Val t)).length = 65535 ∧ after (.vec t) v ≠ v ∧
      write (.vec t) v = write (.vec t) (v.take 65535 : List (Val t)) := by
  have hl : (after (.vec t) v : List (Val t)).length = 65535 := by
    simp only [after, maxSize, List.length_map, List.length_take]; omega
  refine ⟨hl, ?_, ?_⟩
  · intro e
    rw [e] at hl
    exact absurd hl (by omega)
  · simp only [write, maxSize]
    rw [List.length_take, List.take_take]
    congr 2
    · congr 1
      omega
    · funext x
      congr 4
      omega

theorem long_vector_not_survive (junk : List UInt8) (t : Ty) (v : List (Val t))
    (h : 65535 < v.length) : ¬ LongContainersSurvive junk (.vec t) v :=
  fun ⟨h1, _⟩ => (long_vector_altered t v h).2.1 h1

/-- **C15**, partial: within the limits the source is left as it was and survives. -/
theorem source_unchanged_partial (junk : List UInt8) (t : Ty) (v : Val t) (hv : Ok t v) :
    LongContainersSurvive junk t v := by
  refine ⟨?_, ?_⟩
  · induction t with
    | scalar n => rfl
    | bool => rfl
    | enum n => rfl
    | struct n f ih => funext i; exact ih i (v i) (hv i)
    | vec t ih =>
      change List (Val t) at v
      have hm : min (List.length v) maxSize = List.length v := Nat.min_eq_left hv.1
      show List.map (after t) (List.take (min v.length maxSize) v) = v
      rw [hm, List.take_length]
      conv_rhs => rw [← List.map_id v]
      exact List.map_congr_left (fun x hx => ih x (hv.2 x hx))
    | vecBool =>
      change List Bool at v
      have hm : min (List.length v) maxSize = List.length v := Nat.min_eq_left hv
      show List.take (min v.length maxSize) v = v
      rw [hm, List.take_length]
    | opt t ih =>
      cases v with
      | none => rfl
      | some x => exact congrArg some (ih x (hv x rfl))
    | variant n f ih =>
      obtain ⟨i, x⟩ := v
      have := ih i x hv.2
      simp only [after]
      rw [this]
    | map k t ih =>
      change List (List UInt8 × Val t) at v
      simp only [after]
      conv_rhs => rw [← List.map_id v]
      exact List.map_congr_left (fun p hp => by
        rw [ih p.2 (hv.2.2.1 p hp).2]; rfl)
  · obtain ⟨cs, hc, hr⟩ := round_trip junk t v hv (dflt t) (clean_dflt t) [] []
    exact ⟨cs, hc, by simpa using hr⟩

theorem catM_length {α : Type} {w : α → Option (List (List UInt8))} (s : Nat) (l : List α)
    (h : ∀ x ∈ l, ∀ c, w x = some c → c.flatten.length = s) (cs : List (List UInt8))
    (hc : catM w l = some cs) : cs.flatten.length = l.length * s := by
  induction l generalizing cs with
  | nil =>
    simp only [catM, Option.some.injEq] at hc
    subst hc; simp
  | cons x xs ih =>
    rcases e : w x with _ | c
    · simp [catM, e] at hc
    · rcases e2 : catM w xs with _ | d
      · simp [catM, e, e2] at hc
      · simp only [catM, e, e2, Option.bind_eq_bind, Option.bind_some, Option.some.injEq] at hc
        subst hc
        rw [List.flatten_append, List.length_append, h x (by simp) c e,
          ih (fun y hy => h y (by simp [hy])) d e2, List.length_cons, Nat.succ_mul, Nat.add_comm]

/-- Finding: a map with more than 65535 entries is written with a size of 65535 followed by *all*
its entries, so the bytes no longer match the size and whatever follows is misread. -/
theorem long_map_desynchronises (k n : Nat) (v : List (List UInt8 × List UInt8))
    (hv : ∀ p ∈ v, p.1.length = k ∧ p.2.length = n) (h : 65535 < v.length) :
    ∃ cs, write (.map k (.scalar n)) v = some ([enc 2 65535] ++ cs) ∧
      (bytes cs).length = v.length * (k + n) := by
  obtain ⟨c, hc⟩ := catM_some (w := fun p : List UInt8 × List UInt8 =>
    (do
      let c ← write (.scalar n) p.2
      some ([p.1] ++ c) : Option (List (List UInt8)))) (fun p => ⟨[p.1, p.2], rfl⟩) v
  refine ⟨c, ?_, ?_⟩
  · have e : min v.length maxSize = 65535 := by simp only [maxSize]; omega
    have e2 := congrArg (fun o => o.bind fun cs =>
      some ([enc 2 (min v.length maxSize)] ++ cs)) hc
    simp only [e] at e2
    rw [← e] at e2 ⊢
    exact e2
  · exact catM_length (k + n) v (fun p hp c hc => by
      obtain rfl : [p.1, p.2] = c := Option.some.inj hc
      simp [hv p hp]) c hc

/-! ### serialization_sizeof -/

theorem catM_fields_length {n : Nat} {w : Fin n → Option (List (List UInt8))}
    {sz : Fin n → Option Nat} (is : List (Fin n))
    (h : ∀ i, ∀ c k, w i = some c → sz i = some k → c.flatten.length = k)
    (cs : List (List UInt8)) (hc : catM w is = some cs) (k : Nat)
    (hk : is.foldr (fun i acc => do
      let a ← sz i
      let b ← acc
      some (a + b)) (some 0) = some k) : cs.flatten.length = k := by
  induction is generalizing cs k with
  | nil =>
    simp only [catM, Option.some.injEq] at hc
    subst hc
    simp only [List.foldr_nil, Option.some.injEq] at hk
    subst hk; rfl
  | cons i is ih =>
    rcases e : w i with _ | c
    · simp [catM, e] at hc
    · rcases e2 : catM w is with _ | d
      · simp [catM, e, e2] at hc
      · simp only [catM, e, e2, Option.bind_eq_bind, Option.bind_some, Option.some.injEq] at hc
        subst hc
        simp only [List.foldr_cons] at hk
        rcases e3 : sz i with _ | a
        · rw [e3] at hk; simp at hk
        · rw [e3] at hk
          rcases e4 : is.foldr (fun i acc => do
              let a ← sz i
              let b ← acc
              some (a + b)) (some 0) with _ | b
          · rw [e4] at hk; simp at hk
          · rw [e4] at hk
            simp only [Option.bind_eq_bind, Option.bind_some, Option.some.injEq] at hk
            subst hk
            rw [List.flatten_append, List.length_append, h i c a e e3, ih d e2 b e4]

theorem fixedSize_exact (t : Ty) (v : Val t) (hv : Ok t v) (cs : List (List UInt8))
    (hc : write t v = some cs) (k : Nat) (hk : fixedSize t = some k) : cs.flatten.length = k := by
  induction t generalizing cs k with
  | scalar n =>
    change List UInt8 at v
    obtain rfl : [v] = cs := Option.some.inj hc
    obtain rfl : n = k := Option.some.inj hk
    have : v.length = n := hv
    simpa using this
  | bool =>
    obtain rfl : [boolByte v] = cs := Option.some.inj hc
    obtain rfl : 1 = k := Option.some.inj hk
    rcases v with _ | _ <;> rfl
  | enum n =>
    change List UInt8 at v
    obtain rfl : [v] = cs := Option.some.inj hc
    obtain rfl : n = k := Option.some.inj hk
    have : v.length = n := hv
    simpa using this
  | struct n f ih =>
    exact catM_fields_length (w := fun i => write (f i) (v i)) (sz := fun i => fixedSize (f i))
      (List.finRange n) (fun i c k h1 h2 => ih i (v i) (hv i) c h1 k h2) cs hc k hk
  | vec t ih => simp [fixedSize] at hk
  | vecBool => simp [fixedSize] at hk
  | opt t ih => simp [fixedSize] at hk
  | variant n f ih => simp [fixedSize] at hk
  | map m t ih => simp [fixedSize] at hk

theorem packSets_length (v : List Bool) (size m i : Nat) (cs : List (List UInt8))
    (hc : packSets v size m i = some cs) : cs.flatten.length = m * 4 := by
  induction m generalizing i cs with
  | zero =>
    simp only [packSets, Option.some.injEq] at hc
    subst hc; simp
  | succ m ih =>
    simp only [packSets] at hc
    rcases e : packSet v (i * 32) (min (size - i * 32) 32) with _ | s
    · rw [e] at hc; simp at hc
    · rcases e2 : packSets v size m (i + 1) with _ | d
      · rw [e, e2] at hc; simp at hc
      · rw [e, e2] at hc
        simp only [Option.bind_eq_bind, Option.bind_some, Option.some.injEq] at hc
        subst hc
        rw [List.flatten_append, List.length_append, ih (i + 1) d e2]
        simp; omega

/-- `serialization_sizeof(v)` is the number of bytes written for `v` (within the limits). The
offsets of embedded submeshes rely on this. -/
theorem serialization_sizeof_exact (t : Ty) (v : Val t) (hv : Ok t v) (cs : List (List UInt8))
    (hc : write t v = some cs) (k : Nat) (hk : serSize t v = some k) : (bytes cs).length = k := by
  unfold bytes
  induction t generalizing cs k with
  | scalar n => exact fixedSize_exact (.scalar n) v hv cs hc k hk
  | bool => exact fixedSize_exact .bool v hv cs hc k hk
  | enum n => exact fixedSize_exact (.enum n) v hv cs hc k hk
  | struct n f ih =>
    exact catM_fields_length (w := fun i => write (f i) (v i)) (sz := fun i => serSize (f i) (v i))
      (List.finRange n) (fun i c k h1 h2 => ih i (v i) (hv i) c h1 k h2) cs hc k hk
  | vec t ih =>
    change List (Val t) at v
    have hm : min (List.length v) maxSize = List.length v := Nat.min_eq_left hv.1
    simp only [write] at hc
    simp only [serSize] at hk
    rw [hm, List.take_length] at hc
    rcases e : fixedSize t with _ | s
    · simp [e] at hk
    · rcases e2 : catM (write t) v with _ | d
      · rw [e2] at hc; simp at hc
      · rw [e2] at hc
        simp only [Option.bind_eq_bind, Option.bind_some, Option.some.injEq] at hc
        subst hc
        rw [e] at hk
        simp only [Option.map_some, Option.some.injEq] at hk
        subst hk
        rw [List.flatten_append, List.length_append, catM_length s v
          (fun x hx c h => fixedSize_exact t x (hv.2 x hx) c h s e) d e2]
        simp
  | vecBool =>
    change List Bool at v
    have hm : min (List.length v) maxSize = List.length v := Nat.min_eq_left hv
    simp only [write] at hc
    simp only [serSize, Option.some.injEq] at hk
    rw [hm, List.take_length] at hc
    rcases e2 : packSets v (List.length v) (numSets (List.length v)) 0 with _ | d
    · rw [e2] at hc; simp at hc
    · rw [e2] at hc
      simp only [Option.bind_eq_bind, Option.bind_some, Option.some.injEq] at hc
      subst hc
      subst hk
      rw [List.flatten_append, List.length_append, packSets_length _ _ _ _ d e2]
      simp
  | opt t ih =>
    cases v with
    | none =>
      obtain rfl : [boolByte false] = cs := Option.some.inj hc
      obtain rfl : 1 = k := Option.some.inj hk
      rfl
    | some x =>
      simp only [write] at hc
      simp only [serSize] at hk
      rcases e2 : write t x with _ | d
      · rw [e2] at hc; simp at hc
      · rw [e2] at hc
        simp only [Option.bind_eq_bind, Option.bind_some, Option.some.injEq] at hc
        subst hc
        rcases e3 : serSize t x with _ | s
        · simp [e3] at hk
        · rw [e3] at hk
          simp only [Option.map_some, Option.some.injEq] at hk
          subst hk
          rw [List.flatten_append, List.length_append, ih x (hv x rfl) d e2 s e3]
          rfl
  | variant n f ih => simp [serSize] at hk
  | map m t ih =>
    change List (List UInt8 × Val t) at v
    simp only [serSize] at hk
    rcases e : fixedSize t with _ | s
    · simp [e] at hk
    · rcases e2 : catM (fun p : List UInt8 × Val t => do
        let c ← write t p.2
        some ([p.1] ++ c)) v with _ | d
      · simp only [write] at hc; rw [e2] at hc; simp at hc
      · simp only [write] at hc
        rw [e2] at hc
        simp only [Option.bind_eq_bind, Option.bind_some, Option.some.injEq] at hc
        subst hc
        rw [e] at hk
        simp only [Option.map_some, Option.some.injEq] at hk
        subst hk
        rw [List.flatten_append, List.length_append, catM_length (m + s) v
          (fun p hp c h => by
            rcases e3 : write t p.2 with _ | x
            · simp [e3] at h
            · simp only [e3, Option.bind_eq_bind, Option.bind_some, Option.some.injEq] at h
              subst h
              have h5 := fixedSize_exact t p.2 (hv.2.2.1 p hp).2 x e3 s e
              rw [List.flatten_append, List.length_append, h5]
              simp [(hv.2.2.1 p hp).1]) d e2]
        simp

/-! ### fixed_memory_output_archive -/

theorem store_split (p q c : List UInt8) (h : c.length ≤ q.length) :
    store (p ++ q) p.length c = some (p ++ c ++ q.drop c.length) := by
  induction c generalizing p q with
  | nil => simp [store]
  | cons b bs ih =>
    cases q with
    | nil => simp at h
    | cons x q =>
      simp only [List.length_cons, Nat.add_le_add_iff_right] at h
      have h2 := ih (p ++ [b]) q h
      simp only [List.append_assoc, List.singleton_append, List.length_append,
        List.length_singleton] at h2
      simp [store, h2]

theorem store_eq (buf : List UInt8) (pos : Nat) (c : List UInt8) (h : pos + c.length ≤ buf.length) :
    store buf pos c = some (buf.take pos ++ c ++ buf.drop (pos + c.length)) := by
  have := store_split (buf.take pos) (buf.drop pos) c (by simp; omega)
  rw [List.take_append_drop, List.length_take, Nat.min_eq_left (by omega), List.drop_drop] at this
  exact this

/-- **C13** for `fixed_memory_output_archive`: started at a position inside a buffer, it never
writes outside the buffer. If everything fits, exactly the bytes of the value are stored from that
position on, and the archive has not failed; otherwise `failed()` is reported. Bytes before the
start position are never altered. -/
theorem fixed_output_exact (o : FixedOut) (cs : List (List UInt8)) (hf : o.failed = false)
    (hp : o.pos ≤ o.buf.length) :
    ∃ o', fixedOut o cs = some o' ∧ o'.buf.length = o.buf.length ∧
      o'.buf.take o.pos = o.buf.take o.pos ∧
      (o'.failed = true ↔ o.buf.length < o.pos + (bytes cs).length) ∧
      (o'.failed = false → o'.pos = o.pos + (bytes cs).length ∧
        o'.buf = o.buf.take o.pos ++ bytes cs ++ o.buf.drop (o.pos + (bytes cs).length)) := by
  have stay : ∀ (o : FixedOut) (cs : List (List UInt8)), o.failed = true →
      fixedOut o cs = some o := by
    intro o cs h
    induction cs with
    | nil => rfl
    | cons c cs ih => simp [fixedOut, fixedWrite, h, ih]
  induction cs generalizing o with
  | nil => exact ⟨o, rfl, rfl, rfl, by simp [hf, bytes]; exact hp, fun _ => by simp [bytes]⟩
  | cons c cs ih =>
    have hb : bytes (c :: cs) = c ++ bytes cs := by simp [bytes]
    by_cases h : o.pos + c.length > o.buf.length
    · refine ⟨{ o with failed := true }, ?_, rfl, rfl, ?_, by simp⟩
      · simp [fixedOut, fixedWrite, hf, h, stay]
      · simp [hb]; omega
    · have hs := store_eq o.buf o.pos c (by omega)
      obtain ⟨o', h1, h2, h3, h4, h5⟩ := ih
        { o with buf := o.buf.take o.pos ++ c ++ o.buf.drop (o.pos + c.length),
                 pos := o.pos + c.length } hf (by simp; omega)
      have hlen : (o.buf.take o.pos ++ c ++ o.buf.drop (o.pos + c.length)).length =
          o.buf.length := by simp; omega
      simp only [hlen] at h2 h4
      refine ⟨o', ?_, h2, ?_, ?_, ?_⟩
      · simp only [fixedOut, fixedWrite, hf, hs, if_neg h, Option.map_some, Option.bind_eq_bind]
        simpa [hf] using h1
      · have := congrArg (List.take o.pos) h3
        simp only [List.take_take] at this
        rw [Nat.min_eq_left (by omega)] at this
        rw [this, List.append_assoc, List.take_append_of_le_length (by simp; omega),
          List.take_take, Nat.min_self]
      · rw [h4, hb, List.length_append]; omega
      · intro hnf
        obtain ⟨h6, h7⟩ := h5 hnf
        refine ⟨by rw [h6, hb, List.length_append]; simp only; omega, ?_⟩
        have hfit : ¬ (o.buf.length < o.pos + c.length + (bytes cs).length) := by
          rw [← h4, hnf]; simp
        have hl2 : o.pos + c.length = (o.buf.take o.pos ++ c).length := by simp; omega
        rw [h7, hb]
        simp only
        have hd : ∀ q : List UInt8, List.drop (o.pos + c.length + (bytes cs).length)
            (o.buf.take o.pos ++ c ++ q) = q.drop (bytes cs).length := by
          intro q; rw [hl2, ← List.drop_drop, List.drop_left]
        have ht : ∀ q : List UInt8, List.take (o.pos + c.length)
            (o.buf.take o.pos ++ c ++ q) = o.buf.take o.pos ++ c := by
          intro q; rw [hl2, List.take_left]
        rw [hd, ht, List.drop_drop, List.length_append]
        simp [Nat.add_assoc]

/-! ### The hypotheses are met: a nested value -/

/-- `struct { uint16; optional<vector<bool>>; variant<uint8, vector<entity>>; map<uint8, bool> }`. -/
def exTy : Ty := .struct 4 fun
  | 0 => .scalar 2
  | 1 => .opt .vecBool
  | 2 => .variant 1 fun | 0 => .scalar 1 | 1 => .vec (.enum 4)
  | 3 => .map 1 .bool

def exVal : Val exTy := fun
  | 0 => ([7, 1] : List UInt8)
  | 1 => (some [true, false, true] : Option (List Bool))
  | 2 => ⟨1, ([[1, 0, 0, 0], [2, 0, 0, 0]] : List (List UInt8))⟩
  | 3 => ([([3], true), ([9], false)] : List (List UInt8 × Bool))

example : Ok exTy exVal := by
  intro i
  match i with
  | 0 => rfl
  | 1 =>
    intro x hx
    obtain rfl : [true, false, true] = x := Option.some.inj hx
    show List.length [true, false, true] ≤ 65535
    decide
  | 2 =>
    refine ⟨by decide, (?_ : List.length [[1, 0, 0, 0], [2, 0, 0, 0]] ≤ 65535), ?_⟩
    · decide
    · intro x hx
      rcases hx with _ | ⟨_, _ | ⟨_, hx⟩⟩
      · rfl
      · rfl
      · cases hx
  | 3 =>
    refine ⟨(by decide : List.length [([3], true), ([9], false)] ≤ 65535), trivial, ?_, ?_⟩
    · intro x hx
      rcases hx with _ | ⟨_, _ | ⟨_, hx⟩⟩
      · exact ⟨rfl, trivial⟩
      · exact ⟨rfl, trivial⟩
      · cases hx
    · show List.Pairwise (fun p q : List UInt8 × Bool => dec p.1 < dec q.1)
        [([3], true), ([9], false)]
      decide

/-- The exact bytes of that value. -/
example : (write exTy exVal).map bytes =
    some [7, 1, 1, 3, 0, 5, 0, 0, 0, 1, 2, 0, 1, 0, 0, 0, 2, 0, 0, 0, 2, 0, 3, 1, 9, 0] := by
  decide +kernel

end Edyn.Serial
