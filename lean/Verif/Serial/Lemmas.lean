/- Supporting lemmas for the serialization theorems: byte encodings, the notion of a well-behaved
reader (closed under sequencing) and of unread input. -/
import Verif.Serial.Model
import Mathlib.Data.List.Basic
import Mathlib.Data.List.FinRange

namespace Edyn.Serial

/-! ### Integer encodings -/

@[simp] theorem enc_length (n x : Nat) : (enc n x).length = n := by
  induction n generalizing x with
  | zero => rfl
  | succ n ih => simp [enc, ih]

theorem dec_enc (n x : Nat) (h : x < 256 ^ n) : dec (enc n x) = x := by
  induction n generalizing x with
  | zero => simp only [Nat.pow_zero] at h; simp [enc, dec]; omega
  | succ n ih =>
    have h2 : x / 256 < 256 ^ n := by
      rw [Nat.pow_succ] at h
      exact Nat.div_lt_of_lt_mul (by rw [Nat.mul_comm]; exact h)
    simp only [enc, dec, ih _ h2]
    have : (UInt8.ofNat (x % 256)).toNat = x % 256 := by
      simp
    rw [this]; omega

theorem dec_enc2 (x : Nat) (h : x ≤ maxSize) : dec (enc 2 x) = x :=
  dec_enc 2 x (by simp only [maxSize] at h; omega)

theorem load_eq (buf : List UInt8) (pos n : Nat) (h : pos + n ≤ buf.length) :
    load buf pos n = some ((buf.drop pos).take n) := by
  induction n generalizing pos with
  | zero => simp [load]
  | succ n ih =>
    have h1 : pos < buf.length := by omega
    simp only [load, ih (pos + 1) (by omega), List.getElem?_eq_getElem h1, Option.bind_eq_bind,
      Option.bind_some]
    rw [List.drop_eq_getElem_cons h1, List.take_succ_cons]

/-! ### Unread input -/

/-- Move the read position. -/
def adv (a : Ar) (n : Nat) : Ar := { a with pos := a.pos + n }

@[simp] theorem adv_zero (a : Ar) : adv a 0 = a := rfl
@[simp] theorem adv_adv (a : Ar) (m n : Nat) : adv (adv a m) n = adv a (m + n) := by
  simp [adv, Nat.add_assoc]

/-- The archive is in good state and its unread input starts with `bs`. -/
def At (a : Ar) (bs : List UInt8) : Prop :=
  a.failed = false ∧ a.pos ≤ a.buf.length ∧ ∃ post, a.buf.drop a.pos = bs ++ post

theorem At.left {a : Ar} {x y : List UInt8} (h : At a (x ++ y)) : At a x := by
  obtain ⟨h1, h2, p, hp⟩ := h
  exact ⟨h1, h2, y ++ p, by simp [hp]⟩

theorem At.right {a : Ar} {x y : List UInt8} (h : At a (x ++ y)) : At (adv a x.length) y := by
  obtain ⟨h1, h2, p, hp⟩ := h
  have hl := congrArg List.length hp
  simp only [List.length_drop, List.length_append] at hl
  refine ⟨h1, by simp only [adv]; omega, p, ?_⟩
  simp only [adv]
  rw [← List.drop_drop, hp]
  simp

theorem readBytes_at {a : Ar} {bs : List UInt8} {n : Nat} (t : List UInt8) (h : At a bs)
    (hn : bs.length = n) : readBytes n t a = some (bs, adv a bs.length) := by
  subst hn
  obtain ⟨h1, h2, p, hp⟩ := h
  have hl := congrArg List.length hp
  simp only [List.length_drop, List.length_append] at hl
  unfold readBytes
  rw [if_neg (by simp [h1]), if_neg (by omega), load_eq _ _ _ (by omega), hp]
  simp [adv]

/-! ### Well-behaved readers -/

/-- A reader is good if, whatever the archive state: it never touches a byte outside the buffer
(never `none`), it leaves the buffer alone and moves the position forward within the buffer, it
does nothing to a failed archive, failure is permanent, and on a truncated buffer it
either behaves identically (if it needed only the bytes that are left) or fails. -/
structure Good {α : Type} (m : Ar → Option (α × Ar)) : Prop where
  step : ∀ a, ∃ y a', m a = some (y, a') ∧ a'.buf = a.buf ∧ a.pos ≤ a'.pos ∧
    (a.pos ≤ a.buf.length → a'.pos ≤ a.buf.length) ∧ (a.failed = true → a' = a)
  trunc : ∀ (a : Ar) (c : Nat) (y : α) (a' : Ar), a.failed = false → a.pos ≤ c →
    c ≤ a.buf.length → m a = some (y, a') → a'.failed = false →
    if a'.pos ≤ c then
      m { a with buf := a.buf.take c } = some (y, { a' with buf := a.buf.take c })
    else ∃ z b', m { a with buf := a.buf.take c } = some (z, b') ∧ b'.failed = true

theorem Good.pure {α : Type} (x : α) : Good (fun a => some (x, a)) := by
  constructor
  · intro a; exact ⟨x, a, rfl, rfl, Nat.le_refl _, id, fun _ => rfl⟩
  · intro a c y a' _ h2 _ h4 _
    simp only [Option.some.injEq, Prod.mk.injEq] at h4
    obtain ⟨rfl, rfl⟩ := h4
    rw [if_pos h2]

theorem Good.bind {α β : Type} {m : Ar → Option (α × Ar)} {k : α → Ar → Option (β × Ar)}
    (hm : Good m) (hk : ∀ x, Good (k x)) : Good (fun a => (m a).bind fun r => k r.1 r.2) := by
  constructor
  · intro a
    obtain ⟨y, a1, e1, b1, p1, q1, f1⟩ := hm.step a
    obtain ⟨z, a2, e2, b2, p2, q2, f2⟩ := (hk y).step a1
    refine ⟨z, a2, by simp [e1, e2], by rw [b2, b1], by omega, ?_, ?_⟩
    · intro h; rw [← b1]; exact q2 (by rw [b1]; exact q1 h)
    · intro h
      have := f1 h
      rw [this] at f2
      exact f2 h
  · intro a c z a2 hf hp hc he hf2
    obtain ⟨y, a1, e1, b1, p1, q1, f1⟩ := hm.step a
    rw [e1] at he
    simp only [Option.bind_some] at he
    obtain ⟨z', a2', e2, b2, p2, q2, f2⟩ := (hk y).step a1
    rw [he] at e2
    simp only [Option.some.injEq, Prod.mk.injEq] at e2
    obtain ⟨rfl, rfl⟩ := e2
    have hf1 : a1.failed = false := by
      rcases h : a1.failed with _ | _
      · rfl
      · rw [f2 h] at hf2; rw [h] at hf2; exact hf2
    have t1 := hm.trunc a c y a1 hf hp hc e1 hf1
    by_cases h1 : a1.pos ≤ c
    · rw [if_pos h1] at t1
      have t2 := (hk y).trunc a1 c z a2 hf1 h1 (by rw [b1]; exact hc) he hf2
      rw [b1] at t2
      split_ifs with h2
      · rw [if_pos h2] at t2
        simp only [t1, Option.bind_some, t2]
      · rw [if_neg h2] at t2
        simpa only [t1, Option.bind_some] using t2
    · rw [if_neg h1] at t1
      obtain ⟨w, b', e3, f3⟩ := t1
      rw [if_neg (by omega)]
      obtain ⟨u, b2', e4, -, -, -, f4⟩ := (hk w).step b'
      exact ⟨u, b2', by simp [e3, e4], by rw [f4 f3]; exact f3⟩

theorem Good.map {α β : Type} {m : Ar → Option (α × Ar)} (f : α → β) (hm : Good m) :
    Good (fun a => (m a).bind fun r => some (f r.1, r.2)) :=
  Good.bind (k := fun x a => some (f x, a)) hm (fun x => Good.pure (f x))

theorem Good.readBytes (n : Nat) (t : List UInt8) : Good (readBytes n t) := by
  constructor
  · intro a
    unfold Serial.readBytes
    by_cases h1 : a.failed
    · exact ⟨t, a, by simp [h1], rfl, Nat.le_refl _, id, fun _ => rfl⟩
    · by_cases h2 : a.pos + n > a.buf.length
      · exact ⟨t, { a with failed := true }, by simp [h1, h2], rfl, Nat.le_refl _, id,
          fun h => absurd h h1⟩
      · refine ⟨(a.buf.drop a.pos).take n, { a with pos := a.pos + n }, ?_, rfl, by simp,
          fun _ => by simp; omega, fun h => absurd h h1⟩
        rw [if_neg h1, if_neg h2, load_eq _ _ _ (by omega)]
        rfl
  · intro a c y a' hf hp hc he hf'
    unfold Serial.readBytes at he ⊢
    rw [if_neg (by simp [hf])] at he
    by_cases h2 : a.pos + n > a.buf.length
    · rw [if_pos h2] at he
      simp only [Option.some.injEq, Prod.mk.injEq] at he
      obtain ⟨-, rfl⟩ := he
      simp at hf'
    · rw [if_neg h2, load_eq _ _ _ (by omega)] at he
      simp only [Option.map_some, Option.some.injEq, Prod.mk.injEq] at he
      obtain ⟨rfl, rfl⟩ := he
      have hl : (a.buf.take c).length = c := by simp; omega
      split_ifs with h3 h4 h5 h6 h7
      · simp [hf] at h4
      · simp only [hl] at h5; simp at h3; omega
      · simp only at h3
        rw [load_eq _ _ _ (by rw [hl]; exact h3)]
        simp only [Option.map_some, Option.some.injEq, Prod.mk.injEq, and_true]
        rw [List.drop_take, List.take_take]
        congr 1; omega
      · simp [hf] at h6
      · exact ⟨_, _, rfl, rfl⟩
      · simp only [hl] at h7; simp at h3; omega

theorem Good.readEach {α : Type} {rd : α → Ar → Option (α × Ar)} (h : ∀ x, Good (rd x))
    (l : List α) : Good (readEach rd l) := by
  induction l with
  | nil => exact Good.pure []
  | cons x xs ih =>
    exact Good.bind (k := fun r a => (Serial.readEach rd xs a).bind fun rs => some (r :: rs.1, rs.2))
      (h x) (fun r => Good.map (fun l => r :: l) ih)

theorem Good.readFields {n : Nat} {β : Fin n → Type}
    {rd : (i : Fin n) → β i → Ar → Option (β i × Ar)} (h : ∀ i x, Good (rd i x))
    (is : List (Fin n)) (v : (i : Fin n) → β i) : Good (readFields rd is v) := by
  induction is generalizing v with
  | nil => exact Good.pure v
  | cons i is ih =>
    exact Good.bind (k := fun r a => Serial.readFields rd is (Function.update v i r) a)
      (h i (v i)) (fun r => ih _)

theorem unpackSet_some (set start : Nat) (v : List Bool) (j : Nat)
    (h : j = 0 ∨ start + j ≤ v.length) :
    ∃ w, unpackSet set start v j = some w ∧ w.length = v.length ∧
      ∀ i, w[i]? = if start ≤ i ∧ i < start + j then some (set.testBit (i - start)) else v[i]? := by
  induction j with
  | zero => exact ⟨v, rfl, rfl, fun i => by rw [if_neg (by omega)]⟩
  | succ j ih =>
    obtain ⟨w, hw, hl, hg⟩ := ih (by omega)
    have hlt : start + j < w.length := by omega
    refine ⟨w.set (start + j) (0 < set &&& (1 <<< j)), ?_, by simp [hl], ?_⟩
    · simp [unpackSet, hw, setAt, hlt]
    · intro i
      rw [List.getElem?_set]
      by_cases hi : start + j = i
      · subst hi
        rw [if_pos rfl, if_pos hlt, if_pos (by omega)]
        have e : (set &&& (1 <<< j)) = 2 ^ j * (set.testBit j).toNat := by
          rw [Nat.one_shiftLeft, Nat.and_two_pow]
          exact Nat.mul_comm _ _
        rw [e, Nat.add_sub_cancel_left]
        cases set.testBit j <;> simp [Nat.two_pow_pos]
      · rw [if_neg hi, hg i]
        by_cases h2 : start ≤ i ∧ i < start + j
        · rw [if_pos h2, if_pos (by omega)]
        · rw [if_neg h2, if_neg (by omega)]

theorem Good.unpackSets (junk : List UInt8) (size m i : Nat) (v : List Bool)
    (hv : v.length = size) : Good (unpackSets junk size m i v) := by
  induction m generalizing i v with
  | zero => exact Good.pure v
  | succ m ih =>
    have e : Serial.unpackSets junk size (m + 1) i v = fun a => (Serial.readBytes 4 junk a).bind
        fun r => (unpackSet (dec r.1) (i * 32) v (min (size - i * 32) 32)).bind
          fun v' => Serial.unpackSets junk size m (i + 1) v' r.2 := rfl
    rw [e]
    refine Good.bind (k := fun r a => (unpackSet (dec r) (i * 32) v (min (size - i * 32) 32)).bind
          fun v' => Serial.unpackSets junk size m (i + 1) v' a) (Good.readBytes 4 junk) ?_
    intro r
    obtain ⟨w, hw, hl, -⟩ := unpackSet_some (dec r) (i * 32) v (min (size - i * 32) 32) (by omega)
    simp only [hw, Option.bind_some]
    exact ih (i + 1) w (by omega)

theorem Good.readMap {α : Type} (kn : Nat) {rd : α → Ar → Option (α × Ar)}
    (h : ∀ x, Good (rd x)) (n : Nat) (k : List UInt8) (x : α) (m : List (List UInt8 × α)) :
    Good (readMap kn rd n k x m) := by
  induction n generalizing k x m with
  | zero => exact Good.pure m
  | succ n ih =>
    exact Good.bind (k := fun rk a => (rd x a).bind fun rx =>
        Serial.readMap kn rd n rk rx.1 (emplace rk rx.1 m) rx.2) (Good.readBytes kn k)
      (fun rk => Good.bind (k := fun rx a => Serial.readMap kn rd n rk rx (emplace rk rx m) a)
        (h x) (fun rx => ih _ _ _))

theorem resize_length {α : Type} (d : α) (n : Nat) (l : List α) : (resize d n l).length = n := by
  simp [resize]; omega

/-- Every reader of the engine is good. -/
theorem Good.read (junk : List UInt8) (t : Ty) (v : Val t) : Good (read junk t v) := by
  induction t with
  | scalar n => exact Good.readBytes n v
  | bool => exact Good.map (fun r => decide (r ≠ [0])) (Good.readBytes 1 _)
  | enum n => exact Good.readBytes n _
  | struct n f ih => exact Good.readFields (fun i x => ih i x) _ _
  | vec t ih =>
    exact Good.bind (k := fun r a => Serial.readEach (Serial.read junk t)
      (resize (dflt t) (dec r) v) a) (Good.readBytes 2 _) (fun r => Good.readEach ih _)
  | vecBool =>
    exact Good.bind (k := fun r a => Serial.unpackSets junk (dec r) (numSets (dec r)) 0
      (resize false (dec r) v) a) (Good.readBytes 2 _)
      (fun r => Good.unpackSets _ _ _ _ _ (resize_length _ _ _))
  | opt t ih =>
    refine Good.bind (k := fun (r1 : List UInt8) (a : Ar) => if r1 ≠ [0] then
          (Serial.read junk t (dflt t) a).bind fun x => some ((some x.1 : Option (Val t)), x.2)
        else some ((none : Option (Val t)), a)) (Good.readBytes 1 _) (fun r => ?_)
    by_cases h : r ≠ [0]
    · simp only [if_pos h]; exact Good.map (fun x => (some x : Option (Val t))) (ih _)
    · simp only [if_neg h]; exact Good.pure _
  | variant n f ih =>
    refine Good.bind (k := fun (r1 : List UInt8) (a : Ar) => if h : dec r1 < n + 1 then
          (Serial.read junk (f ⟨dec r1, h⟩) (dflt (f ⟨dec r1, h⟩)) a).bind fun x =>
            some ((⟨⟨dec r1, h⟩, x.1⟩ : Val (.variant n f)), x.2)
        else some (v, a)) (Good.readBytes 1 _) (fun r => ?_)
    by_cases h : dec r < n + 1
    · simp only [dif_pos h]
      exact Good.map (fun x => (⟨⟨dec r, h⟩, x⟩ : Val (.variant n f))) (ih _ _)
    · simp only [dif_neg h]; exact Good.pure _
  | map k t ih =>
    exact Good.bind (k := fun r a => Serial.readMap k (Serial.read junk t) (dec r)
      (List.replicate k 0) (dflt t) v a) (Good.readBytes 2 _)
      (fun r => Good.readMap k ih _ _ _ _)

end Edyn.Serial
