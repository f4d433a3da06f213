/-
Theorems about registry snapshots (property C25).

`snapshot_transfer_partial`: within the limits (256 entities, 255 entities and 65535 bytes per component)
exporting, sending and importing transfers exactly the exported components.
`entity_256_aliases_first`, `pool_of_256_reads_empty`: beyond the limits, which nothing checks, a
component is delivered to another entity, or nothing is delivered.
`hostile_component_index_undefined`, `hostile_entity_index_undefined`: indices in received data are
not checked.
-/
import Verif.Net.SnapshotModel
import Verif.Serial.Props
import Mathlib.Data.List.Perm.Subperm

namespace Edyn.Net.Snapshot
open Edyn.Serial

variable {ct : Nat → Ty}

/-! ### Wire format -/

/-- The limits a pool must respect. -/
structure PoolOk (nc : Nat) (p : Pool ct) : Prop where
  comp : p.comp < nc
  same : p.idx.length = p.vals.length
  count : p.idx.length ≤ 255
  idx : ∀ i ∈ p.idx, i < 256
  vals : ∀ v ∈ p.vals, Ok (ct p.comp) v
  size : ∀ d, writeData p = some d → d.length ≤ 65535

/-- The limits a snapshot must respect. -/
structure SnapOk (nc : Nat) (s : Snap ct) : Prop where
  stamp : s.stamp.length = 8
  ents : s.entities.length ≤ 65535 ∧ ∀ e ∈ s.entities, e < 2 ^ 32
  pools : s.pools.length ≤ 65535 ∧ ∀ p ∈ s.pools, PoolOk nc p

theorem enc_length (n x : Nat) : (enc n x).length = n := by
  induction n generalizing x with
  | zero => rfl
  | succ n ih => simp [enc, ih]

theorem readEach_bytes (l : List Nat) (h : ∀ x ∈ l, x < 256) (a : Ar)
    (ha : At a (l.map (enc 1)).flatten) (n : Nat) (hn : n = l.length) :
    readEach (readBytes 1) (List.replicate n [0]) a =
      some (l.map (enc 1), adv a (l.map (enc 1)).flatten.length) := by
  subst hn
  induction l generalizing a with
  | nil => simp [readEach]
  | cons x xs ih =>
    simp only [List.map_cons, List.flatten_cons] at ha ⊢
    have e1 := readBytes_at [0] ha.left (enc_length 1 x)
    have e2 := ih (fun y hy => h y (by simp [hy])) _ ha.right
    simp only [List.length_cons, List.replicate_succ, readEach, e1, Option.bind_eq_bind,
      Option.bind_some, e2, adv_adv, List.length_append]

theorem map_dec_enc (n : Nat) (l : List Nat) (h : ∀ x ∈ l, x < 256 ^ n) :
    (l.map (enc n)).map dec = l := by
  induction l with
  | nil => rfl
  | cons x xs ih =>
    simp only [List.map_cons, dec_enc n x (h x (by simp)), ih fun y hy => h y (by simp [hy])]

theorem readData_written (nc : Nat) (junk : List UInt8) (p : Pool ct) (hp : PoolOk nc p) :
    ∃ d, writeData p = some d ∧ readData nc junk p.comp d = some p := by
  obtain ⟨cs, hc⟩ := catM_some (fun x => write_defined (ct p.comp) x) p.vals
  refine ⟨(([enc 1 p.idx.length] ++ p.idx.map (enc 1)) ++ cs).flatten, by
    simp only [writeData, hc, Option.map_some], ?_⟩
  generalize hd : (([enc 1 p.idx.length] ++ p.idx.map (enc 1)) ++ cs).flatten = d
  have ha : At ⟨d, 0, false⟩ (enc 1 p.idx.length ++ ((p.idx.map (enc 1)).flatten ++ cs.flatten)) :=
    ⟨rfl, Nat.zero_le _, [], by rw [← hd]; simp⟩
  have e1 := readBytes_at [0] ha.left (enc_length 1 _)
  have hn : dec (enc 1 p.idx.length) = p.idx.length := dec_enc 1 _ (by have := hp.count; omega)
  have e2 := readEach_bytes p.idx hp.idx _ ha.right.left p.idx.length rfl
  have e3 := readEach_at (write (ct p.comp)) (read junk (ct p.comp)) (Clean (ct p.comp)) p.vals
    (fun x hx cs hcs t0 h0 a ha => read_at junk _ x (hp.vals x hx) cs hcs t0 h0 a ha)
    (List.replicate p.idx.length (dflt (ct p.comp)))
    (fun t ht => by rw [List.eq_of_mem_replicate ht]; exact clean_dflt _)
    (by simp [hp.same]) cs hc _ ha.right.right
  simp only [readData, hp.comp, if_true, e1, Option.bind_eq_bind, Option.bind_some, hn, e2, e3,
    map_dec_enc 1 p.idx (fun x hx => by simpa using hp.idx x hx)]

theorem ofData_toData (d : List UInt8) : ofData (toData d) = d := by
  show (d.map fun b => [b]).flatten = d
  induction d with
  | nil => rfl
  | cons x xs ih => simp [ih]

theorem ok_toData (d : List UInt8) (h : d.length ≤ 65535) : Ok dataTy (toData d) := by
  refine ⟨?_, ?_⟩
  · show (d.map fun b => [b]).length ≤ 65535
    rw [List.length_map]; exact h
  · intro x hx
    obtain ⟨b, -, rfl⟩ := List.mem_map.mp hx
    rfl

theorem ofEnts_toEnts (l : List Nat) (h : ∀ e ∈ l, e < 2 ^ 32) : ofEnts (toEnts l) = l :=
  map_dec_enc 4 _ (fun e he => by have := h e he; omega)

theorem ok_toEnts (l : List Nat) (h : l.length ≤ 65535) : Ok entsTy (toEnts l) := by
  refine ⟨?_, ?_⟩
  · show (l.map (enc 4)).length ≤ 65535
    rw [List.length_map]; exact h
  · intro x hx
    obtain ⟨b, -, rfl⟩ := List.mem_map.mp hx
    exact enc_length 4 b

theorem readPool_at (nc : Nat) (junk : List UInt8) (hnc : nc ≤ 65536) (p : Pool ct)
    (hp : PoolOk nc p) (cs : List (List UInt8)) (hc : writePool p = some cs) (t0 : Pool ct) (a : Ar)
    (ha : At a cs.flatten) : readPool nc junk t0 a = some (p, adv a cs.flatten.length) := by
  obtain ⟨d, hd, hr⟩ := readData_written nc junk p hp
  simp only [writePool, hd, Option.bind_some] at hc
  obtain ⟨ws, hw⟩ := write_defined dataTy (toData d)
  rw [hw] at hc
  simp only [Option.map_some, Option.some.injEq] at hc
  subst hc
  rw [List.flatten_append] at ha
  have ha1 := ha.left
  have ha2 := ha.right
  simp only [List.flatten_cons, List.flatten_nil, List.append_nil] at ha1 ha2
  have e1 := readBytes_at [0, 0] ha1 (enc_length 2 _)
  have hok := ok_toData d (hp.size d hd)
  have e2 := read_at junk dataTy _ hok ws hw (dflt _) (clean_dflt _) _ ha2
  have hcc : dec (enc 2 p.comp) = p.comp := dec_enc 2 _ (by have := hp.comp; omega)
  unfold readPool
  simp only [e1, Option.bind_eq_bind, Option.bind_some, e2, hcc]
  rw [ofData_toData, hr]
  simp [Nat.add_comm]

theorem writePool_defined (p : Pool ct) : ∃ cs, writePool p = some cs := by
  obtain ⟨cs, hc⟩ := catM_some (fun x => write_defined (ct p.comp) x) p.vals
  obtain ⟨ws, hw⟩ := write_defined dataTy
    (toData (([enc 1 p.idx.length] ++ p.idx.map (enc 1)) ++ cs).flatten)
  exact ⟨[enc 2 p.comp] ++ ws, by simp only [writePool, writeData, hc, Option.map_some,
    Option.bind_some, hw]⟩

/-- A snapshot within the limits reads back exactly, wherever it is embedded. -/
theorem wire_round_trip (nc : Nat) (hnc : nc ≤ 65536) (junk : List UInt8) (s : Snap ct)
    (hs : SnapOk nc s) (before behind : List UInt8) :
    ∃ cs, writeSnap s = some cs ∧
      readSnap nc junk ⟨before ++ bytes cs ++ behind, before.length, false⟩ =
        some (s, ⟨before ++ bytes cs ++ behind, before.length + (bytes cs).length, false⟩) := by
  obtain ⟨es, he⟩ := write_defined entsTy (toEnts s.entities)
  obtain ⟨ps, hp⟩ := catM_some (fun x => writePool_defined x) s.pools
  have hmin : min s.pools.length maxSize = s.pools.length := Nat.min_eq_left hs.pools.1
  refine ⟨[s.stamp] ++ es ++ [enc 2 s.pools.length] ++ ps, by
    simp only [writeSnap, he, Option.bind_some, hmin, List.take_length, hp, Option.map_some], ?_⟩
  generalize hb : before ++ bytes ([s.stamp] ++ es ++ [enc 2 s.pools.length] ++ ps) ++ behind = buf
  have ha : At ⟨buf, before.length, false⟩
      (s.stamp ++ (es.flatten ++ (enc 2 s.pools.length ++ ps.flatten))) :=
    ⟨rfl, by simp [← hb], behind, by simp [← hb, bytes]⟩
  have e1 := readBytes_at (List.replicate 8 0) ha.left hs.stamp
  have hok := ok_toEnts s.entities hs.ents.1
  have e2 := read_at junk entsTy _ hok es he (dflt _) (clean_dflt _) _ ha.right.left
  have e3 := readBytes_at (enc 2 0) ha.right.right.left (enc_length 2 _)
  have e4 := readEach_at writePool (readPool nc junk) (fun _ => True) s.pools
    (fun x hx cs hcs t0 _ a ha => readPool_at nc junk hnc x (hs.pools.2 x hx) cs hcs t0 a ha)
    (List.replicate s.pools.length ⟨0, [], []⟩) (fun _ _ => trivial) (by simp) ps hp _
    ha.right.right.right
  have hn : dec (enc 2 s.pools.length) = s.pools.length := dec_enc2 _ hs.pools.1
  unfold readSnap
  simp only [e1, Option.bind_eq_bind, Option.bind_some, e2, e3, hn, e4]
  rw [ofEnts_toEnts _ hs.ents.2]
  simp only [adv, bytes, List.flatten_append, List.length_append, List.flatten_cons,
    List.flatten_nil, List.append_nil, Nat.add_assoc]

/-! ### Export -/

/-- `s` holds exactly the components `qs` of `reg`, in order of insertion within each pool. -/
structure Holds (reg : Reg ct) (qs : List (Nat × Nat)) (s : Snap ct) : Prop where
  ents : ∀ e ∈ s.entities, ∃ q ∈ qs, q.1 = e
  entsNodup : s.entities.Nodup
  comps : (s.pools.map (·.comp)).Nodup
  pool : ∀ p ∈ s.pools,
    p.vals.map some = (qs.filter (·.2 = p.comp)).map (fun q => reg q.1 p.comp) ∧
    p.idx.map (s.entities[·]?) = (qs.filter (·.2 = p.comp)).map (fun q => some q.1)
  nonempty : ∀ p ∈ s.pools, ∃ q ∈ qs, q.2 = p.comp
  all : ∀ q ∈ qs, ∃ p ∈ s.pools, p.comp = q.2

theorem entityIndex_spec (e : Nat) (ents : List Nat) (hn : ents.Nodup)
    (hl : (entityIndex e ents).2.length ≤ 256) :
    (entityIndex e ents).2.Nodup ∧ (entityIndex e ents).2[(entityIndex e ents).1]? = some e ∧
      (∃ t, (entityIndex e ents).2 = ents ++ t) ∧
      ∀ x, x ∈ (entityIndex e ents).2 ↔ x ∈ ents ∨ x = e := by
  unfold entityIndex at hl ⊢
  rcases h : ents.findIdx? (· = e) with _ | i
  · rw [h] at hl
    simp only [List.length_append, List.length_cons, List.length_nil] at hl
    have hne : e ∉ ents := by
      intro hm
      have := List.findIdx?_eq_none_iff.mp h e hm
      simp at this
    refine ⟨?_, ?_, ⟨[e], rfl⟩, ?_⟩
    · exact List.nodup_append.mpr ⟨hn, by simp, by
        intro a ha b hb
        simp only [List.mem_cons, List.not_mem_nil, or_false] at hb
        subst hb
        exact fun h => hne (h ▸ ha)⟩
    · rw [Nat.mod_eq_of_lt (by omega)]; simp
    · intro x; simp
  · rw [h] at hl
    simp only at hl
    obtain ⟨h1, h2, -⟩ := List.findIdx?_eq_some_iff_getElem.mp h
    simp only [decide_eq_true_eq] at h2
    refine ⟨hn, ?_, ⟨[], by simp⟩, ?_⟩
    · simp only
      rw [Nat.mod_eq_of_lt (by omega), List.getElem?_eq_getElem h1, h2]
    · intro x
      constructor
      · exact Or.inl
      · rintro (h | rfl)
        · exact h
        · rw [← h2]; exact List.getElem_mem h1

theorem getElem?_ext_append {l t : List Nat} {is : List Nat} {qs : List (Option Nat)}
    (h : is.map (l[·]?) = qs) (hq : ∀ q ∈ qs, q ≠ none) : is.map ((l ++ t)[·]?) = qs := by
  subst h
  apply List.map_congr_left
  intro i hi
  have := hq (l[i]?) (List.mem_map.mpr ⟨i, hi, rfl⟩)
  rcases e : l[i]? with _ | x
  · exact absurd e this
  · have h1 := (List.getElem?_eq_some_iff.mp e).1
    rw [List.getElem?_append_left h1, e]

theorem insertPool_spec (reg : Reg ct) (qs : List (Nat × Nat)) (ents t : List Nat) (e c i : Nat)
    (v : Val (ct c)) (hv : reg e c = some v) (hi : (ents ++ t)[i]? = some e) (ps : List (Pool ct))
    (hp : ∀ p ∈ ps,
      p.vals.map some = (qs.filter (·.2 = p.comp)).map (fun q => reg q.1 p.comp) ∧
      p.idx.map (ents[·]?) = (qs.filter (·.2 = p.comp)).map (fun q => some q.1))
    (hn : (ps.map (·.comp)).Nodup)
    (hnew : c ∉ ps.map (·.comp) → qs.filter (·.2 = c) = []) :
    (∀ p ∈ insertPool c i v ps,
      p.vals.map some = ((qs ++ [(e, c)]).filter (·.2 = p.comp)).map (fun q => reg q.1 p.comp) ∧
      p.idx.map ((ents ++ t)[·]?) = ((qs ++ [(e, c)]).filter (·.2 = p.comp)).map
        (fun q => some q.1)) ∧
    (∀ c', c' ∈ (insertPool c i v ps).map (·.comp) ↔ c' ∈ ps.map (·.comp) ∨ c' = c) ∧
    ((insertPool c i v ps).map (·.comp)).Nodup := by
  have ext : ∀ p ∈ ps, p.idx.map ((ents ++ t)[·]?) =
      (qs.filter (·.2 = p.comp)).map (fun q => some q.1) := fun p hp' =>
    getElem?_ext_append (hp p hp').2 (by
      intro q hq
      obtain ⟨q', -, rfl⟩ := List.mem_map.mp hq
      simp)
  have old : ∀ p ∈ ps, p.comp ≠ c →
      p.vals.map some = ((qs ++ [(e, c)]).filter (·.2 = p.comp)).map (fun q => reg q.1 p.comp) ∧
      p.idx.map ((ents ++ t)[·]?) = ((qs ++ [(e, c)]).filter (·.2 = p.comp)).map
        (fun q => some q.1) := by
    intro p hp' hne
    have : (qs ++ [(e, c)]).filter (·.2 = p.comp) = qs.filter (·.2 = p.comp) := by
      rw [List.filter_append]
      simp [Ne.symm hne]
    rw [this]
    exact ⟨(hp p hp').1, ext p hp'⟩
  induction ps with
  | nil =>
    have h0 := hnew (by simp)
    refine ⟨?_, ?_, ?_⟩
    · intro p hp'
      simp only [insertPool, List.mem_cons, List.not_mem_nil, or_false] at hp'
      subst hp'
      simp only [List.filter_append, h0]
      simp [hv, hi]
    · simp [insertPool]
    · simp [insertPool]
  | cons p ps ih =>
    by_cases hpc : p.comp = c
    · subst hpc
      have hne : ∀ p' ∈ ps, p'.comp ≠ p.comp := by
        intro p' hp' h
        simp only [List.map_cons, List.nodup_cons] at hn
        exact hn.1 (List.mem_map.mpr ⟨p', hp', h⟩)
      have e0 : insertPool p.comp i v (p :: ps) =
          ⟨p.comp, p.idx ++ [i], p.vals ++ [v]⟩ :: ps := by simp [insertPool]
      rw [e0]
      refine ⟨?_, ?_, ?_⟩
      · intro p' hp'
        rcases List.mem_cons.mp hp' with rfl | hp'
        · simp only [List.filter_append, List.map_append, (hp p (by simp)).1, ext p (by simp)]
          simp [hv, hi]
        · exact old p' (by simp [hp']) (hne p' hp')
      · intro c'
        simp only [List.map_cons, List.mem_cons]
        constructor
        · exact Or.inl
        · rintro (h | rfl)
          · exact h
          · simp
      · exact hn
    · have e0 : insertPool c i v (p :: ps) = p :: insertPool c i v ps := by simp [insertPool, hpc]
      rw [e0]
      simp only [List.map_cons, List.nodup_cons] at hn
      obtain ⟨i1, i2, i3⟩ := ih (fun p' h => hp p' (by simp [h])) hn.2 (fun h => hnew (by
        simp only [List.map_cons, List.mem_cons, not_or]
        exact ⟨Ne.symm hpc, h⟩)) (fun p' h => ext p' (by simp [h]))
        (fun p' h => old p' (by simp [h]))
      refine ⟨?_, ?_, ?_⟩
      · intro p' hp'
        rcases List.mem_cons.mp hp' with rfl | hp'
        · exact old p' (by simp) hpc
        · exact i1 p' hp'
      · intro c'
        simp only [List.map_cons, List.mem_cons, i2]
        tauto
      · simp only [List.map_cons, List.nodup_cons]
        refine ⟨?_, i3⟩
        rw [i2]
        rintro (h | h)
        · exact hn.1 h
        · exact hpc h

theorem insertEntity_holds (networked : Nat → Bool) (reg : Reg ct) (qs : List (Nat × Nat))
    (s s' : Snap ct) (q : Nat × Nat) (h : Holds reg qs s)
    (he : insertEntity networked reg s q = some s') (hl : s'.entities.length ≤ 256) :
    Holds reg (qs ++ [q]) s' ∧ s'.stamp = s.stamp := by
  unfold insertEntity at he
  by_cases hnet : networked q.1
  · simp only [hnet, if_true] at he
    rcases hv : reg q.1 q.2 with _ | v
    · simp [hv] at he
    · simp only [hv, Option.map_some, Option.some.injEq] at he
      subst he
      simp only at hl
      obtain ⟨n1, n2, ⟨t, n3⟩, n4⟩ := entityIndex_spec q.1 s.entities h.entsNodup hl
      rw [n3] at n2
      obtain ⟨i1, i2, i3⟩ := insertPool_spec reg qs s.entities t q.1 q.2
        (entityIndex q.1 s.entities).1 v hv n2 s.pools h.pool h.comps (by
          intro hc
          rw [List.filter_eq_nil_iff]
          intro q' hq' hqc
          obtain ⟨p, hp, hpc⟩ := h.all q' hq'
          exact hc (List.mem_map.mpr ⟨p, hp, hpc.trans (by simpa using hqc)⟩))
      refine ⟨⟨?_, n1, i3, ?_, ?_, ?_⟩, rfl⟩
      · intro e he
        rcases (n4 e).mp he with he | rfl
        · obtain ⟨q', hq', rfl⟩ := h.ents e he
          exact ⟨q', by simp [hq'], rfl⟩
        · exact ⟨q, by simp, rfl⟩
      · rw [n3]; exact i1
      · intro p hp
        have : p.comp ∈ (insertPool q.2 (entityIndex q.1 s.entities).1 v s.pools).map (·.comp) :=
          List.mem_map.mpr ⟨p, hp, rfl⟩
        rcases (i2 _).mp this with hc | hc
        · obtain ⟨p', hp', hpc⟩ := List.mem_map.mp hc
          obtain ⟨q', hq', hqc⟩ := h.nonempty p' hp'
          exact ⟨q', by simp [hq'], hqc.trans hpc⟩
        · exact ⟨q, by simp, hc.symm⟩
      · intro q' hq'
        have : q'.2 ∈ (insertPool q.2 (entityIndex q.1 s.entities).1 v s.pools).map (·.comp) := by
          rw [i2]
          rcases List.mem_append.mp hq' with hq' | hq'
          · obtain ⟨p, hp, hpc⟩ := h.all q' hq'
            exact Or.inl (List.mem_map.mpr ⟨p, hp, hpc⟩)
          · simp only [List.mem_cons, List.not_mem_nil, or_false] at hq'
            exact Or.inr (by rw [hq'])
        obtain ⟨p, hp, hpc⟩ := List.mem_map.mp this
        exact ⟨p, hp, hpc⟩
  · simp [hnet] at he

theorem entityIndex_mono (e : Nat) (ents : List Nat) :
    ∃ t, (entityIndex e ents).2 = ents ++ t := by
  unfold entityIndex
  rcases ents.findIdx? (· = e) with _ | i
  · exact ⟨[e], rfl⟩
  · exact ⟨[], by simp⟩

theorem entityIndex_mem (e : Nat) (ents : List Nat) (x : Nat) (hx : x ∈ (entityIndex e ents).2) :
    x ∈ ents ∨ x = e := by
  unfold entityIndex at hx
  rcases h : ents.findIdx? (· = e) with _ | i
  · rw [h] at hx
    simpa using hx
  · rw [h] at hx
    exact Or.inl hx

theorem entityIndex_nodup (e : Nat) (ents : List Nat) (hn : ents.Nodup) :
    (entityIndex e ents).2.Nodup := by
  unfold entityIndex
  rcases h : ents.findIdx? (· = e) with _ | i
  · have hne : e ∉ ents := by
      intro hm
      have := List.findIdx?_eq_none_iff.mp h e hm
      simp at this
    simp only
    exact List.nodup_append.mpr ⟨hn, by simp, by
      intro a ha b hb
      simp only [List.mem_cons, List.not_mem_nil, or_false] at hb
      subst hb
      exact fun h => hne (h ▸ ha)⟩
  · exact hn

/-- Exporting any list of existing components of networked entities is defined, and if the
entities are at most 256 the snapshot holds exactly these components. -/
theorem insertAll_holds (networked : Nat → Bool) (reg : Reg ct) (E : List Nat) (hE : E.length ≤ 256)
    (qs done : List (Nat × Nat)) (s : Snap ct) (h : Holds reg done s)
    (hd : ∀ q ∈ done, q.1 ∈ E)
    (hq : ∀ q ∈ qs, q.1 ∈ E ∧ networked q.1 = true ∧ (reg q.1 q.2).isSome) :
    ∃ s', insertAll networked reg s qs = some s' ∧ Holds reg (done ++ qs) s' ∧
      s'.stamp = s.stamp ∧ s'.entities.length ≤ 256 := by
  have bound : ∀ (d : List (Nat × Nat)) (s : Snap ct), (∀ q ∈ d, q.1 ∈ E) → s.entities.Nodup →
      (∀ e ∈ s.entities, ∃ q ∈ d, q.1 = e) → s.entities.length ≤ 256 := by
    intro d s hd hn hs
    have hsub : s.entities ⊆ E := by
      intro e he
      obtain ⟨q, hq, rfl⟩ := hs e he
      exact hd q hq
    exact Nat.le_trans (List.subperm_of_subset hn hsub).length_le hE
  induction qs generalizing done s with
  | nil => exact ⟨s, rfl, by simpa using h, rfl, bound done s hd h.entsNodup h.ents⟩
  | cons q qs ih =>
    obtain ⟨hqE, hqn, hqv⟩ := hq q (by simp)
    obtain ⟨v, hv⟩ := Option.isSome_iff_exists.mp hqv
    obtain ⟨s1, hs1⟩ : ∃ s1, insertEntity networked reg s q = some s1 := by
      unfold insertEntity
      exact ⟨_, by rw [if_pos hqn, hv, Option.map_some]⟩
    have hd1 : ∀ q' ∈ done ++ [q], q'.1 ∈ E := by
      intro q' hq'
      rcases List.mem_append.mp hq' with h | h
      · exact hd q' h
      · simp only [List.mem_cons, List.not_mem_nil, or_false] at h
        rw [h]; exact hqE
    have hents : s1.entities = (entityIndex q.1 s.entities).2 := by
      unfold insertEntity at hs1
      rw [if_pos hqn, hv, Option.map_some] at hs1
      rw [← Option.some.inj hs1]
    have hl1 : s1.entities.length ≤ 256 := by
      apply bound (done ++ [q]) s1 hd1
      · rw [hents]; exact entityIndex_nodup _ _ h.entsNodup
      · intro e he
        rw [hents] at he
        rcases entityIndex_mem _ _ _ he with he | rfl
        · obtain ⟨q', hq', rfl⟩ := h.ents e he
          exact ⟨q', by simp [hq'], rfl⟩
        · exact ⟨q, by simp, rfl⟩
    obtain ⟨hh, hst⟩ := insertEntity_holds networked reg done s s1 q h hs1 hl1
    obtain ⟨s', e1, e2, e3, e4⟩ := ih (done ++ [q]) s1 hh hd1 (fun q' hq' => hq q' (by simp [hq']))
    refine ⟨s', ?_, ?_, e3.trans hst, e4⟩
    · simp only [insertAll, hs1, Option.bind_some, e1]
    · simpa using e2

/-! ### Import -/

/-- Effect of delivering the value `v` of component `c` of remote entity `e`. -/
def deliver (im : Importer ct) (reg : Reg ct) (e c : Nat) (v : Val (ct c)) : Reg ct :=
  match im.emap e with
  | none => reg
  | some l =>
    if im.valid l then
      match reg l c with
      | some cur => setComp reg l c (im.merge c cur (im.mapChild c v))
      | none => if im.create then setComp reg l c (im.mapChild c v) else reg
    else reg

/-- The content of a local component after delivery of a remote value `v`, where `old` is what was
there before. -/
def updated (im : Importer ct) (l c : Nat) (v : Val (ct c)) (old : Option (Val (ct c))) :
    Option (Val (ct c)) :=
  if im.valid l then
    match old with
    | some cur => some (im.merge c cur (im.mapChild c v))
    | none => if im.create then some (im.mapChild c v) else none
  else old

theorem setComp_same (reg : Reg ct) (l c : Nat) (v : Val (ct c)) :
    setComp reg l c v l c = some v := by simp [setComp]

theorem setComp_other (reg : Reg ct) (l c l' c' : Nat) (v : Val (ct c))
    (h : ¬ (l' = l ∧ c' = c)) : setComp reg l c v l' c' = reg l' c' := by
  simp only [setComp, dif_neg h]

theorem deliver_same (im : Importer ct) (reg : Reg ct) (e c l : Nat) (v : Val (ct c))
    (h : im.emap e = some l) : deliver im reg e c v l c = updated im l c v (reg l c) := by
  unfold deliver updated
  rw [h]
  by_cases hv : im.valid l
  · simp only [hv, if_true]
    rcases hr : reg l c with _ | cur
    · simp only
      by_cases hc : im.create
      · simp only [hc, if_true, setComp_same]
      · simp [hc, hr]
    · simp only [setComp_same]
  · simp [hv]

theorem deliver_other (im : Importer ct) (reg : Reg ct) (e c l c' : Nat) (v : Val (ct c))
    (h : c' = c → im.emap e ≠ some l) : deliver im reg e c v l c' = reg l c' := by
  unfold deliver
  rcases he : im.emap e with _ | l0
  · rfl
  · simp only
    have hne : ¬ (l = l0 ∧ c' = c) := fun hh => h hh.2 (by rw [he, hh.1])
    by_cases hv : im.valid l0
    · simp only [hv, if_true]
      rcases hr : reg l0 c with _ | cur
      · simp only
        by_cases hc : im.create
        · simp only [hc, if_true, setComp_other _ _ _ _ _ _ hne]
        · simp [hc]
      · simp only [setComp_other _ _ _ _ _ _ hne]
    · simp [hv]

/-- Delivery of a list of components of `src`. -/
def deliverAll (im : Importer ct) (src : Reg ct) : Reg ct → List (Nat × Nat) → Reg ct
  | r, [] => r
  | r, q :: qs =>
    deliverAll im src
      (match src q.1 q.2 with | some v => deliver im r q.1 q.2 v | none => r) qs

theorem deliverAll_append (im : Importer ct) (src : Reg ct) (r : Reg ct) (a b : List (Nat × Nat)) :
    deliverAll im src r (a ++ b) = deliverAll im src (deliverAll im src r a) b := by
  induction a generalizing r with
  | nil => rfl
  | cons q qs ih => simp only [List.cons_append, deliverAll, ih]

theorem deliverAll_other (im : Importer ct) (src : Reg ct) (qs : List (Nat × Nat)) (r : Reg ct)
    (l c : Nat) (h : ∀ q ∈ qs, q.2 = c → im.emap q.1 ≠ some l) :
    deliverAll im src r qs l c = r l c := by
  induction qs generalizing r with
  | nil => rfl
  | cons q qs ih =>
    simp only [deliverAll]
    rw [ih _ (fun q' hq' => h q' (by simp [hq']))]
    rcases src q.1 q.2 with _ | v
    · rfl
    · exact deliver_other im r q.1 q.2 l c v (fun hc => h q (by simp) hc.symm)

theorem deliverAll_same (im : Importer ct) (src : Reg ct) (qs : List (Nat × Nat)) (hn : qs.Nodup)
    (hinj : ∀ e e' l, im.emap e = some l → im.emap e' = some l → e = e') (r : Reg ct)
    (e l c : Nat) (hq : (e, c) ∈ qs) (hl : im.emap e = some l) (v : Val (ct c))
    (hv : src e c = some v) : deliverAll im src r qs l c = updated im l c v (r l c) := by
  induction qs generalizing r with
  | nil => simp at hq
  | cons q qs ih =>
    simp only [List.nodup_cons] at hn
    simp only [deliverAll]
    rcases List.mem_cons.mp hq with rfl | hq
    · rw [deliverAll_other im src qs _ l c]
      · simp only [hv]
        exact deliver_same im r e c l v hl
      · intro q' hq' hc hm
        have : q' = (e, c) := Prod.ext (hinj _ _ _ hm hl) hc
        exact hn.1 (this ▸ hq')
    · rw [ih hn.2 _ hq]
      congr 1
      rcases hs : src q.1 q.2 with _ | w
      · rfl
      · refine deliver_other im r q.1 q.2 l c w (fun hc hm => ?_)
        have : q = (e, c) := Prod.ext (hinj _ _ _ hm hl) hc.symm
        exact hn.1 (this ▸ hq)

theorem importOne_eq (im : Importer ct) (ents : List Nat) (c : Nat) (reg : Reg ct) (i e : Nat)
    (v : Val (ct c)) (h : ents[i]? = some e) :
    importOne im ents c reg (i, v) = some (deliver im reg e c v) := by
  simp only [importOne, h, Option.map_some, deliver]
  rfl

theorem importPool_eq (im : Importer ct) (src : Reg ct) (ents : List Nat) (p : Pool ct)
    (F : List (Nat × Nat)) (hF : ∀ q ∈ F, q.2 = p.comp)
    (h1 : p.vals.map some = F.map (fun q => src q.1 p.comp))
    (h2 : p.idx.map (ents[·]?) = F.map (fun q => some q.1)) (r : Reg ct) :
    importPool im ents p r = some (deliverAll im src r F) := by
  obtain ⟨c, is, vs⟩ := p
  simp only at h1 h2 hF
  have hl1 := congrArg List.length h1
  have hl2 := congrArg List.length h2
  simp only [List.length_map] at hl1 hl2
  have hl : is.length = vs.length := hl2.trans hl1.symm
  simp only [importPool, hl, if_true]
  clear hl hl1 hl2
  induction F generalizing is vs r with
  | nil =>
    simp only [List.map_nil, List.map_eq_nil_iff] at h1 h2
    subst h1; subst h2
    rfl
  | cons q qs ih =>
    rcases is with _ | ⟨i, is⟩
    · simp at h2
    · rcases vs with _ | ⟨v, vs⟩
      · simp at h1
      · simp only [List.map_cons, List.cons.injEq] at h1 h2
        obtain ⟨e, d⟩ := q
        obtain rfl : d = c := hF (e, d) (by simp)
        simp only [List.zip_cons_cons, List.foldlM_cons, deliverAll,
          importOne_eq im ents d r i e v h2.1, ← h1.1, Option.bind_eq_bind, Option.bind_some]
        exact ih _ is vs (fun q hq => hF q (by simp [hq])) h1.2 h2.2

theorem importPools_eq (im : Importer ct) (src : Reg ct) (qs : List (Nat × Nat)) (ents : List Nat)
    (ps : List (Pool ct))
    (hp : ∀ p ∈ ps,
      p.vals.map some = (qs.filter (·.2 = p.comp)).map (fun q => src q.1 p.comp) ∧
      p.idx.map (ents[·]?) = (qs.filter (·.2 = p.comp)).map (fun q => some q.1)) (r : Reg ct) :
    ps.foldlM (fun r p => importPool im ents p r) r =
      some (deliverAll im src r (ps.flatMap fun p => qs.filter (·.2 = p.comp))) := by
  induction ps generalizing r with
  | nil => rfl
  | cons p ps ih =>
    have e1 := importPool_eq im src ents p (qs.filter (·.2 = p.comp)) (fun q hq => by
      simpa using (List.mem_filter.mp hq).2) (hp p (by simp)).1 (hp p (by simp)).2 r
    simp only [List.foldlM_cons, e1, Option.bind_eq_bind, Option.bind_some, List.flatMap_cons,
      deliverAll_append]
    exact ih (fun p' hp' => hp p' (by simp [hp'])) _

theorem flatMap_filter_nodup (qs : List (Nat × Nat)) (hq : qs.Nodup) (ps : List (Pool ct))
    (hn : (ps.map (·.comp)).Nodup) : (ps.flatMap fun p => qs.filter (·.2 = p.comp)).Nodup := by
  induction ps with
  | nil => simp
  | cons p ps ih =>
    simp only [List.map_cons, List.nodup_cons] at hn
    rw [List.flatMap_cons, List.nodup_append]
    refine ⟨hq.filter _, ih hn.2, ?_⟩
    rintro a ha b hb rfl
    obtain ⟨p', hp', hb⟩ := List.mem_flatMap.mp hb
    have h1 : a.2 = p.comp := by simpa using (List.mem_filter.mp ha).2
    have h2 : a.2 = p'.comp := by simpa using (List.mem_filter.mp hb).2
    exact hn.1 (List.mem_map.mpr ⟨p', hp', h2.symm.trans h1⟩)

/-! ### Main theorem -/

/-- Number of bytes of a component on the wire. -/
def wireSize (c : Nat) (o : Option (Val (ct c))) : Nat :=
  match o with
  | some v => match write (ct c) v with
    | some cs => (bytes cs).length
    | none => 0
  | none => 0

/-- What can be exported in one snapshot: existing components of networked entities, each at most
once, of at most 256 entities, and for each component type at most 255 entities and 65535 bytes of
data (counting one byte for the number of entities and one for each). -/
structure Exportable (nc : Nat) (networked : Nat → Bool) (src : Reg ct) (qs : List (Nat × Nat)) :
    Prop where
  nodup : qs.Nodup
  exists_ : ∀ q ∈ qs, networked q.1 = true ∧ q.2 < nc ∧ q.1 < 2 ^ 32 ∧
    ∃ v, src q.1 q.2 = some v ∧ Ok (ct q.2) v
  entities : ∃ E : List Nat, E.length ≤ 256 ∧ ∀ q ∈ qs, q.1 ∈ E
  perComp : ∀ c, (qs.filter (·.2 = c)).length ≤ 255 ∧
    1 + (qs.filter (·.2 = c)).length +
      ((qs.filter (·.2 = c)).map fun q => wireSize c (src q.1 c)).sum ≤ 65535

theorem catM_sum (c : Nat) (vs : List (Val (ct c))) (cs : List (List UInt8))
    (h : catM (write (ct c)) vs = some cs) :
    cs.flatten.length = ((vs.map some).map (wireSize c)).sum := by
  induction vs generalizing cs with
  | nil =>
    simp only [catM, Option.some.injEq] at h
    subst h; rfl
  | cons v vs ih =>
    obtain ⟨a, ha⟩ := write_defined (ct c) v
    obtain ⟨b, hb⟩ := catM_some (fun x => write_defined (ct c) x) vs
    simp only [catM, ha, hb, Option.bind_eq_bind, Option.bind_some, Option.some.injEq] at h
    subst h
    simp only [List.flatten_append, List.length_append, List.map_cons, List.sum_cons, ← ih b hb]
    simp only [wireSize, ha, bytes]

theorem snapOk_of_holds (nc : Nat) (hnc : nc ≤ 65535) (networked : Nat → Bool) (src : Reg ct)
    (qs : List (Nat × Nat)) (hx : Exportable nc networked src qs) (s : Snap ct)
    (hs : Holds src qs s) (hst : s.stamp.length = 8) (hl : s.entities.length ≤ 256) :
    SnapOk nc s := by
  refine ⟨hst, ⟨by omega, ?_⟩, ?_, ?_⟩
  · intro e he
    obtain ⟨q, hq, rfl⟩ := hs.ents e he
    exact (hx.exists_ q hq).2.2.1
  · have hsub : s.pools.map (·.comp) ⊆ List.range nc := by
      intro c hc
      obtain ⟨p, hp, rfl⟩ := List.mem_map.mp hc
      obtain ⟨q, hq, hqc⟩ := hs.nonempty p hp
      exact List.mem_range.mpr (hqc ▸ (hx.exists_ q hq).2.1)
    have := (List.subperm_of_subset hs.comps hsub).length_le
    simp only [List.length_map, List.length_range] at this
    omega
  · intro p hp
    obtain ⟨h1, h2⟩ := hs.pool p hp
    have hl1 := congrArg List.length h1
    have hl2 := congrArg List.length h2
    simp only [List.length_map] at hl1 hl2
    have hper := hx.perComp p.comp
    refine ⟨?_, by omega, by omega, ?_, ?_, ?_⟩
    · obtain ⟨q, hq, hqc⟩ := hs.nonempty p hp
      exact hqc ▸ (hx.exists_ q hq).2.1
    · intro i hi
      have : s.entities[i]? ∈ p.idx.map (s.entities[·]?) := List.mem_map.mpr ⟨i, hi, rfl⟩
      rw [h2] at this
      obtain ⟨q, -, hq⟩ := List.mem_map.mp this
      have := (List.getElem?_eq_some_iff.mp hq.symm).1
      omega
    · intro v hv
      have : some v ∈ p.vals.map some := List.mem_map.mpr ⟨v, hv, rfl⟩
      rw [h1] at this
      obtain ⟨q, hq, hqv⟩ := List.mem_map.mp this
      obtain ⟨hq, hqc⟩ := List.mem_filter.mp hq
      obtain ⟨-, -, -, w, hw, hok⟩ := hx.exists_ q hq
      have hqc : q.2 = p.comp := by simpa using hqc
      obtain ⟨e, c⟩ := q
      simp only at hqc hw hok hqv
      subst hqc
      rw [hw] at hqv
      rw [← Option.some.inj hqv]
      exact hok
    · intro d hd
      obtain ⟨cs, hc⟩ := catM_some (fun x => write_defined (ct p.comp) x) p.vals
      simp only [writeData, hc, Option.map_some, Option.some.injEq] at hd
      subst hd
      have e1 : ∀ l : List Nat, (l.map (enc 1)).flatten.length = l.length := by
        intro l
        induction l with
        | nil => rfl
        | cons x xs ih =>
          simp only [List.map_cons, List.flatten_cons, List.length_append, ih, enc_length,
            List.length_cons]
          omega
      have e2 := catM_sum p.comp p.vals cs hc
      rw [h1, List.map_map] at e2
      have hper2 := hper.2
      have e3 : (wireSize p.comp ∘ fun q : Nat × Nat => src q.1 p.comp) =
          fun q : Nat × Nat => wireSize p.comp (src q.1 p.comp) := rfl
      rw [e3] at e2
      simp only [List.flatten_append, List.length_append, List.flatten_cons, List.flatten_nil,
        List.append_nil, e1, enc_length]
      omega

/-- **C25**, partial (the property claims any number of entities; the code supports 256, see
`entity_256_aliases_first` and `pool_of_256_reads_empty`). Replication by snapshot: for any exportable list of components, exporting them,
sending the snapshot as bytes and importing it on the other side is defined, and afterwards each
component whose entity is mapped to a local entity `l` has been updated from the exporter's value,
and no other component of any entity has changed. -/
theorem snapshot_transfer_partial (nc : Nat) (hnc : nc ≤ 65535) (junk stamp : List UInt8)
    (hst : stamp.length = 8) (networked : Nat → Bool) (src : Reg ct) (qs : List (Nat × Nat))
    (hx : Exportable nc networked src qs) (im : Importer ct)
    (hinj : ∀ e e' l, im.emap e = some l → im.emap e' = some l → e = e') (dst : Reg ct) :
    ∃ s cs, insertAll networked src ⟨stamp, [], []⟩ qs = some s ∧ writeSnap s = some cs ∧
      ∃ s' a', readSnap nc junk ⟨bytes cs, 0, false⟩ = some (s', a') ∧ a'.failed = false ∧
        s'.stamp = stamp ∧
        ∃ dst', importSnap im s' dst = some dst' ∧
          (∀ e c l v, (e, c) ∈ qs → im.emap e = some l → src e c = some v →
            dst' l c = updated im l c v (dst l c)) ∧
          (∀ l c, (∀ e, (e, c) ∈ qs → im.emap e ≠ some l) → dst' l c = dst l c) := by
  obtain ⟨E, hE, hEq⟩ := hx.entities
  have h0 : Holds src [] (⟨stamp, [], []⟩ : Snap ct) :=
    ⟨by simp, by simp, by simp, by simp, by simp, by simp⟩
  obtain ⟨s, hs, hh, hstamp, hl⟩ := insertAll_holds networked src E hE qs [] ⟨stamp, [], []⟩ h0
    (by simp) (fun q hq => ⟨hEq q hq, (hx.exists_ q hq).1, by
      obtain ⟨v, hv, -⟩ := (hx.exists_ q hq).2.2.2
      rw [hv]; rfl⟩)
  simp only [List.nil_append] at hh
  simp only at hstamp
  have hok := snapOk_of_holds nc hnc networked src qs hx s hh (hstamp ▸ hst) hl
  obtain ⟨cs, hw, hr⟩ := wire_round_trip nc (by omega) junk s hok [] []
  simp only [List.nil_append, List.append_nil, List.length_nil, Nat.zero_add] at hr
  have hi := importPools_eq im src qs s.entities s.pools hh.pool dst
  have hmem : ∀ q, q ∈ (s.pools.flatMap fun p => qs.filter (·.2 = p.comp)) ↔ q ∈ qs := by
    intro q
    rw [List.mem_flatMap]
    constructor
    · rintro ⟨p, -, hq⟩
      exact (List.mem_filter.mp hq).1
    · intro hq
      obtain ⟨p, hp, hpc⟩ := hh.all q hq
      exact ⟨p, hp, List.mem_filter.mpr ⟨hq, by simp [hpc]⟩⟩
  refine ⟨s, cs, hs, hw, s, _, hr, rfl, hstamp, _, hi, ?_, ?_⟩
  · intro e c l v hq hl hv
    exact deliverAll_same im src _ (flatMap_filter_nodup qs hx.nodup s.pools hh.comps) hinj dst
      e l c ((hmem _).mpr hq) hl v hv
  · intro l c hno
    apply deliverAll_other
    rintro ⟨e, c'⟩ hq rfl
    exact hno e ((hmem _).mp hq)

/-! ### Findings -/

/-- Finding: the 257th entity of a snapshot gets index 0, so its components are delivered to the
first entity. -/
theorem entity_256_aliases_first (networked : Nat → Bool) (reg : Reg ct) (s : Snap ct) (e c e0 : Nat)
    (v : Val (ct c)) (hnet : networked e = true) (hv : reg e c = some v)
    (hl : s.entities.length = 256) (h0 : s.entities[0]? = some e0) (hne : e ∉ s.entities)
    (hc : ∀ p ∈ s.pools, p.comp ≠ c) :
    ∃ s', insertEntity networked reg s (e, c) = some s' ∧
      ∃ p ∈ s'.pools, p.comp = c ∧ p.idx.map (s'.entities[·]?) = [some e0] ∧ e ≠ e0 := by
  have hf : s.entities.findIdx? (· = e) = none := by
    rw [List.findIdx?_eq_none_iff]
    intro x hx
    simp only [decide_eq_false_iff_not]
    exact fun h => hne (h ▸ hx)
  have he : entityIndex e s.entities = (0, s.entities ++ [e]) := by
    simp only [entityIndex, hf, hl]
  have hi : ∀ ps : List (Pool ct), (∀ p ∈ ps, p.comp ≠ c) →
      insertPool c 0 v ps = ps ++ [⟨c, [0], [v]⟩] := by
    intro ps
    induction ps with
    | nil => intro _; rfl
    | cons p ps ih =>
      intro h
      rw [insertPool, dif_neg (h p (by simp)), ih fun p' hp' => h p' (by simp [hp']),
        List.cons_append]
  refine ⟨{ s with entities := s.entities ++ [e], pools := s.pools ++ [⟨c, [0], [v]⟩] },
    by simp only [insertEntity, hnet, if_true, hv, Option.map_some, he, hi _ hc],
    ⟨c, [0], [v]⟩, by simp, rfl, ?_, ?_⟩
  · have h1 := (List.getElem?_eq_some_iff.mp h0).1
    simp only [List.map_cons, List.map_nil]
    rw [List.getElem?_append_left h1, h0]
  · rintro rfl
    exact hne (List.mem_of_getElem? h0)

/-- Finding: a pool with exactly 256 entities is received as an empty pool. -/
theorem pool_of_256_reads_empty (nc : Nat) (junk : List UInt8) (p : Pool ct) (hp : p.comp < nc)
    (hl : p.idx.length = 256) (d : List UInt8) (hd : writeData p = some d) :
    readData (ct := ct) nc junk p.comp d = some ⟨p.comp, [], []⟩ := by
  obtain ⟨cs, hc⟩ := catM_some (fun x => write_defined (ct p.comp) x) p.vals
  simp only [writeData, hc, Option.map_some, Option.some.injEq, hl] at hd
  subst hd
  generalize hd : (([enc 1 256] ++ p.idx.map (enc 1)) ++ cs).flatten = d
  have ha : At ⟨d, 0, false⟩ (enc 1 256) :=
    ⟨rfl, Nat.zero_le _, (p.idx.map (enc 1)).flatten ++ cs.flatten, by rw [← hd]; simp⟩
  have e1 := readBytes_at [0] ha (enc_length 1 _)
  have hn : dec (enc 1 256) = 0 := rfl
  simp only [readData, hp, if_true, e1, Option.bind_eq_bind, Option.bind_some, hn,
    List.replicate_zero, readEach, List.map_nil]

/-- Finding: received bytes with a component index beyond the known components index the table of
constructors out of bounds. -/
theorem hostile_component_index_undefined (nc : Nat) (hnc : nc ≤ 65535) (junk : List UInt8)
    (t0 : Pool ct) : readPool nc junk t0 ⟨[255, 255, 0, 0], 0, false⟩ = none := by
  have e1 : readBytes 2 [0, 0] ⟨[255, 255, 0, 0], 0, false⟩ =
      some ([255, 255], ⟨[255, 255, 0, 0], 2, false⟩) := by decide
  have e2 : Serial.read junk dataTy (dflt dataTy) ⟨[255, 255, 0, 0], 2, false⟩ =
      some (toData [], ⟨[255, 255, 0, 0], 4, false⟩) := rfl
  have e3 : dec [255, 255] = 65535 := by decide
  simp only [readPool, e1, Option.bind_eq_bind, Option.bind_some, e2, e3, readData]
  rw [if_neg (by omega)]
  rfl

/-- Finding: an entity index beyond the entities of the snapshot reads out of bounds on import. -/
theorem hostile_entity_index_undefined (im : Importer ct) (c : Nat) (v : Val (ct c))
    (stamp : List UInt8) (ents : List Nat) (i : Nat) (hi : ents.length ≤ i) (reg : Reg ct) :
    importSnap im ⟨stamp, ents, [⟨c, [i], [v]⟩]⟩ reg = none := by
  simp [importSnap, importPool, importOne, hi]

/-! ### Non-vacuity -/

/-- Two component types: a 4-byte number and a tag. -/
def exCt : Nat → Ty
  | 0 => .scalar 4
  | _ => .struct 0 fun i => i.elim0

/-- Entities 7 and 9 have both components, 8 only the second. -/
def exSrc : Reg exCt := fun e c =>
  match c with
  | 0 => if e = 7 then some ([1, 2, 3, 4] : List UInt8)
         else if e = 9 then some ([5, 6, 7, 8] : List UInt8) else none
  | _ + 1 => some (fun i => i.elim0)

example : Exportable 2 (fun _ => true) exSrc [(7, 0), (9, 0), (9, 1), (8, 1)] where
  nodup := by decide
  exists_ := by
    intro q hq
    simp only [List.mem_cons, List.not_mem_nil, or_false] at hq
    rcases hq with rfl | rfl | rfl | rfl
    · exact ⟨rfl, by decide, by decide, ([1, 2, 3, 4] : List UInt8), rfl, rfl⟩
    · exact ⟨rfl, by decide, by decide, ([5, 6, 7, 8] : List UInt8), rfl, rfl⟩
    · exact ⟨rfl, by decide, by decide, fun i => i.elim0, rfl, fun i => i.elim0⟩
    · exact ⟨rfl, by decide, by decide, fun i => i.elim0, rfl, fun i => i.elim0⟩
  entities := ⟨[7, 8, 9], by decide, by decide⟩
  perComp := by
    intro c
    match c with
    | 0 => decide +kernel
    | 1 => decide +kernel
    | c + 2 =>
      have : ([(7, 0), (9, 0), (9, 1), (8, 1)] : List (Nat × Nat)).filter (·.2 = c + 2) = [] := by
        simp
      rw [this]
      simp

end Edyn.Net.Snapshot
