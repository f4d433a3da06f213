/-
Theorems about paged triangle mesh files (property C51).

`paged_file_round_trip`: after writing a paged mesh (embedded mode) and reading it back, the header
data are the same and every submesh can be loaded, in any order, and equals the one written.
`long_member_misplaces_submeshes`: beyond 65535 elements the recorded offsets are wrong.
`submeshPath_injective`: distinct submeshes go to distinct files in external mode.
-/
import Verif.Serial.PagedModel
import Verif.Serial.Props

namespace Edyn.Serial

theorem catM_split {α : Type} (w : α → Option (List (List UInt8))) (l : List α)
    (cs : List (List UInt8)) (hc : catM w l = some cs) (i : Nat) (x : α) (hx : l[i]? = some x) :
    ∃ a c b, catM w (l.take i) = some a ∧ w x = some c ∧ cs = a ++ c ++ b := by
  induction l generalizing i cs with
  | nil => simp at hx
  | cons y ys ih =>
    rcases e : w y with _ | c
    · simp [catM, e] at hc
    · rcases e2 : catM w ys with _ | d
      · simp [catM, e, e2] at hc
      · simp only [catM, e, e2, Option.bind_eq_bind, Option.bind_some, Option.some.injEq] at hc
        subst hc
        cases i with
        | zero =>
          simp only [List.getElem?_cons_zero, Option.some.injEq] at hx
          subst hx
          exact ⟨[], c, d, rfl, e, by simp⟩
        | succ i =>
          obtain ⟨a', c', b', h1, h2, h3⟩ := ih d e2 i (by simpa using hx)
          exact ⟨c ++ a', c', b', by simp [catM, e, h1], h2, by simp [h3]⟩

theorem offsets_length {sz : Nat} (o : Nat) (ms : List (Val (triMeshTy sz))) (os : List Nat)
    (h : offsets o ms = some os) : os.length = ms.length := by
  induction ms generalizing o os with
  | nil => simp only [offsets, Option.some.injEq] at h; subst h; rfl
  | cons m ms ih =>
    simp only [offsets] at h
    rcases e : serSize (triMeshTy sz) m with _ | k
    · rw [e] at h; simp at h
    · rw [e] at h
      rcases e2 : offsets (o + k) ms with _ | d
      · rw [Option.bind_eq_bind, Option.bind_some, e2] at h; simp at h
      · rw [Option.bind_eq_bind, Option.bind_some, e2] at h
        simp only [Option.bind_eq_bind, Option.bind_some, Option.some.injEq] at h
        subst h
        simp [ih _ _ e2]

/-- The offset recorded for submesh `i` is the number of bytes of the submeshes before it. -/
theorem offsets_exact {sz : Nat} (o : Nat) (ms : List (Val (triMeshTy sz))) (os : List Nat)
    (h : offsets o ms = some os) (hok : ∀ m ∈ ms, Ok (triMeshTy sz) m) (i : Nat) (x : Nat)
    (hi : os[i]? = some x) (a : List (List UInt8))
    (ha : catM (write (triMeshTy sz)) (ms.take i) = some a) : x = o + a.flatten.length := by
  induction ms generalizing o os i a with
  | nil =>
    simp only [offsets, Option.some.injEq] at h
    subst h; simp at hi
  | cons m ms ih =>
    simp only [offsets] at h
    rcases e : serSize (triMeshTy sz) m with _ | k
    · rw [e] at h; simp at h
    · rw [e] at h
      rcases e2 : offsets (o + k) ms with _ | d
      · rw [Option.bind_eq_bind, Option.bind_some, e2] at h; simp at h
      · rw [Option.bind_eq_bind, Option.bind_some, e2] at h
        simp only [Option.bind_eq_bind, Option.bind_some, Option.some.injEq] at h
        subst h
        cases i with
        | zero =>
          simp only [List.take_zero, catM, Option.some.injEq] at ha
          subst ha
          simpa using hi.symm
        | succ i =>
          simp only [List.take_succ_cons] at ha
          obtain ⟨c, hc⟩ := write_defined (triMeshTy sz) m
          rcases e3 : catM (write (triMeshTy sz)) (ms.take i) with _ | b
          · simp [catM, hc, e3] at ha
          · simp only [catM, hc, e3, Option.bind_eq_bind, Option.bind_some,
              Option.some.injEq] at ha
            subst ha
            have h1 := ih (o + k) d e2 (fun m hm => hok m (by simp [hm])) i (by simpa using hi)
              b e3
            have h2 := serialization_sizeof_exact (triMeshTy sz) m (hok m (by simp)) c hc k e
            rw [h1, List.flatten_append, List.length_append]
            unfold bytes at h2
            omega

/-- `serialization_sizeof` is defined for triangle meshes. -/
theorem serSize_triMesh (sz : Nat) (m : Val (triMeshTy sz)) :
    ∃ k, serSize (triMeshTy sz) m = some k := by
  have hv : fixedSize (vec3Ty sz) = some (sz + (sz + (sz + 0))) := rfl
  have h3 : fixedSize (.struct 3 fun _ => .scalar 4) = some 12 := rfl
  have h2 : fixedSize (.struct 2 fun _ => .scalar 4) = some 8 := rfl
  have ha : ∃ k, fixedSize (.struct 3 fun _ => vec3Ty sz) = some k := ⟨_, rfl⟩
  have ht : ∃ k, fixedSize (treeNodeTy sz) = some k := ⟨_, rfl⟩
  have key : ∀ t ∈ triMeshFields sz, ∀ v : Val t, ∃ k, serSize t v = some k := by
    intro t ht' v
    simp only [triMeshFields, List.mem_cons, List.not_mem_nil, or_false] at ht'
    rcases ht' with rfl | rfl | rfl | rfl | rfl | rfl | rfl | rfl | rfl | rfl | rfl | rfl | rfl |
      rfl | rfl
    all_goals exact ⟨_, rfl⟩
  have gen : ∀ is : List (Fin (triMeshFields sz).length), ∃ k,
      is.foldr (fun i acc => do
        let a ← serSize ((triMeshFields sz)[i]) (m i)
        let b ← acc
        some (a + b)) (some 0) = some k := by
    intro is
    induction is with
    | nil => exact ⟨0, rfl⟩
    | cons i is ih =>
      obtain ⟨b, hb⟩ := ih
      obtain ⟨a, ha⟩ := key _ (List.getElem_mem i.isLt) (m i)
      refine ⟨a + b, ?_⟩
      rw [List.foldr_cons, hb]
      have : serSize ((triMeshFields sz)[i]) (m i) = some a := ha
      rw [this]; rfl
  exact gen _

theorem offsets_defined {sz : Nat} (o : Nat) (ms : List (Val (triMeshTy sz))) :
    ∃ os, offsets o ms = some os := by
  induction ms generalizing o with
  | nil => exact ⟨[], rfl⟩
  | cons m ms ih =>
    obtain ⟨k, hk⟩ := serSize_triMesh sz m
    obtain ⟨os, ho⟩ := ih (o + k)
    exact ⟨o :: os, by simp [offsets, hk, ho]⟩

/-- Limits a paged mesh must respect: every container within 65535 elements, fields of the right
width, one entry per submesh, and a file of less than 2^64 bytes. -/
structure PagedOk {sz : Nat} (p : Paged sz) : Prop where
  thickness : p.thickness.length = sz
  tree : Ok (treeTy sz) p.tree
  infos : ∀ i ∈ p.infos, i.1.length = 8 ∧ i.2.length = 8
  meshes : ∀ m ∈ p.meshes, Ok (triMeshTy sz) m
  count : p.infos.length = p.meshes.length
  small : ∀ cs, writePaged p = some cs → (bytes cs).length < 2 ^ 64

theorem readEach_nums (l : List (List UInt8)) (h : ∀ x ∈ l, x.length = 8) (a : Ar)
    (ha : At a l.flatten) (n : Nat) (hn : n = l.length) :
    readEach (readBytes 8) (List.replicate n (List.replicate 8 0)) a =
      some (l, adv a l.flatten.length) := by
  subst hn
  induction l generalizing a with
  | nil => simp [readEach]
  | cons x xs ih =>
    simp only [List.flatten_cons] at ha ⊢
    have e1 := readBytes_at (List.replicate 8 0) ha.left (h x (by simp))
    have e2 := ih (fun y hy => h y (by simp [hy])) _ ha.right
    simp only [List.length_cons, List.replicate_succ] at e2 ⊢
    simp only [List.replicate_succ] at e1
    simp only [readEach, e1, Option.bind_eq_bind, Option.bind_some, e2, adv_adv,
      List.length_append]

theorem readEach_infos (l : List (List UInt8 × List UInt8))
    (h : ∀ x ∈ l, x.1.length = 8 ∧ x.2.length = 8) (a : Ar)
    (ha : At a (l.map fun i => [i.1, i.2]).flatten.flatten) (n : Nat) (hn : n = l.length) :
    readEach readInfo (List.replicate n ([], [])) a =
      some (l, adv a (l.map fun i => [i.1, i.2]).flatten.flatten.length) := by
  subst hn
  induction l generalizing a with
  | nil => simp [readEach]
  | cons x xs ih =>
    simp only [List.map_cons, List.flatten_cons, List.flatten_append, List.flatten_nil,
      List.append_nil] at ha ⊢
    have e1 := readBytes_at (List.replicate 8 0) ha.left.left (h x (by simp)).1
    have e2 := readBytes_at (List.replicate 8 0) ha.left.right (h x (by simp)).2
    have ha2 := ha.right
    rw [List.length_append] at ha2
    have e3 := ih (fun y hy => h y (by simp [hy])) _ ha2
    simp only [List.length_cons, List.replicate_succ (n := xs.length)]
    simp only [readEach, readInfo, e1, Option.bind_eq_bind, Option.bind_some, e2, adv_adv, e3,
      List.length_append, Nat.add_assoc]

/-- **C51.** Write any paged mesh within the limits to a file (embedded mode) and read it back:
the header data are the same, and each submesh loads, at any time later and so in any order and
any number of times (whatever the stream's position), as the submesh that was written. -/
theorem paged_file_round_trip {sz : Nat} (junk : List UInt8) (p : Paged sz) (h : PagedOk p) :
    ∃ cs q a, writePaged p = some cs ∧
      readPaged junk ⟨bytes cs, 0, false⟩ = some (q, a) ∧
      q.thickness = p.thickness ∧ q.tree = p.tree ∧ q.infos = p.infos ∧
      q.offsets.length = p.meshes.length ∧
      a.buf = bytes cs ∧ a.failed = false ∧
      ∀ (i : Nat) (m : Val (triMeshTy sz)) (pos : Nat), p.meshes[i]? = some m →
        ∃ pos', loadMesh junk q { a with pos := pos } i = some (m, { a with pos := pos' }) := by
  obtain ⟨t, ht⟩ := write_defined (treeTy sz) p.tree
  obtain ⟨os, hos⟩ := offsets_defined 0 p.meshes
  obtain ⟨ms, hms⟩ := catM_some (write_defined (triMeshTy sz)) p.meshes
  have hw : writePaged p = some ([p.thickness] ++ t ++ [enc 8 p.meshes.length] ++
    (p.infos.map fun i => [i.1, i.2]).flatten ++ [[0]] ++ os.map (enc 8) ++ ms) := by
    simp [writePaged, writeHead, ht, hos, hms]
  have hsmall := h.small _ hw
  have hol := offsets_length 0 p.meshes os hos
  -- the number of submeshes fits in 8 bytes
  have hlen8 : (os.map (enc 8)).flatten.length = os.length * 8 := by
    clear hol hsmall hw hos
    induction os with
    | nil => rfl
    | cons x xs ih => rw [List.map_cons, List.flatten_cons, List.length_append, ih, enc_length,
        List.length_cons]; omega
  have hn8 : p.meshes.length < 256 ^ 8 := by
    have e : (256 : Nat) ^ 8 = 2 ^ 64 := by decide
    rw [e]
    simp only [bytes, List.flatten_append, List.length_append, hlen8] at hsmall
    omega
  have ha : At ⟨bytes ([p.thickness] ++ t ++ [enc 8 p.meshes.length] ++
    (p.infos.map fun i => [i.1, i.2]).flatten ++ [[0]] ++ os.map (enc 8) ++ ms), 0, false⟩
    (p.thickness ++ (t.flatten ++ (enc 8 p.meshes.length ++
    ((p.infos.map fun i => [i.1, i.2]).flatten.flatten ++ ([0] ++ ((os.map (enc 8)).flatten ++
      ms.flatten)))))) :=
    ⟨rfl, Nat.zero_le _, [], by simp [bytes]⟩
  generalize hA : (⟨bytes ([p.thickness] ++ t ++ [enc 8 p.meshes.length] ++
    (p.infos.map fun i => [i.1, i.2]).flatten ++ [[0]] ++ os.map (enc 8) ++ ms), 0, false⟩ : Ar)
    = A at ha
  have hAbuf : A.buf = bytes ([p.thickness] ++ t ++ [enc 8 p.meshes.length] ++
    (p.infos.map fun i => [i.1, i.2]).flatten ++ [[0]] ++ os.map (enc 8) ++ ms) := by rw [← hA]
  have hAf : A.failed = false := by rw [← hA]
  have e1 := readBytes_at (List.replicate sz 0) ha.left h.thickness
  have ha1 := ha.right
  have e2 := read_at junk (treeTy sz) p.tree h.tree t ht (dflt _) (clean_dflt _) _ ha1.left
  have ha2 := ha1.right
  have e3 := readBytes_at junk ha2.left (enc_length 8 _)
  have ha3 := ha2.right
  have hd : dec (enc 8 p.meshes.length) = p.meshes.length := dec_enc 8 _ hn8
  have e4 := readEach_infos p.infos h.infos _ ha3.left p.meshes.length h.count.symm
  have ha4 := ha3.right
  have e5 := readBytes_at (n := 1) [0] ha4.left rfl
  have ha5 := ha4.right
  have e6 := readEach_nums (os.map (enc 8)) (fun x hx => by
    obtain ⟨y, -, rfl⟩ := List.mem_map.mp hx
    exact enc_length 8 y) _ ha5.left p.meshes.length (by simp [hol])
  have ha6 := ha5.right
  simp only [adv_adv] at e2 e3 e4 e5 e6 ha6
  generalize hN : p.thickness.length + t.flatten.length + (enc 8 p.meshes.length).length +
    (p.infos.map fun i => [i.1, i.2]).flatten.flatten.length + [(0 : UInt8)].length +
    (os.map (enc 8)).flatten.length = N at e6 ha6
  refine ⟨_, ⟨p.thickness, p.tree, p.infos, (adv A N).pos, os.map (enc 8)⟩, adv A N, hw, ?_, rfl,
    rfl, rfl, ?_, ?_, ?_, ?_⟩
  · simp only [readPaged]
    rw [hA]
    simp only [e1, e2, e3, hd, e4, e5, e6, Option.bind_eq_bind, Option.bind_some, if_true]
  · simp [hol]
  · simp only [adv]; rw [hAbuf]
  · simp only [adv]; exact hAf
  · intro i m pos hm
    obtain ⟨b, c, d, h1, h2, h3⟩ := catM_split _ _ _ hms i m hm
    have hi : i < os.length := by
      rw [hol]
      exact (List.getElem?_eq_some_iff.mp hm).1
    have hx := offsets_exact 0 p.meshes os hos h.meshes i os[i]
      (List.getElem?_eq_getElem hi) b h1
    rw [Nat.zero_add] at hx
    have hx8 : os[i] < 256 ^ 8 := by
      have e : (256 : Nat) ^ 8 = 2 ^ 64 := by decide
      rw [e, hx]
      rw [h3] at hsmall
      simp only [bytes, List.flatten_append, List.length_append] at hsmall
      omega
    have hd8 : dec (enc 8 os[i]) = b.flatten.length := (dec_enc 8 _ hx8).trans hx
    have ha7 := ha6
    rw [h3, List.flatten_append, List.flatten_append, List.append_assoc] at ha7
    have ha8 := ha7.right.left
    have e7 := read_at junk (triMeshTy sz) m (h.meshes m (List.mem_of_getElem? hm)) c h2 (dflt _)
      (clean_dflt _) _ ha8
    simp only [adv, Nat.add_assoc] at e7
    refine ⟨A.pos + (N + (b.flatten.length + c.flatten.length)), ?_⟩
    simp only [loadMesh, List.getElem?_map, List.getElem?_eq_getElem hi, Option.map_some,
      Option.bind_eq_bind, Option.bind_some, hd8, adv, Nat.add_assoc]
    exact e7

/-- A mesh with two submeshes of different sizes. -/
def exPaged : Paged 4 where
  thickness := [1, 2, 3, 4]
  tree := ([dflt (treeNodeTy 4)] : List (Val (treeNodeTy 4)))
  infos := [(enc 8 1, enc 8 0), (enc 8 0, enc 8 0)]
  meshes := [fun i => match i with
    | ⟨0, _⟩ => ([fun _ => [1, 2, 3, 4]] : List (Val (vec3Ty 4)))
    | ⟨k + 1, h⟩ => dflt ((triMeshFields 4)[k + 1]'h), dflt _]

theorem ok_dflt_triMesh (k : Nat) (h : k < (triMeshFields 4).length) :
    Ok ((triMeshFields 4)[k]) (dflt _) := by
  have e : ∀ t, Ok (.vec t) (dflt _) := fun t =>
    ⟨(by decide : 0 ≤ 65535), fun _ h => by cases h⟩
  have key : ∀ t ∈ triMeshFields 4, Ok t (dflt t) := by
    intro t ht
    simp only [triMeshFields, List.mem_cons, List.not_mem_nil, or_false] at ht
    rcases ht with rfl | rfl | rfl | rfl | rfl | rfl | rfl | rfl | rfl | rfl | rfl | rfl | rfl |
      rfl | rfl
    all_goals first
      | exact e _
      | exact (by decide : 0 ≤ 65535)
      | rfl
      | (intro i; match i with | 0 => exact e _ | 1 => exact e _)
  exact key _ (List.getElem_mem h)

example : PagedOk exPaged where
  thickness := rfl
  tree := ⟨(by decide : 1 ≤ 65535), fun x hx => by
    rcases List.mem_singleton.mp hx with rfl
    intro i
    match i with
    | 0 => intro j; rfl
    | 1 => intro j; rfl
    | 2 => rfl
    | 3 => rfl⟩
  infos := by decide +kernel
  meshes := by
    intro m hm
    rcases List.mem_cons.mp hm with rfl | hm
    · intro i
      match i with
      | ⟨0, _⟩ =>
        refine ⟨(by decide : 1 ≤ 65535), fun x hx => ?_⟩
        rcases List.mem_singleton.mp hx with rfl
        intro j; rfl
      | ⟨k + 1, h⟩ => exact ok_dflt_triMesh (k + 1) h
    · rcases List.mem_singleton.mp hm with rfl
      intro i
      exact ok_dflt_triMesh i.val i.isLt
  count := rfl
  small := by
    have h : (match writePaged exPaged with
      | some cs => decide ((bytes cs).length < 2 ^ 64) | none => true) = true := by
      decide +kernel
    intro cs hc
    rw [hc] at h
    exact of_decide_eq_true h

/-- Finding: for a member vector with more than 65535 elements, `serialization_sizeof` exceeds the
number of bytes actually written, so the recorded offsets of all later submeshes point past their
data. -/
theorem long_member_misplaces_submeshes (t : Ty) (s : Nat) (hs : fixedSize t = some s)
    (hpos : 0 < s) (v : List (Val t)) (hv : ∀ x ∈ v, Ok t x) (hl : 65535 < v.length)
    (cs : List (List UInt8)) (hc : write (.vec t) v = some cs) :
    ∃ k, serSize (.vec t) v = some k ∧ (bytes cs).length < k := by
  refine ⟨2 + v.length * s, by simp only [serSize, hs]; rfl, ?_⟩
  have h1 := (long_vector_altered t v hl).2.2
  rw [h1] at hc
  have hok : Ok (.vec t) (v.take 65535 : List (Val t)) :=
    ⟨by rw [List.length_take]; omega, fun x hx => hv x (List.mem_of_mem_take hx)⟩
  have h2 := serialization_sizeof_exact (.vec t) (v.take 65535 : List (Val t)) hok cs hc
    (2 + (v.take 65535).length * s) (by simp only [serSize, hs]; rfl)
  rw [h2, List.length_take, Nat.min_eq_left (by omega)]
  have := Nat.mul_lt_mul_of_pos_right hl hpos
  omega

/-! ### Submesh file names -/

theorem submeshPath_injective (path : List Char) (i j : Nat)
    (h : submeshPath path i = submeshPath path j) : i = j := by
  have inj : ∀ a b, Nat.toDigits 10 a = Nat.toDigits 10 b → a = b := by
    intro a b e
    have h1 := Nat.ofDigitChars_toDigits (b := 10) (n := a) (by omega) (by omega)
    have h2 := Nat.ofDigitChars_toDigits (b := 10) (n := b) (by omega) (by omega)
    rw [← h1, ← h2, e]
  apply inj
  unfold submeshPath at h
  split at h
  · simpa using h
  · simpa using h

/-- A submesh never overwrites the main file. -/
theorem submeshPath_ne (path : List Char) (i : Nat) : submeshPath path i ≠ path := by
  intro e
  have hl := congrArg List.length e
  have hp : 0 < (Nat.toDigits 10 i).length := Nat.length_toDigits_pos
  unfold submeshPath at hl
  split at hl
  · simp only [List.length_append, List.length_take, List.length_drop] at hl; omega
  · simp only [List.length_append] at hl; omega

/-- Finding: the index is inserted before the last dot of the whole path, even if that dot belongs
to a directory. -/
theorem submeshPath_in_directory :
    submeshPath "data.d/mesh".toList 3 = "data3.d/mesh".toList := by decide +kernel

example : submeshPath "a/mesh.bin".toList 12 = "a/mesh12.bin".toList := by decide +kernel

end Edyn.Serial
