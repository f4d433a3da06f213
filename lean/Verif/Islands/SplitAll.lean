import Verif.Islands.Split

/-! # Islands: splitting all flagged islands -/

namespace Edyn.Islands

variable {T : Type}

theorem forget_eq (i : Nat) (ns : List Nat) (w : W T) (hnd : ns.Nodup)
    (h : ∀ n ∈ ns, i ∈ w.mres n) :
    forget i ns w = some { w with
      mres := fun n => if n ∈ ns then (w.mres n).filter fun j => decide (j ≠ i) else w.mres n } := by
  induction ns generalizing w with
  | nil => simp [forget]
  | cons n ns ih =>
    rw [List.nodup_cons] at hnd
    simp only [forget]
    rw [if_pos (h n (by simp)), ih _ hnd.2 ?_]
    · simp only [Option.some.injEq, W.mk.injEq, true_and, and_true]
      funext x
      by_cases hx : x = n
      · subst hx; simp [hnd.1]
      · simp [Function.update_of_ne hx, hx]
    · intro m hm
      have hmn : m ≠ n := fun h => hnd.1 (h ▸ hm)
      simp only [Function.update_of_ne hmn]
      exact h m (by simp [hm])

theorem biggestIdx_lt (is : List Island) (k n best : Nat) :
    biggestIdx is k n best = best ∨ (k ≤ biggestIdx is k n best ∧ biggestIdx is k n best < k + is.length) := by
  induction is generalizing k n best with
  | nil => left; rfl
  | cons I is ih =>
    simp only [biggestIdx, List.length_cons]
    split
    · rcases ih (k + 1) I.nodes.length k with h | h
      · right; omega
      · right; omega
    · rcases ih (k + 1) n best with h | h
      · left; exact h
      · right; omega

theorem swap_pop_perm {α : Type} (is : List α) (b : Nat) (S l : α) (hb : is[b]? = some S)
    (hl : is.getLast? = some l) : is.Perm (S :: (is.set b l).dropLast) := by
  obtain ⟨hlt, hS⟩ := List.getElem?_eq_some_iff.1 hb
  have hdec : is = is.take b ++ S :: is.drop (b + 1) := by
    rw [← hS]; simp
  have hset : is.set b l = is.take b ++ l :: is.drop (b + 1) := List.set_eq_take_append_cons_drop ▸ by simp [hlt]
  generalize is.take b = pre at *
  generalize hpost : is.drop (b + 1) = post at *
  clear hpost
  rcases List.eq_nil_or_concat post with rfl | ⟨mid, z, rfl⟩
  · rw [hset, hdec]
    simp only [List.dropLast_concat]
    exact List.perm_append_comm (l₁ := pre) (l₂ := [S])
  · have : z = l := by
      rw [hdec] at hl
      have : pre ++ S :: mid.concat z = (pre ++ S :: mid) ++ [z] := by simp
      rw [this, List.getLast?_concat] at hl
      simpa using hl
    subst this
    rw [hset, hdec]
    have h1 : pre ++ z :: mid.concat z = (pre ++ z :: mid) ++ [z] := by simp
    rw [h1, List.dropLast_concat]
    simp only [List.concat_eq_append]
    have h2 : (pre ++ S :: (mid ++ [z])).Perm (S :: (pre ++ (mid ++ [z]))) := List.perm_middle
    have h3 : (pre ++ z :: mid).Perm (pre ++ (mid ++ [z])) :=
      List.Perm.append_left pre (List.perm_append_comm (l₁ := [z]) (l₂ := mid))
    exact h2.trans (h3.symm.cons S)

theorem Apart.symm {w : W T} {K K' : Island} (h : Apart w K K') : Apart w K' K :=
  ⟨fun m hm hp hm' => h.1 m hm' hp hm, fun e he he' => h.2 e he' he⟩

/-- The bodies of an island are closed under `traverse`. -/
theorem Core.closed {w : W T} (C : Core w) (S : Settled w) {i : Nat} {I : Island}
    (hi : w.isl i = some I) {p q : Nat} (hp : p ∈ I.nodes) (h : Relation.ReflTransGen (TStep w) p q) :
    q ∈ I.nodes := by
  induction h with
  | refl => exact hp
  | tail _ hs ih =>
    obtain ⟨h1, x, hx, h2⟩ := hs
    rename_i b c _
    have hb : b ∈ w.nodes := C.nNode i I b hi ih
    have hne : w.eres x.id ≠ none := fun hnone => S b hb h1 (Or.inr ⟨x, hx, by tauto, hnone⟩)
    obtain ⟨j, hj⟩ := Option.ne_none_iff_exists'.1 hne
    obtain ⟨_, J, hJ, _⟩ := C.eIn _ _ hj
    have hends := C.ends x hx j J hj hJ
    have hbJ : b ∈ J.nodes := by
      rcases h2 with ⟨rfl, _⟩ | ⟨_, rfl⟩
      · exact hends.1
      · exact hends.2
    have h3 := C.nOut j J b hJ hbJ h1
    rw [C.nOut i I b hi ih h1] at h3
    simp at h3
    subst h3
    rw [hi] at hJ; cases hJ
    rcases h2 with ⟨_, rfl⟩ | ⟨rfl, _⟩
    · exact hends.2
    · exact hends.1

/-- The edges of a body that moves are in its island. -/
theorem Core.edge_of {w : W T} (C : Core w) (S : Settled w) {i : Nat} {x : Edge} (hx : x ∈ w.edges)
    {v : Nat} (hv : x.a = v ∨ x.b = v) (hp : w.proc v = true) (hres : w.nres v = some i) :
    w.eres x.id = some i := by
  have hvn : v ∈ w.nodes := (C.nIn v i hres).1
  have hne : w.eres x.id ≠ none := fun hnone => S v hvn hp (Or.inr ⟨x, hx, hv, hnone⟩)
  obtain ⟨j, hj⟩ := Option.ne_none_iff_exists'.1 hne
  obtain ⟨_, J, hJ, _⟩ := C.eIn _ _ hj
  have hends := C.ends x hx j J hj hJ
  have hbJ : v ∈ J.nodes := by
    rcases hv with rfl | rfl
    · exact hends.1
    · exact hends.2
  rw [C.nOut j J v hJ hbJ hp] at hres
  rw [hj, hres]

/-- What splitting an island does. -/
structure SplitOk (w w' : W T) (i : Nat) : Prop where
  core : Core w'
  settled : Settled w'
  graph : SameGraph w w'
  next : w.next ≤ w'.next
  other : ∀ j, j < w.next → j ≠ i → w'.isl j = w.isl j
  same : ∀ n, w.nres n ≠ some i → w'.nres n = w.nres n
  moved : ∀ n j, w.nres n = some i → w'.nres n = some j → j = i ∨ w.next ≤ j
  linked : ∀ n m, w.nres n = some i → w.nres m = some i → w'.nres n = w'.nres m → Linked w n m

theorem splitOne_spec (env : Env T) (w : W T) (C : Core w) (St : Settled w) (i : Nat) (I : Island)
    (hi : w.isl i = some I) : ∃ w', splitOne env w i = some w' ∧ SplitOk w w' i := by
  unfold splitOne
  simp only [hi]
  by_cases hall : (I.nodes.all fun n => !w.proc n) = true
  · -- no procedural body left
    have hnp : ∀ n ∈ I.nodes, w.proc n = false := by simpa using hall
    have hE : I.edges = [] := by
      rw [List.eq_nil_iff_forall_not_mem]
      intro e he
      have h1 := C.eOut i I e hi he
      obtain ⟨⟨x, hx, rfl⟩, _⟩ := C.eIn e i h1
      have h2 := C.ends x hx i I h1 hi
      rcases C.endp x hx i h1 with h | h
      · rw [hnp _ h2.1] at h; cases h
      · rw [hnp _ h2.2] at h; cases h
    rw [if_pos hall, if_pos hE, forget_eq i I.nodes w (C.nd i I hi).1
      (fun n hn => C.mOut i I n hi hn (hnp n hn))]
    refine ⟨_, rfl, ?_⟩
    have hnone : ∀ n, w.nres n ≠ some i := by
      intro n hn
      obtain ⟨_, hp, I', hI', h⟩ := C.nIn n i hn
      rw [hi] at hI'; cases hI'
      rw [hnp n h] at hp; cases hp
    have hnoneE : ∀ e, w.eres e ≠ some i := by
      intro e he
      obtain ⟨_, I', hI', h⟩ := C.eIn e i he
      rw [hi] at hI'; cases hI'
      rw [hE] at h; cases h
    have hcase : ∀ j J, Function.update w.isl i none j = some J → j ≠ i ∧ w.isl j = some J := by
      intro j J h
      by_cases hj : j = i
      · subst hj; simp at h
      · rw [Function.update_of_ne hj] at h; exact ⟨hj, h⟩
    constructor
    · constructor
      · exact C.gEnds
      · exact C.gIds
      · intro n j h
        obtain ⟨h1, h2, J, hJ, h3⟩ := C.nIn n j h
        refine ⟨h1, h2, J, ?_, h3⟩
        simp only
        rw [Function.update_of_ne, hJ]
        rintro rfl; exact hnone n h
      · intro j J n hj hn hp
        obtain ⟨hj', hJ⟩ := hcase j J hj
        exact C.nOut j J n hJ hn hp
      · intro j J n hj hn
        obtain ⟨hj', hJ⟩ := hcase j J hj
        exact C.nNode j J n hJ hn
      · intro j J n hj hn hp
        obtain ⟨hj', hJ⟩ := hcase j J hj
        have := C.mOut j J n hJ hn hp
        simp only
        split
        · simp [this, hj']
        · exact this
      · intro e j h
        obtain ⟨h1, J, hJ, h3⟩ := C.eIn e j h
        refine ⟨h1, J, ?_, h3⟩
        simp only
        rw [Function.update_of_ne, hJ]
        rintro rfl; exact hnoneE e h
      · intro j J e hj he
        obtain ⟨hj', hJ⟩ := hcase j J hj
        exact C.eOut j J e hJ he
      · intro j J hj
        obtain ⟨hj', hJ⟩ := hcase j J hj
        exact C.nd j J hJ
      · intro x hx j J h hj
        obtain ⟨hj', hJ⟩ := hcase j J hj
        exact C.ends x hx j J h hJ
      · exact C.endp
      · intro j J hj
        obtain ⟨hj', hJ⟩ := hcase j J hj
        exact C.fresh j J hJ
      · intro n j hj
        simp only at hj
        split at hj
        · exact C.mFresh n j (List.mem_filter.1 hj).1
        · exact C.mFresh n j hj
      · intro j J hj hs
        obtain ⟨hj', hJ⟩ := hcase j J hj
        simp only [Function.update_of_ne hj'] at hs
        exact C.s1 j J hJ hs
      · intro j J hj hs
        obtain ⟨hj', hJ⟩ := hcase j J hj
        simp only [Function.update_of_ne hj'] at hs
        exact C.s2 j J hJ hs
      · exact C.s3
      · exact C.s4
      · exact C.s5
    · exact St
    · exact ⟨rfl, rfl, rfl, rfl, rfl, rfl, rfl, rfl⟩
    · exact le_refl _
    · intro j _ hj; simp [Function.update_of_ne hj]
    · exact fun _ _ => rfl
    · exact fun n j h => absurd h (hnone n)
    · exact fun n m h => absurd h (hnone n)
  · rw [if_neg hall]
    obtain ⟨is, hcomp, his, hap, hcov⟩ := components_spec env w C I.nodes.length I.nodes (le_refl _)
    simp only [hcomp]
    have hex : ∃ n ∈ I.nodes, w.proc n = true := by
      by_contra hc
      apply hall
      simp only [List.all_eq_true, Bool.not_eq_true']
      intro n hn
      cases hp : w.proc n with
      | false => rfl
      | true => exact absurd ⟨n, hn, hp⟩ hc
    have hmemI : ∀ n, w.nres n = some i → n ∈ I.nodes ∧ w.proc n = true := by
      intro n hn
      obtain ⟨_, hp, I', hI', h⟩ := C.nIn n i hn
      rw [hi] at hI'; cases hI'
      exact ⟨h, hp⟩
    -- members of the components
    have hsub : ∀ K ∈ is, ∀ m ∈ K.nodes, m ∈ I.nodes := by
      intro K hK m hm
      obtain ⟨n, hn, _, hT⟩ := his K hK
      exact C.closed St hi hn (hT.path m hm)
    have hsubE : ∀ K ∈ is, ∀ e ∈ K.edges, w.eres e = some i := by
      intro K hK e he
      obtain ⟨n, hn, _, hT⟩ := his K hK
      obtain ⟨x, hx, rfl, h⟩ := (hT.edges e).1 he
      rcases h with ⟨h, hp⟩ | ⟨h, hp⟩
      · exact C.edge_of St hx (Or.inl rfl) hp (C.nOut i I _ hi (hsub K hK _ h) hp)
      · exact C.edge_of St hx (Or.inr rfl) hp (C.nOut i I _ hi (hsub K hK _ h) hp)
    have hendsK : ∀ x ∈ w.edges, ∀ K ∈ is, x.id ∈ K.edges → x.a ∈ K.nodes ∧ x.b ∈ K.nodes := by
      intro x hx K hK he
      obtain ⟨n, hn, _, hT⟩ := his K hK
      obtain ⟨y, hy, hyx, h⟩ := (hT.edges x.id).1 he
      have : y = x := edge_inj C hy hx hyx
      subst this
      rcases h with ⟨h, hp⟩ | ⟨h, hp⟩
      · exact ⟨h, hT.closed _ h _ ⟨hp, y, hy, Or.inl ⟨rfl, rfl⟩⟩⟩
      · exact ⟨hT.closed _ h _ ⟨hp, y, hy, Or.inr ⟨rfl, rfl⟩⟩, h⟩
    have hlinkK : ∀ K ∈ is, ∀ n ∈ K.nodes, ∀ m ∈ K.nodes, w.proc n = true → w.proc m = true →
        Linked w n m := by
      intro K hK n hn m hm hpn hpm
      obtain ⟨r, _, _, hT⟩ := his K hK
      exact (linked_of_tstep (hT.path n hn) hpn).symm.trans (linked_of_tstep (hT.path m hm) hpm)
    match is, hcomp, his, hap, hcov, hsub, hsubE, hendsK, hlinkK with
    | [], hcomp, his, hap, hcov, hsub, hsubE, hendsK, hlinkK =>
      obtain ⟨n, hn, hp⟩ := hex
      obtain ⟨K, hK, _⟩ := hcov n hn hp
      simp at hK
    | [K], hcomp, his, hap, hcov, hsub, hsubE, hendsK, hlinkK =>
      refine ⟨w, rfl, C, St, SameGraph.refl w, le_refl _, fun _ _ _ => rfl, fun _ _ => rfl, ?_, ?_⟩
      · intro n j h1 h2; rw [h1] at h2; simp at h2; exact Or.inl h2.symm
      · intro n m hn hm _
        obtain ⟨hn1, hn2⟩ := hmemI n hn
        obtain ⟨hm1, hm2⟩ := hmemI m hm
        obtain ⟨K1, hK1, h1⟩ := hcov n hn1 hn2
        obtain ⟨K2, hK2, h2⟩ := hcov m hm1 hm2
        simp at hK1 hK2
        subst hK1; subst hK2
        exact hlinkK _ (by simp) n h1 m h2 hn2 hm2
    | K₀ :: K₁ :: is', hcomp, his, hap, hcov, hsub, hsubE, hendsK, hlinkK =>
      simp only
      generalize hL : K₀ :: K₁ :: is' = L at *
      have hLlen : 0 < L.length := by rw [← hL]; simp
      have hb : biggestIdx L 0 0 0 < L.length := by
        rcases biggestIdx_lt L 0 0 0 with h | h <;> omega
      obtain ⟨S, hS⟩ : ∃ S, L[biggestIdx L 0 0 0]? = some S := ⟨_, List.getElem?_eq_getElem hb⟩
      obtain ⟨l, hl⟩ : ∃ l, L.getLast? = some l := by
        cases h : L.getLast? with
        | none => rw [List.getLast?_eq_none_iff] at h; rw [h] at hLlen; simp at hLlen
        | some l => exact ⟨l, rfl⟩
      simp only [hS, hl]
      have hperm := swap_pop_perm L (biggestIdx L 0 0 0) S l hS hl
      generalize (L.set (biggestIdx L 0 0 0) l).dropLast = rest at *
      have hmemL : ∀ K, K ∈ L ↔ K = S ∨ K ∈ rest := by
        intro K; rw [hperm.mem_iff, List.mem_cons]
      have hSL : S ∈ L := (hmemL S).2 (Or.inl rfl)
      have hrL : ∀ K ∈ rest, K ∈ L := fun K hK => (hmemL K).2 (Or.inr hK)
      have hapP : (S :: rest).Pairwise (Apart w) :=
        (hperm.pairwise_iff (fun h => Apart.symm h)).1 hap
      have hinx : i < w.next := C.fresh i I hi
      generalize hw0 : ({ w with
        isl := Function.update w.isl i (some S)
        stamp := Function.update w.stamp i none
        slI := Function.update w.slI i false
        slN := setAll w.slN S.nodes false
        slE := setAll w.slE S.edges false } : W T) = w0
      have e_isl : w0.isl = Function.update w.isl i (some S) := by rw [← hw0]
      have e_slI : w0.slI = Function.update w.slI i false := by rw [← hw0]
      have e_slN : ∀ n, w0.slN n = if n ∈ S.nodes then false else w.slN n := by
        rw [← hw0]; intro n; rfl
      have e_slE : ∀ n, w0.slE n = if n ∈ S.edges then false else w.slE n := by
        rw [← hw0]; intro n; rfl
      have e_nres : w0.nres = w.nres := by rw [← hw0]
      have e_eres : w0.eres = w.eres := by rw [← hw0]
      have e_mres : w0.mres = w.mres := by rw [← hw0]
      have e_next : w0.next = w.next := by rw [← hw0]
      have G : SameGraph w w0 := by rw [← hw0]; exact ⟨rfl, rfl, rfl, rfl, rfl, rfl, rfl, rfl⟩
      have gp := G.proc
      have ge := G.edges
      have gn := G.nodes
      clear hw0
      have hcase : ∀ j J, w0.isl j = some J → (j = i ∧ J = S) ∨ (j ≠ i ∧ w.isl j = some J) := by
        intro j J h
        rw [e_isl] at h
        by_cases hj : j = i
        · subst hj; simp at h; exact Or.inl ⟨rfl, h.symm⟩
        · rw [Function.update_of_ne hj] at h; exact Or.inr ⟨hj, h⟩
      have M : Mid w0 i S rest := by
        constructor
        · rw [ge, gn]; exact C.gEnds
        · rw [ge]; exact C.gIds
        · rw [e_isl]; simp
        · intro n j h
          rw [gn, gp]
          rw [e_nres] at h
          obtain ⟨h1, h2, J, hJ, h3⟩ := C.nIn n j h
          refine ⟨h1, h2, ?_⟩
          by_cases hj : j = i
          · subst hj
            rw [hi] at hJ; cases hJ
            obtain ⟨K, hK, h4⟩ := hcov n h3 h2
            rcases (hmemL K).1 hK with rfl | hK
            · exact Or.inl ⟨K, by rw [e_isl]; simp, h4⟩
            · exact Or.inr ⟨rfl, K, hK, h4⟩
          · exact Or.inl ⟨J, by rw [e_isl, Function.update_of_ne hj, hJ], h3⟩
        · intro j J n hj hn hp
          rw [gp] at hp
          rw [e_nres]
          rcases hcase j J hj with ⟨rfl, rfl⟩ | ⟨hj', hJ⟩
          · exact C.nOut _ I n hi (hsub _ hSL n hn) hp
          · exact C.nOut j J n hJ hn hp
        · intro j J n hj hn
          rw [gn]
          rcases hcase j J hj with ⟨rfl, rfl⟩ | ⟨hj', hJ⟩
          · exact C.nNode _ I n hi (hsub _ hSL n hn)
          · exact C.nNode j J n hJ hn
        · intro j J n hj hn hp
          rw [gp] at hp
          rw [e_mres]
          rcases hcase j J hj with ⟨rfl, rfl⟩ | ⟨hj', hJ⟩
          · exact C.mOut _ I n hi (hsub _ hSL n hn) hp
          · exact C.mOut j J n hJ hn hp
        · intro e j h
          rw [ge]
          rw [e_eres] at h
          obtain ⟨h1, J, hJ, h3⟩ := C.eIn e j h
          refine ⟨h1, ?_⟩
          by_cases hj : j = i
          · subst hj
            rw [hi] at hJ; cases hJ
            obtain ⟨x, hx, rfl⟩ := h1
            have hends := C.ends x hx j I h hi
            have : ∃ K ∈ L, x.id ∈ K.edges := by
              rcases C.endp x hx j h with hp | hp
              · obtain ⟨K, hK, h4⟩ := hcov _ hends.1 hp
                obtain ⟨_, _, _, hT⟩ := his K hK
                exact ⟨K, hK, (hT.edges _).2 ⟨x, hx, rfl, Or.inl ⟨h4, hp⟩⟩⟩
              · obtain ⟨K, hK, h4⟩ := hcov _ hends.2 hp
                obtain ⟨_, _, _, hT⟩ := his K hK
                exact ⟨K, hK, (hT.edges _).2 ⟨x, hx, rfl, Or.inr ⟨h4, hp⟩⟩⟩
            obtain ⟨K, hK, h4⟩ := this
            rcases (hmemL K).1 hK with rfl | hK
            · exact Or.inl ⟨K, by rw [e_isl]; simp, h4⟩
            · exact Or.inr ⟨rfl, K, hK, h4⟩
          · exact Or.inl ⟨J, by rw [e_isl, Function.update_of_ne hj, hJ], h3⟩
        · intro j J e hj hn
          rw [e_eres]
          rcases hcase j J hj with ⟨rfl, rfl⟩ | ⟨hj', hJ⟩
          · exact hsubE _ hSL e hn
          · exact C.eOut j J e hJ hn
        · intro j J hj
          rcases hcase j J hj with ⟨rfl, rfl⟩ | ⟨hj', hJ⟩
          · obtain ⟨_, _, _, hT⟩ := his _ hSL
            exact hT.nd
          · exact C.nd j J hJ
        · intro x hx j J hj hxJ
          rw [ge] at hx
          rcases hcase j J hj with ⟨rfl, rfl⟩ | ⟨hj', hJ⟩
          · exact hendsK x hx _ hSL hxJ
          · exact C.ends x hx j J (C.eOut j J _ hJ hxJ) hJ
        · rw [ge, gp, e_eres]; exact C.endp
        · intro j J hj
          rw [e_next]
          rcases hcase j J hj with ⟨rfl, rfl⟩ | ⟨hj', hJ⟩
          · exact hinx
          · exact C.fresh j J hJ
        · rw [e_mres, e_next]; exact C.mFresh
        · intro j J hj hs
          rw [gp]
          rcases hcase j J hj with ⟨rfl, rfl⟩ | ⟨hj', hJ⟩
          · rw [e_slI] at hs; simp at hs
          · rw [e_slI, Function.update_of_ne hj'] at hs
            have := C.s1 j J hJ hs
            refine ⟨fun n hn hp => ?_, fun e he => ?_⟩
            · rw [e_slN, if_neg]
              · exact this.1 n hn hp
              · intro h
                have h1 := C.nOut i I n hi (hsub _ hSL n h) hp
                rw [C.nOut j J n hJ hn hp] at h1; simp at h1; exact hj' h1
            · rw [e_slE, if_neg]
              · exact this.2 e he
              · intro h
                have h1 := hsubE _ hSL e h
                rw [C.eOut j J e hJ he] at h1; simp at h1; exact hj' h1
        · intro j J hj hs
          rcases hcase j J hj with ⟨rfl, rfl⟩ | ⟨hj', hJ⟩
          · refine ⟨fun n hn => ?_, fun e he => ?_⟩
            · rw [e_slN, if_pos hn]
            · rw [e_slE, if_pos he]
          · rw [e_slI, Function.update_of_ne hj'] at hs
            have := C.s2 j J hJ hs
            refine ⟨fun n hn => ?_, fun e he => ?_⟩
            · rw [e_slN]; split
              · rfl
              · exact this.1 n hn
            · rw [e_slE]; split
              · rfl
              · exact this.2 e he
        · intro n hp
          rw [gp] at hp
          rw [e_slN]; split
          · rfl
          · exact C.s3 n hp
        · intro n h
          rw [e_nres] at h
          rw [e_slN]; split
          · rfl
          · exact C.s4 n h
        · intro e h
          rw [e_eres] at h
          rw [e_slE]; split
          · rfl
          · exact C.s5 e h
        · intro K hK
          obtain ⟨_, _, _, hT⟩ := his K (hrL K hK)
          exact hT.nd
        · intro K hK n hn
          rw [gn, gp, e_nres]
          have := hsub K (hrL K hK) n hn
          exact ⟨C.nNode i I n hi this, fun hp => C.nOut i I n hi this hp⟩
        · intro K hK e he
          rw [e_eres]; exact hsubE K (hrL K hK) e he
        · intro x hx K hK h
          rw [ge] at hx
          exact hendsK x hx K (hrL K hK) h
        · have : ∀ A B, Apart w0 A B ↔ Apart w A B := by intro A B; unfold Apart; rw [gp]
          exact hapP.imp (fun h => (this _ _).2 h)
      obtain ⟨w', h1, h2, h3, h4, h5, h6, h7, h8, h9⟩ := makeIslands_spec rest w0 M
      rw [List.pairwise_cons] at hapP
      refine ⟨w', h1, h2, ?_, G.trans h3, by omega, ?_, ?_, ?_, ?_⟩
      · intro n hn hp
        rw [h3.nodes, gn] at hn
        rw [h3.proc, gp] at hp
        rintro (hc | ⟨x, hx, hxn, hc⟩)
        · obtain ⟨j, hj⟩ := Option.ne_none_iff_exists'.1 (fun h => St n hn hp (Or.inl h))
          by_cases hr : ∃ K ∈ rest, n ∈ K.nodes
          · obtain ⟨K, hK, h⟩ := hr
            obtain ⟨k, _, _, h⟩ := h7 K hK
            rw [h n ‹_› (by rw [gp]; exact hp)] at hc; cases hc
          · rw [h6 n (fun K hK h => absurd ⟨K, hK, h⟩ hr), e_nres, hj] at hc; cases hc
        · rw [h3.edges, ge] at hx
          have hne : w.eres x.id ≠ none := fun h => St n hn hp (Or.inr ⟨x, hx, hxn, h⟩)
          by_cases hr : ∃ K ∈ rest, x.id ∈ K.edges
          · obtain ⟨K, hK, h⟩ := hr
            exact h9 K hK _ h hc
          · rw [h8 _ (fun K hK h => hr ⟨K, hK, h⟩), e_eres] at hc
            exact hne hc
      · intro j hj hji
        rw [h5 j (by omega), e_isl, Function.update_of_ne hji]
      · intro n hn
        rw [h6 n, e_nres]
        intro K hK h
        cases hp : w0.proc n with
        | false => rfl
        | true =>
          rw [gp] at hp
          exact absurd (C.nOut i I n hi (hsub K (hrL K hK) n h) hp) hn
      · intro n j hn hj
        by_cases hr : ∃ K ∈ rest, n ∈ K.nodes
        · obtain ⟨K, hK, h⟩ := hr
          obtain ⟨k, hk, _, h'⟩ := h7 K hK
          rw [h' n h (by rw [gp]; exact (hmemI n hn).2)] at hj
          simp at hj
          right; omega
        · rw [h6 n (fun K hK h => absurd ⟨K, hK, h⟩ hr), e_nres, hn] at hj
          simp at hj; exact Or.inl hj.symm
      · intro n m hn hm hnm
        obtain ⟨hn1, hn2⟩ := hmemI n hn
        obtain ⟨hm1, hm2⟩ := hmemI m hm
        have key : ∀ n, w.nres n = some i → n ∈ I.nodes → w.proc n = true →
            (n ∈ S.nodes ∧ w'.nres n = some i) ∨ ∃ K ∈ rest, n ∈ K.nodes ∧ ∃ k, w.next ≤ k ∧
              w'.isl k = some K ∧ w'.nres n = some k := by
          intro n hn hn1 hn2
          obtain ⟨K, hK, h⟩ := hcov n hn1 hn2
          rcases (hmemL K).1 hK with rfl | hK
          · left
            refine ⟨h, ?_⟩
            rw [h6 n, e_nres, hn]
            intro K' hK' h'
            exact absurd h' ((hapP.1 K' hK').1 n h hn2)
          · right
            obtain ⟨k, hk, hk2, h'⟩ := h7 K hK
            exact ⟨K, hK, h, k, by omega, hk2, h' n h (by rw [gp]; exact hn2)⟩
        rcases key n hn hn1 hn2 with ⟨a1, a2⟩ | ⟨K, hK, a1, k, a2, a3, a4⟩ <;>
          rcases key m hm hm1 hm2 with ⟨b1, b2⟩ | ⟨K', hK', b1, k', b2, b3, b4⟩
        · exact hlinkK S hSL n a1 m b1 hn2 hm2
        · rw [a2, b4] at hnm; simp at hnm; omega
        · rw [a4, b2] at hnm; simp at hnm; omega
        · rw [a4, b4] at hnm; simp at hnm; subst hnm
          rw [a3] at b3; cases b3
          exact hlinkK K (hrL K hK) n a1 m b1 hn2 hm2

theorem Joined.congr {w w' : W T} (h : SameGraph w w') (n m : Nat) : Joined w' n m ↔ Joined w n m := by
  unfold Joined; rw [h.edges]

theorem Linked.congr {w w' : W T} (h : SameGraph w w') (n m : Nat) : Linked w' n m ↔ Linked w n m := by
  unfold Linked
  have : Link w' = Link w := by
    funext p q; unfold Link; rw [h.proc, Joined.congr h]
  rw [this]

/-- What splitting several islands does. -/
structure SplitsOk (w w' : W T) (ids : List Nat) : Prop where
  core : Core w'
  settled : Settled w'
  graph : SameGraph w w'
  next : w.next ≤ w'.next
  other : ∀ j, j < w.next → j ∉ ids → w'.isl j = w.isl j
  same : ∀ n, (∀ i ∈ ids, w.nres n ≠ some i) → w'.nres n = w.nres n
  moved : ∀ n i j, i ∈ ids → w.nres n = some i → w'.nres n = some j → j = i ∨ w.next ≤ j
  linked : ∀ n m j, w'.nres n = some j → w'.nres m = some j →
    Linked w n m ∨ (j ∉ ids ∧ w.nres n = some j ∧ w.nres m = some j)

theorem splits_spec (env : Env T) (ids : List Nat) : ∀ (w : W T), Core w → Settled w → ids.Nodup →
    (∀ i ∈ ids, ∃ I, w.isl i = some I) →
    ∃ w', ids.foldlM (splitOne env) w = some w' ∧ SplitsOk w w' ids := by
  induction ids with
  | nil =>
    intro w C S _ _
    refine ⟨w, rfl, C, S, SameGraph.refl w, le_refl _, fun _ _ _ => rfl, fun _ _ => rfl, by simp, ?_⟩
    intro n m j h1 h2; right; exact ⟨by simp, h1, h2⟩
  | cons i ids ih =>
    intro w C S hnd hex
    rw [List.nodup_cons] at hnd
    obtain ⟨I, hi⟩ := hex i (by simp)
    obtain ⟨w1, hw1, O⟩ := splitOne_spec env w C S i I hi
    obtain ⟨w', h2, P⟩ := ih w1 O.core O.settled hnd.2 (by
      intro k hk
      obtain ⟨J, hJ⟩ := hex k (by simp [hk])
      have : k ≠ i := fun h => hnd.1 (h ▸ hk)
      exact ⟨J, by rw [O.other k (C.fresh k J hJ) this, hJ]⟩)
    refine ⟨w', by simp [List.foldlM_cons, hw1, h2], P.core, P.settled, O.graph.trans P.graph,
      le_trans O.next P.next, ?_, ?_, ?_, ?_⟩
    · intro j hj hjn
      simp only [List.mem_cons, not_or] at hjn
      rw [P.other j (lt_of_lt_of_le hj O.next) hjn.2, O.other j hj hjn.1]
    · intro n hn
      have h1 := O.same n (hn i (by simp))
      rw [P.same n, h1]
      intro k hk; rw [h1]; exact hn k (by simp [hk])
    · intro n k j hk hn hj
      by_cases hki : k = i
      · subst hki
        cases hn1 : w1.nres n with
        | none =>
          exfalso
          have hnode := (C.nIn n k hn)
          exact O.settled n (by rw [O.graph.nodes]; exact hnode.1)
            (by rw [O.graph.proc]; exact hnode.2.1) (Or.inl hn1)
        | some k1 =>
          have hk1 := O.moved n k1 hn hn1
          by_cases hk1i : k1 ∈ ids
          · rcases P.moved n k1 j hk1i hn1 hj with h | h
            · subst h; exact hk1
            · right; exact le_trans O.next h
          · have : w'.nres n = w1.nres n := by
              apply P.same
              intro x hx hcon
              rw [hn1] at hcon; simp at hcon; exact hk1i (hcon ▸ hx)
            rw [this, hn1] at hj; simp at hj; subst hj
            exact hk1
      · have hkids : k ∈ ids := by
          rcases List.mem_cons.1 hk with h | h
          · exact absurd h hki
          · exact h
        have hn1 : w1.nres n = some k := by
          rw [O.same n, hn]; rw [hn]; simp [hki]
        rcases P.moved n k j hkids hn1 hj with h | h
        · exact Or.inl h
        · right; exact le_trans O.next h
    · intro n m j hn hm
      rcases P.linked n m j hn hm with h | ⟨hj, hn1, hm1⟩
      · left; exact (Linked.congr O.graph n m).1 h
      · by_cases hni : w.nres n = some i <;> by_cases hmi : w.nres m = some i
        · left; exact O.linked n m hni hmi (by rw [hn1, hm1])
        · exfalso
          have h1 := O.same m hmi
          rw [hm1] at h1
          obtain ⟨_, _, J, hJ, _⟩ := C.nIn m j h1.symm
          have := C.fresh j J hJ
          rcases O.moved n j hni hn1 with h | h
          · exact hmi (h ▸ h1.symm)
          · omega
        · exfalso
          have h1 := O.same n hni
          rw [hn1] at h1
          obtain ⟨_, _, J, hJ, _⟩ := C.nIn n j h1.symm
          have := C.fresh j J hJ
          rcases O.moved m j hmi hm1 with h | h
          · exact hni (h ▸ h1.symm)
          · omega
        · right
          have h1 := O.same n hni
          have h2 := O.same m hmi
          rw [hn1] at h1; rw [hm1] at h2
          refine ⟨?_, h1.symm, h2.symm⟩
          intro hji
          rcases List.mem_cons.1 hji with h | h
          · exact hni (h ▸ h1.symm)
          · exact hj h

end Edyn.Islands
