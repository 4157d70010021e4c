import Verif.Lemmas.WrapAround
import Verif.Props.Forgery

/-! # C91: a server that sends words that are not reduced sees from the client's reaction whether several keys match -/

namespace Verif.Forge
open Res Verif.Field Verif.Field.Spec Verif.Fss Verif.Fss.Spec Verif.Predicate Verif.Predicate.Spec Verif.Query Verif.Rand
  Verif.Forge.Spec

/-- C91, full statement: the words of an answer stand for elements of the field. A server that sends the elements it is asked
for, written as it likes, gets the reaction of an honest run. -/
def C91_Statement : Prop :=
  ∀ (W : World) (mk : Int → Time) (db : KeyDB) (q : ClientFSS) (P : KeyInfo → Prop) (inOrder mal : Bool)
    (F : Msg → Res (List Byte)), (∀ t, (W.hash t).length = 32) → Ready W 5 → Loaded db → Asks W.hash mk db q P →
    NoHits W 5 db q → (∀ m b, W.serve (liar mal) 5 db m = ok b → ∃ b', F m = ok b' ∧ SameElements b b') →
    ∃ r, forgedRun W db q inOrder mal F = ok r ∧ r.toNat = due inOrder (numMatching db P)

/-- What the words of an answer written in another way add up to. -/
theorem sum_same {x x' y : U32} (h : x.toNat % p = x'.toNat % p) (hs : x'.toNat ≤ 2 ^ 32 - p)
    (hy : y.toNat < p) : ((x' + y) % modP).toNat = msum x y := by
  rw [add_mod_toNat (by rw [p_val] at *; omega)]
  unfold msum
  rw [Nat.add_mod, ← h, ← Nat.add_mod]

/-- C91 (part): as long as no word exceeds 2^32 minus the modulus. Missing: larger words (see `C91_word_raised`). -/
theorem C91_small_words_partial (W : World) (mk : Int → Time) (db : KeyDB) (q : ClientFSS) (P : KeyInfo → Prop)
    (inOrder mal : Bool) (F : Msg → Res (List Byte)) (hh : ∀ t, (W.hash t).length = 32) (hR : Ready W 5) (hdb : Loaded db)
    (hq : Asks W.hash mk db q P) (hno : NoHits W 5 db q)
    (hF : ∀ m b, W.serve (liar mal) 5 db m = ok b → ∃ b', F m = ok b' ∧ SameElements b b' ∧ Small b') :
    ∃ r, forgedRun W db q inOrder mal F = ok r ∧ r.toNat = due inOrder (numMatching db P) := by
  obtain ⟨h1, h2, h3, h4, f, hsel, hlen, hP⟩ := asks_selectors hh hq
  obtain ⟨st, rnd', buf', m0, m1, b0, b1, a0, a1, αs, hk, hqq, hl, hc, hal, hs0, hs1, u0, u1, hT, hm⟩ :=
    count_words hR hdb h1 h2 h3 hno hsel hlen h4 inOrder
  rw [numMatching_eq hP] at hm
  have hdue : (BitVec.ofNat 32 (msum (a0.getD 0 0) (a1.getD 0 0)) : U32).toNat = msum (a0.getD 0 0) (a1.getD 0 0) := by
    have : msum (a0.getD 0 0) (a1.getD 0 0) < p := Nat.mod_lt _ p_pos
    rw [p_val] at this
    rw [BitVec.toNat_ofNat]
    omega
  have key : ∀ c0 c1 : List U32, c0.length = 5 → c1.length = 5 →
      (∀ j, j < 5 → ((c0.getD j 0 + c1.getD j 0) % modP).toNat = msum (a0.getD j 0) (a1.getD j 0)) →
      reconstruct 5 st [c0, c1] = ok (BitVec.ofNat 32 (msum (a0.getD 0 0) (a1.getD 0 0))) := by
    intro c0 c1 l0 l1 hs
    rw [reconstruct_sums hl hc hal l0 l1 hs, if_pos]
    intro i hi
    exact (hT.tags i (by omega)).symm
  have hsmall : ∀ (a : List U32) (j : Nat), a.length = 5 → j < 5 → (∀ w ∈ a, w.toNat ≤ 2 ^ 32 - p) →
      (a.getD j 0).toNat ≤ 2 ^ 32 - p := by
    intro a j ha hj h
    rw [getD_of_lt _ (by omega)]
    exact h _ (List.getElem_mem _)
  refine ⟨BitVec.ofNat 32 (msum (a0.getD 0 0) (a1.getD 0 0)), ?_, by rw [hdue, hm]⟩
  have hmsgs : idx (if inOrder then [m0, m1] else [m1, m0]) (if inOrder then 0 else 1) = ok m0 ∧
      idx (if inOrder then [m0, m1] else [m1, m0]) (if inOrder then 1 else 0) = ok m1 := by
    cases inOrder <;> exact ⟨rfl, rfl⟩
  unfold forgedRun
  rw [hqq]
  simp only [ok_bind, hmsgs.1, hmsgs.2]
  cases mal with
  | true =>
    obtain ⟨b', hF', ⟨x, x', hx, hx', hxl, hxe⟩, y, hy, hys⟩ := hF m1 b1 hs1
    have ex : x = a1 := by rw [u1] at hx; simpa using hx.symm
    have ey : y = x' := by rw [hx'] at hy; simpa using hy.symm
    subst ex ey
    have l1 := hT.len1
    simp only [if_true, hs0, hF', ok_bind]
    rw [reconstructBytes_words 5 st _ _ _ _ u0 hx']
    apply key _ _ hT.len0 (by omega)
    intro j hj
    rw [BitVec.add_comm, sum_same (hxe j) (hsmall _ _ (by omega) hj hys) (hT.can0 j hj)]
    unfold msum
    rw [Nat.add_comm]
  | false =>
    obtain ⟨b', hF', ⟨x, x', hx, hx', hxl, hxe⟩, y, hy, hys⟩ := hF m0 b0 hs0
    have ex : x = a0 := by rw [u0] at hx; simpa using hx.symm
    have ey : y = x' := by rw [hx'] at hy; simpa using hy.symm
    subst ex ey
    have l0 := hT.len0
    simp only [Bool.false_eq_true, if_false, hs1, hF', ok_bind]
    rw [reconstructBytes_words 5 st _ _ _ _ hx' u1]
    apply key _ _ (by omega) hT.len1
    intro j hj
    rw [sum_same (hxe j) (hsmall _ _ (by omega) hj hys) (hT.can1 j hj)]

/-- C91: one of two servers adds the modulus to word `j` of its honest answer, which leaves the element of the field as it is.
The client adds the words of the two answers with 32 bits. It accepts with the right result if the honest word is at most
component `j` of the result or this component is 0 or 1; else it rejects. The server knows the honest word, so the reaction
compares the component with it. -/
theorem C91_word_raised (W : World) (mk : Int → Time) (db : KeyDB) (q : ClientFSS) (P : KeyInfo → Prop) (inOrder mal : Bool)
    (hh : ∀ t, (W.hash t).length = 32) (hR : Ready W 5) (hdb : Loaded db) (hq : Asks W.hash mk db q P)
    (hno : NoHits W 5 db q) (st : State) (rnd' : Prg) (hk : drawKeys W.fuel 5 W.rnd = ok (st, rnd')) (j : Nat) (hj : j < 5)
    (hz : j = 0 → ∃ i, i < 4 ∧ st.alphas.getD i 0 ≠ 0) :
    ∃ w, ownWord W db q inOrder mal j = ok w ∧
      forgedRun W db q inOrder mal (raised W mal db j) =
        if w.toNat ≤ component st (due inOrder (numMatching db P)) j ∨ component st (due inOrder (numMatching db P)) j < 2
        then ok (BitVec.ofNat 32 (due inOrder (numMatching db P))) else err "REJECT" := by
  obtain ⟨h1, h2, h3, h4, f, hsel, hlen, hP⟩ := asks_selectors hh hq
  obtain ⟨st', rnd'', buf', m0, m1, b0, b1, a0, a1, αs, hk', hqq, hl, hc, hal, hs0, hs1, u0, u1, hT, hm⟩ :=
    count_words hR hdb h1 h2 h3 hno hsel hlen h4 inOrder
  rw [numMatching_eq hP] at hm
  rw [hk'] at hk
  simp only [ok.injEq, Prod.mk.injEq] at hk
  obtain ⟨rfl, rfl⟩ := hk
  have l0 := hT.len0
  have l1 := hT.len1
  have hα : ∀ i, i < 4 → st'.alphas.getD i 0 = αs.getD i 0 := by
    intro i hi
    rw [hal, List.getD_eq_getElem?_getD, List.getD_eq_getElem?_getD, List.getElem?_append_left (by omega)]
  have hz' : j = 0 → ∃ i, i < 4 ∧ αs.getD i 0 ≠ 0 := by
    intro h
    obtain ⟨i, hi, hne⟩ := hz h
    exact ⟨i, hi, by rwa [← hα i hi]⟩
  have hcomp : component st' (due inOrder (numMatching db P)) j = msum (a0.getD j 0) (a1.getD j 0) := by
    unfold component
    by_cases h : j = 0
    · rw [if_pos h, ← hm, h]
    · rw [if_neg h, ← hm, hα (j - 1) (by omega), ← hT.tags (j - 1) (by omega), show j - 1 + 1 = j by omega]
  have hmsgs : idx (if inOrder then [m0, m1] else [m1, m0]) (if inOrder then 0 else 1) = ok m0 ∧
      idx (if inOrder then [m0, m1] else [m1, m0]) (if inOrder then 1 else 0) = ok m1 := by
    cases inOrder <;> exact ⟨rfl, rfl⟩
  have hown : idx (if inOrder then [m0, m1] else [m1, m0]) (if mal = inOrder then 1 else 0) = ok (if mal then m1 else m0) := by
    cases inOrder <;> cases mal <;> rfl
  cases mal with
  | true =>
    refine ⟨a1.getD j 0, ?_, ?_⟩
    · unfold ownWord
      rw [hqq]
      simp only [ok_bind, hown, liar, if_true, hs1, u1]
      exact idx_getD 0 (by omega)
    · obtain ⟨b', w', u'⟩ := words_roundtrip (a1.set j (a1.getD j 0 + modP))
      have hr : raised W true db j m1 = ok b' := by
        unfold raised
        simp only [liar, if_true, hs1, u1, ok_bind]
        rw [idx_getD 0 (by omega)]
        simp only [ok_bind]
        rw [setAt_of_lt (by omega)]
        exact w'
      unfold forgedRun
      rw [hqq]
      simp only [ok_bind, hmsgs.1, hmsgs.2, if_true, hs0, hr]
      rw [reconstructBytes_words 5 st' _ _ _ _ u0 u', hcomp, ← hm]
      exact reconstruct_raised hl hc hal hT hj hz' _ _ _ (Or.inr ⟨rfl, rfl, rfl⟩)
  | false =>
    refine ⟨a0.getD j 0, ?_, ?_⟩
    · unfold ownWord
      rw [hqq]
      simp only [ok_bind, hown, liar, Bool.false_eq_true, if_false, hs0, u0]
      exact idx_getD 0 (by omega)
    · obtain ⟨b', w', u'⟩ := words_roundtrip (a0.set j (a0.getD j 0 + modP))
      have hr : raised W false db j m0 = ok b' := by
        unfold raised
        simp only [liar, Bool.false_eq_true, if_false, hs0, u0, ok_bind]
        rw [idx_getD 0 (by omega)]
        simp only [ok_bind]
        rw [setAt_of_lt (by omega)]
        exact w'
      unfold forgedRun
      rw [hqq]
      simp only [ok_bind, hmsgs.1, hmsgs.2, Bool.false_eq_true, if_false, hs1, hr]
      rw [reconstructBytes_words 5 st' _ _ _ _ u' u1, hcomp, ← hm]
      exact reconstruct_raised hl hc hal hT hj hz' _ _ _ (Or.inl ⟨rfl, rfl, rfl⟩)

/-- C91: the first word. If it exceeds the result, as nearly all words do, the client accepts if and only if fewer than two keys
match. -/
theorem C91_fewer_than_two (W : World) (mk : Int → Time) (db : KeyDB) (q : ClientFSS) (P : KeyInfo → Prop) (mal : Bool)
    (hh : ∀ t, (W.hash t).length = 32) (hR : Ready W 5) (hdb : Loaded db) (hq : Asks W.hash mk db q P)
    (hno : NoHits W 5 db q) (st : State) (rnd' : Prg) (hk : drawKeys W.fuel 5 W.rnd = ok (st, rnd'))
    (hz : ∃ i, i < 4 ∧ st.alphas.getD i 0 ≠ 0) (hn : numMatching db P < p) (w : U32)
    (hw : ownWord W db q true mal 0 = ok w) (hlt : numMatching db P < w.toNat) :
    ((∃ r, forgedRun W db q true mal (raised W mal db 0) = ok r) ↔ numMatching db P < 2) ∧
    (forgedRun W db q true mal (raised W mal db 0) = err "REJECT" ↔ 2 ≤ numMatching db P) := by
  obtain ⟨w', hw', he⟩ := C91_word_raised W mk db q P true mal hh hR hdb hq hno st rnd' hk 0 (by omega) (fun _ => hz)
  rw [hw] at hw'
  simp only [ok.injEq] at hw'
  subst hw'
  have hd : due true (numMatching db P) = numMatching db P := by
    rw [due, if_pos rfl, Nat.mod_eq_of_lt hn]
  simp only [component, if_true, hd] at he
  rw [he]
  by_cases h2 : numMatching db P < 2
  · rw [if_pos (Or.inr h2)]
    exact ⟨⟨fun _ => h2, fun _ => ⟨_, rfl⟩⟩, ⟨fun h => by simp at h, fun h => by omega⟩⟩
  · rw [if_neg (by omega)]
    exact ⟨⟨fun ⟨r, h⟩ => by simp at h, fun h => absurd h h2⟩, ⟨fun _ => by omega, fun _ => rfl⟩⟩

/-! ### Concrete cases -/

/-- Compares two answers as elements of the field. -/
def sameBytes (b b' : List Byte) : Bool :=
  match Utils.byteSliceToUint32Slice b, Utils.byteSliceToUint32Slice b' with
  | ok a, ok a' => decide (a.length = a'.length) &&
      (List.range a.length).all (fun j => decide ((a.getD j 0).toNat % 2147483647 = (a'.getD j 0).toNat % 2147483647))
  | _, _ => false

theorem sameBytes_sound {b b' : List Byte} (h : sameBytes b b' = true) : SameElements b b' := by
  unfold sameBytes at h
  rw [Utils.byteSliceToUint32Slice_eq, Utils.byteSliceToUint32Slice_eq] at h
  refine ⟨_, _, Utils.byteSliceToUint32Slice_eq b, Utils.byteSliceToUint32Slice_eq b', ?_⟩
  simp only [Bool.and_eq_true, decide_eq_true_eq, List.all_eq_true, List.mem_range] at h
  refine ⟨h.1, fun j => ?_⟩
  by_cases hj : j < ((List.range (b.length / 4)).map (Utils.word b)).length
  · have := h.2 j hj
    rwa [p_val]
  · rw [List.getD_eq_getElem?_getD, List.getD_eq_getElem?_getD, List.getElem?_eq_none (by omega),
      List.getElem?_eq_none (by omega)]

/-- A server that adds the modulus to its first word, if this leaves the elements of the field as they are. -/
def cheater (W : World) (mal : Bool) (db : KeyDB) (m : Msg) : Res (List Byte) := do
  let b ← W.serve (liar mal) 5 db m
  match raised W mal db 0 m with
  | ok b' => if sameBytes b b' then ok b' else ok b
  | _ => ok b

theorem SameElements.refl (b : List Byte) : SameElements b b :=
  ⟨_, _, Utils.byteSliceToUint32Slice_eq b, Utils.byteSliceToUint32Slice_eq b, rfl, fun _ => rfl⟩

theorem cheater_same (W : World) (mal : Bool) (db : KeyDB) (m : Msg) (b : List Byte) (h : W.serve (liar mal) 5 db m = ok b) :
    ∃ b', cheater W mal db m = ok b' ∧ SameElements b b' := by
  unfold cheater
  rw [h]
  simp only [ok_bind]
  cases hr : raised W mal db 0 m with
  | ok b' =>
    by_cases hs : sameBytes b b' = true
    · exact ⟨b', by simp [hs], sameBytes_sound hs⟩
    · exact ⟨b, by simp [hs], SameElements.refl b⟩
  | err e => exact ⟨b, rfl, SameElements.refl b⟩
  | crash e => exact ⟨b, rfl, SameElements.refl b⟩

/-- Does the client accept? -/
def accepts (r : Res U32) : Bool :=
  match r with
  | ok _ => true
  | _ => false

/-- A world in which the servers' shares exceed the result. -/
def seeded : World := { world parityCipher 5 0 0 with r2 := List.replicate 16 5 }

theorem seeded_ready : Ready seeded 5 :=
  let h := world_ready5 parityCipher parityCipher_block 0 0
  ⟨h.cipher, h.same0, h.same1, h.buf, h.buf0, h.buf1, h.seed1, by simp [seeded], h.keys⟩

theorem seeded_noHits (db : KeyDB) (q : ClientFSS) : NoHits seeded 5 db q :=
  ⟨fun _ _ => ⟨parityCipher_noHit _ _, parityCipher_noHit _ _⟩,
    fun _ _ _ _ _ _ _ _ _ _ _ _ _ _ => parityCipher_noHit _ _⟩

/-- C91 is false: two of three keys match, a server adds the modulus to its first word, and the client rejects. -/
theorem C91_refuted : ¬ C91_Statement := by
  intro H
  obtain ⟨r, hr, -⟩ := H seeded dayTime exDB exQuery _ true false (cheater seeded false exDB) exHash_length
    seeded_ready rfl (exQuery_asks _ _) (seeded_noHits _ _) (fun m b h => cheater_same _ _ _ _ _ h)
  have : accepts (forgedRun seeded exDB exQuery true false (cheater seeded false exDB)) = false := by decide +kernel
  rw [hr] at this
  simp [accepts] at this

/-- The honest server 0's first word. -/
theorem seeded_word : ∃ w, ownWord seeded exDB exQuery true false 0 = ok w ∧ 2 < w.toNat := by
  have h : (match ownWord seeded exDB exQuery true false 0 with | ok w => decide (2 < w.toNat) | _ => false) = true := by
    decide +kernel
  revert h
  cases hd : ownWord seeded exDB exQuery true false 0 with
  | ok w => intro h; exact ⟨w, rfl, by simpa using h⟩
  | err e => simp
  | crash e => simp

/-- A MAC key is not 0. -/
theorem seeded_keys : ∃ st rnd', drawKeys seeded.fuel 5 seeded.rnd = ok (st, rnd') ∧ st.alphas.getD 0 0 ≠ 0 := by
  have h : (match drawKeys seeded.fuel 5 seeded.rnd with
      | ok (st, _) => decide (st.alphas.getD 0 0 ≠ 0) | _ => false) = true := by decide +kernel
  revert h
  cases hd : drawKeys seeded.fuel 5 seeded.rnd with
  | ok x => obtain ⟨st, rnd'⟩ := x; intro h; exact ⟨st, rnd', rfl, by simpa using h⟩
  | err e => simp
  | crash e => simp

/-- A case that meets the hypotheses: two keys match, and server 0 is told so by the client's rejection. -/
example : forgedRun seeded exDB exQuery true false (raised seeded false exDB 0) = err "REJECT" := by
  obtain ⟨w, hw, hlt⟩ := seeded_word
  obtain ⟨st, rnd', hk, hne⟩ := seeded_keys
  have hc := exDB_count
  refine (C91_fewer_than_two seeded dayTime exDB exQuery _ false exHash_length seeded_ready rfl (exQuery_asks _ _)
    (seeded_noHits _ _) st rnd' hk ⟨0, by omega, hne⟩ (by rw [hc, p_val]; omega) w hw (by rw [hc]; exact hlt)).2.2 (by rw [hc])

/-- A server that reduces the words of its honest answer. -/
def reduced (W : World) (mal : Bool) (db : KeyDB) (m : Msg) : Res (List Byte) := do
  let b ← W.serve (liar mal) 5 db m
  let a ← Utils.byteSliceToUint32Slice b
  Utils.uint32SliceToByteSlice (a.map (· % modP))

theorem reduced_same (W : World) (mal : Bool) (db : KeyDB) (m : Msg) (b : List Byte) (h : W.serve (liar mal) 5 db m = ok b) :
    ∃ b', reduced W mal db m = ok b' ∧ SameElements b b' ∧ Small b' := by
  have hb := Utils.byteSliceToUint32Slice_eq b
  obtain ⟨b', w', u'⟩ := words_roundtrip (((List.range (b.length / 4)).map (Utils.word b)).map (· % modP))
  refine ⟨b', ?_, ⟨_, _, hb, u', by simp, ?_⟩, ⟨_, u', ?_⟩⟩
  · unfold reduced
    rw [h]
    simp only [ok_bind, hb]
    exact w'
  · intro j
    rw [List.getD_eq_getElem?_getD, List.getD_eq_getElem?_getD, List.getElem?_map (f := (· % modP))]
    cases ((List.range (b.length / 4)).map (Utils.word b))[j]? with
    | none => rfl
    | some x =>
      rw [Option.map_some, Option.getD_some, Option.getD_some, BitVec.toNat_umod, modP_toNat, p_val, Nat.mod_mod]
  · intro w hw
    rw [List.mem_map] at hw
    obtain ⟨x, -, rfl⟩ := hw
    rw [BitVec.toNat_umod, modP_toNat, p_val]
    have := Nat.mod_lt x.toNat (y := 2147483647) (by omega)
    omega

/-- A case that meets the hypotheses of the positive part. -/
example : ∃ r, forgedRun seeded exDB exQuery true true (reduced seeded true exDB) = ok r ∧ r.toNat = 2 := by
  obtain ⟨r, hr, hv⟩ := C91_small_words_partial seeded dayTime exDB exQuery _ true true (reduced seeded true exDB)
    exHash_length seeded_ready rfl (exQuery_asks _ _) (seeded_noHits _ _) (fun m b h => reduced_same _ _ _ _ _ h)
  refine ⟨r, hr, ?_⟩
  rw [hv, exDB_count, due, if_pos rfl, p_val]

end Verif.Forge
