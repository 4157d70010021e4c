import Verif.Lemmas.ForgerySim

/-! # Queries with one forging server -/

namespace Verif.Forge
open Res Verif.Field Verif.Field.Spec Verif.Fss Verif.Fss.Spec Verif.Privacy Verif.Predicate Verif.Predicate.Spec Finset
set_option linter.constructorNameAsVariable false

/-! ### The client -/

theorem getD_of_idx {l : List U32} {i : Nat} {v : U32} (h : idx l i = ok v) : l.getD i 0 = v := by
  rw [idx_eq_ok] at h
  rw [List.getD_eq_getElem?_getD, h]
  rfl

theorem reconstruct_count_ok {st : State} {a0 a1 : List U32} {r : U32} (hl : a0.length = 5 ∨ a1.length = 5)
    (h : reconstruct 5 st [a0, a1] = ok r) :
    r = (a0.getD 0 0 + a1.getD 0 0) % modP ∧
      ∀ i, i < 4 → tagOf r (st.alphas.getD i 0) = (a0.getD (i + 1) 0 + a1.getD (i + 1) 0) % modP := by
  unfold reconstruct at h
  rw [idx_of_lt (l := [a0, a1]) (i := 0) (by simp), idx_of_lt (l := [a0, a1]) (i := 1) (by simp)] at h
  simp only [ok_bind, List.getElem_cons_zero, List.getElem_cons_succ] at h
  by_cases h10 : a0.length = 2 * 5
  · exfalso
    rw [if_pos h10] at h
    have h1 : a1.length = 5 := by omega
    simp only [bind_eq_ok] at h
    obtain ⟨_, -, _, -, _, -, s1, hs1, _, -, _, -, _, -, _, h3, -⟩ := h
    rw [slice_eq_ok] at hs1
    have hn : s1 = [] := by rw [hs1.2.2, h1]; rfl
    rw [hn] at h3
    cases h3
  · rw [if_neg h10] at h
    simp only [bind_eq_ok] at h
    obtain ⟨d0, h0, d1, h1, ⟨⟩, hloop, hr⟩ := h
    simp only [ok.injEq] at hr
    rw [getD_of_idx h0, getD_of_idx h1, hr]
    refine ⟨rfl, ?_⟩
    intro i hi
    have hb := check_loop_ok _ _ _ hloop i (by omega)
    simp only [bind_eq_ok] at hb
    obtain ⟨al, ha, x0, hx0, x1, hx1, hif⟩ := hb
    rw [getD_of_idx ha, getD_of_idx hx0, getD_of_idx hx1]
    by_contra hne
    rw [hr] at hif
    rw [if_pos hne] at hif
    cases hif

theorem reconstruct_avg_ok {st : State} {a0 a1 : List U32} {r : U32} (hl : a0.length = 10)
    (h : reconstruct 5 st [a0, a1] = ok r) :
    ∃ c s : U32, c = (a0.getD 0 0 + a1.getD 0 0) % modP ∧ s = (a0.getD 5 0 + a1.getD 5 0) % modP ∧ divU32 s c = ok r ∧
      10 ≤ a1.length ∧ ∀ i, i < 4 → tagOf c (st.alphas.getD i 0) = (a0.getD (i + 1) 0 + a1.getD (i + 1) 0) % modP ∧
        tagOf s (st.alphas.getD i 0) = (a0.getD (5 + (i + 1)) 0 + a1.getD (5 + (i + 1)) 0) % modP := by
  unfold reconstruct at h
  rw [idx_of_lt (l := [a0, a1]) (i := 0) (by simp), idx_of_lt (l := [a0, a1]) (i := 1) (by simp)] at h
  simp only [ok_bind, List.getElem_cons_zero, List.getElem_cons_succ] at h
  rw [if_pos (by omega)] at h
  simp only [bind_eq_ok] at h
  obtain ⟨f0, g0, f1, g1, u0, v0, u1, v1, c0, hc0, c1, hc1, s0, hs0, s1, hs1, ⟨⟩, hloop, hr⟩ := h
  rw [slice_eq_ok] at g0 g1 v0 v1
  have e0 : ∀ (l : List U32) i, i < 5 → ((l.drop 0).take (5 - 0)).getD i 0 = l.getD i 0 := by
    intro l i hi
    simp only [List.getD_eq_getElem?_getD, List.drop_zero, List.getElem?_take]
    rw [if_pos (by omega)]
  have e1 : ∀ (l : List U32) i, ((l.drop 5).take (l.length - 5)).getD i 0 = l.getD (5 + i) 0 := by
    intro l i
    rw [List.take_of_length_le (by simp)]
    simp only [List.getD_eq_getElem?_getD, List.getElem?_drop]
  obtain ⟨-, -, rfl⟩ := g0
  obtain ⟨-, -, rfl⟩ := g1
  obtain ⟨-, -, rfl⟩ := v0
  obtain ⟨-, -, rfl⟩ := v1
  have q0 := getD_of_idx hc0
  have q1 := getD_of_idx hc1
  have q2 := getD_of_idx hs0
  have q3 := getD_of_idx hs1
  rw [e0 _ _ (by omega)] at q0 q1
  rw [e1] at q2 q3
  have main : ∀ i, i < 4 → (tagOf ((c0 + c1) % modP) (st.alphas.getD i 0) = (a0.getD (i + 1) 0 + a1.getD (i + 1) 0) % modP ∧
      tagOf ((s0 + s1) % modP) (st.alphas.getD i 0) = (a0.getD (5 + (i + 1)) 0 + a1.getD (5 + (i + 1)) 0) % modP) ∧
      5 + (i + 1) < a1.length := ?_
  · exact ⟨(c0 + c1) % modP, (s0 + s1) % modP, by rw [q0, q1], by rw [q2, q3], hr, (main 3 (by omega)).2,
      fun i hi => (main i hi).1⟩
  intro i hi
  have hb := check_loop_ok _ _ _ hloop i (by omega)
  simp only [bind_eq_ok] at hb
  obtain ⟨al, ha, x0, hx0, x1, hx1, hif⟩ := hb
  have w0 := getD_of_idx hx0
  have w1 := getD_of_idx hx1
  rw [e0 _ _ (by omega)] at w0 w1
  rw [getD_of_idx ha, w0, w1]
  by_cases hne : tagOf ((c0 + c1) % modP) al = (x0 + x1) % modP
  · rw [if_neg (not_not.2 hne)] at hif
    simp only [bind_eq_ok] at hif
    obtain ⟨y0, hy0, y1, hy1, hif⟩ := hif
    have w2 := getD_of_idx hy0
    have w3 := getD_of_idx hy1
    have hlen : 5 + (i + 1) < a1.length := by
      rw [idx_eq_ok] at hy1
      have := (List.getElem?_eq_some_iff.1 hy1).1
      simp only [List.length_take, List.length_drop] at this
      omega
    rw [e1] at w2 w3
    refine ⟨⟨hne, ?_⟩, hlen⟩
    rw [w2, w3]
    by_contra hne2
    rw [if_pos hne2] at hif
    cases hif
  · rw [if_pos hne] at hif
    cases hif

/-! ### The MAC keys -/

theorem macSource_read (β : Fin 3 → Fin p) (α : Fin p) (i : Nat) (buf : List Byte) (hb : buf.length = 4) :
    Rand.Prg.read ⟨(macSource β α).ks, i * 16⟩ buf
      = (putBE32 ((vals (shared β) α).getD (i + 1) 0), ⟨(macSource β α).ks, (i + 1) * 16⟩) := by
  unfold Rand.Prg.read
  rw [if_pos (by omega)]
  unfold Rand.xorKeyStream
  simp only [hb, List.length_replicate]
  have h1 : List.drop 16 buf = [] := List.drop_eq_nil_of_le (by omega)
  rw [h1, List.append_nil]
  have h2 : i * 16 + 16 = (i + 1) * 16 := by ring
  rw [h2]
  congr 1
  apply List.ext_getElem
  · simp [Rand.keyStream]
  · intro j h3 h4
    have hj : j < 4 := by simpa using h4
    simp only [List.getElem_take, List.getElem_zipWith, List.getElem_replicate, Rand.keyStream, List.getElem_map,
      List.getElem_range, macSource]
    have d1 : (i * 16 + j) / 16 = i := by omega
    have d2 : (i * 16 + j) % 16 = j := by omega
    rw [d1, d2, getD_of_lt _ h4]
    exact BitVec.zero_xor

theorem draw_one {fuel : Nat} (hf : 0 < fuel) (β : Fin 3 → Fin p) (α : Fin p) {i : Nat} (_ : i < 4) :
    randElementWithPRG fuel ⟨(macSource β α).ks, i * 16⟩
      = ok ((vals (shared β) α).getD (i + 1) 0, ⟨(macSource β α).ks, (i + 1) * 16⟩) := by
  obtain ⟨f, rfl⟩ : ∃ f, fuel = f + 1 := ⟨fuel - 1, by omega⟩
  have hc : Canonical ((vals (shared β) α).getD (i + 1) 0) := canonical_getD (vals_canonical β α) _
  generalize hv : (vals (shared β) α).getD (i + 1) 0 = v at *
  have hlt : v.toNat < 2 ^ 31 := by
    have h2 := p_lt
    unfold Canonical at hc
    omega
  unfold randElementWithPRG randElementLoop
  rw [if_pos rfl, macSource_read β α i _ (by simp), hv]
  simp only
  rw [idx_of_lt (by simp)]
  simp only [ok_bind]
  rw [setAt_of_lt (by simp)]
  simp only [ok_bind]
  have hget : getBE32 ((putBE32 v).set 0 ((putBE32 v)[0]'(by simp) &&& Field.mask)) = ok v := by
    have hbe : ofBE (putBE32 v) = v.toNat := by
      unfold putBE32
      rw [ofBE_beBytes]
      omega
    have key : ∀ (w : List Byte) (h : 0 < w.length), w.length = 4 → ofBE w = v.toNat →
        getBE32 (w.set 0 (w[0] &&& Field.mask)) = ok v := by
      intro w h hwl hbe
      obtain ⟨b0, b1, b2, b3, rfl⟩ := len4 hwl
      show getBE32 [b0 &&& Field.mask, b1, b2, b3] = ok v
      rw [getBE32_masked]
      congr 1
      apply BitVec.eq_of_toNat_eq
      rw [maskedWord_toNat, low31, hbe]
      omega
    exact key _ _ (by simp) hbe
  rw [hget]
  simp only [ok_bind]
  have hne : v ≠ modP := by
    intro h
    unfold Canonical at hc
    rw [h, modP_toNat, p_val] at hc
    omega
  cases f with
  | zero => unfold randElementLoop; rw [if_neg hne]
  | succ f => unfold randElementLoop; rw [if_neg hne]

theorem drawKeys_mac {fuel : Nat} (hf : 0 < fuel) (β : Fin 3 → Fin p) (α : Fin p) :
    ∃ rnd', drawKeys fuel 5 (macSource β α) = ok (clientState β α, rnd') := by
  have h0 := draw_one hf β α (i := 0) (by omega)
  have h1 := draw_one hf β α (i := 1) (by omega)
  have h2 := draw_one hf β α (i := 2) (by omega)
  have h3 := draw_one hf β α (i := 3) (by omega)
  have hs : macSource β α = ⟨(macSource β α).ks, 0 * 16⟩ := rfl
  refine ⟨⟨(macSource β α).ks, 4 * 16⟩, ?_⟩
  unfold drawKeys
  rw [hs]
  simp only [show (5 - 1 : Nat) = 3 + 1 from rfl]
  rw [setAt_of_lt (by simp)]
  simp only [ok_bind]
  rw [forLoop_succ, forLoop_succ, forLoop_succ, forLoop_succ]
  simp only [show forLoop 0 = fun (_ : Nat → List U32 × List U32 × Rand.Prg → Res _) s => ok s from rfl]
  have hset : ∀ (l : List U32) (i : Nat) (v : U32), l.length = 5 → i < 5 → setAt l i v = ok (l.set i v) :=
    fun l i v h1 h2 => setAt_of_lt (by omega)
  simp only [ok_bind, h0, Nat.zero_add]
  rw [hset _ _ _ (by simp) (by omega), ok_bind, hset _ _ _ (by simp) (by omega)]
  simp only [ok_bind, h1]
  rw [hset _ _ _ (by simp) (by omega), ok_bind, hset _ _ _ (by simp) (by omega)]
  simp only [ok_bind, show (1 + 1 : Nat) = 2 from rfl, h2]
  rw [hset _ _ _ (by simp) (by omega), ok_bind, hset _ _ _ (by simp) (by omega)]
  simp only [ok_bind, show (2 + 1 : Nat) = 3 from rfl, h3]
  rw [hset _ _ _ (by simp) (by omega), ok_bind, hset _ _ _ (by simp) (by omega)]
  rfl

/-! ### The honest server -/

theorem honest_count {W : World} {mal : Bool} {e : U32} {fr : Nat → U32} (hS : Setup W mal e fr) {db : KeyDB}
    (hdb : Loaded db) {q : Query.ClientFSS} (ha : q.info.avg = false) (hs : q.info.sum = false)
    (ht : q.info.and = true ∨ q.info.target ≤ 2) {f : KeyInfo → Option (List Bool)}
    (hsel : ∀ ki ∈ db.keys, keyId W.hash q.info ki = ok (f ki)) {n : Nat}
    (hlen : ∀ ki ∈ db.keys, ∀ id, f ki = some id → id.length = n) {k : Key} (hk : KeyOk k n) :
    ∃ b H, W.serve (if mal then 0 else 1) 5 db ⟨q.info, k⟩ = ok b ∧ Utils.byteSliceToUint32Slice b = ok H ∧ H.length = 5 ∧
      ∀ j, j < 5 → (H.getD j 0).toNat
        = realSum W.env.E (if mal then 0 else 1) k (recsTo db.keys f fr (fun _ _ => 1) db.numColumns) j := by
  have hd : db.numColumns ≤ db.keys.length := le_of_eq hdb
  cases mal
  · obtain ⟨acc, h1, h2, h3⟩ := countLoop_sum hS.cipher hS.same hS.draws (sn := 1) hd hk hsel hlen hS.buf1
    obtain ⟨b, w, u⟩ := words_roundtrip acc.out
    refine ⟨b, acc.out, ?_, u, h2, h3⟩
    unfold World.serve
    simp only [Bool.false_eq_true, if_false]
    rw [if_neg (by decide), answer_count ha hs ht]
    simp only [honestEnv, Bool.false_eq_true, if_false] at h1
    rw [h1]
    exact w
  · obtain ⟨acc, h1, h2, h3⟩ := countLoop_sum hS.cipher hS.same hS.draws (sn := 0) hd hk hsel hlen hS.buf0
    obtain ⟨b, w, u⟩ := words_roundtrip acc.out
    refine ⟨b, acc.out, ?_, u, h2, h3⟩
    unfold World.serve
    simp only [if_true]
    rw [answer_count ha hs ht]
    simp only [honestEnv, if_true] at h1
    rw [h1]
    exact w

theorem honest_avg {W : World} {mal : Bool} {e : U32} {fr : Nat → U32} (hS : Setup W mal e fr) {db : KeyDB}
    (hdb : Loaded db) {q : Query.ClientFSS} (ha : q.info.avg = true) (hs : q.info.sum = false)
    (ht : q.info.and = true) {f : KeyInfo → Option (List Bool)}
    (hsel : ∀ ki ∈ db.keys, keyId W.hash q.info ki = ok (f ki)) {n : Nat}
    (hage : ∀ i, ∀ ki ∈ db.keys, honestNow W mal i - ki.creation.year < 2 ^ 32)
    (hlen : ∀ ki ∈ db.keys, ∀ id, f ki = some id → id.length = n) {k : Key} (hk : KeyOk k n) :
    ∃ b H, W.serve (if mal then 0 else 1) 5 db ⟨q.info, k⟩ = ok b ∧ Utils.byteSliceToUint32Slice b = ok H ∧ H.length = 10 ∧
      ∀ j, j < 5 → (H.getD j 0).toNat = realSum W.env.E (if mal then 0 else 1) k
          (recsTo db.keys f fr (isAged (honestNow W mal)) db.numColumns) j ∧
        (H.getD (5 + j) 0).toNat = realSum W.env.E (if mal then 0 else 1) k
          (recsTo db.keys f fr (ageOf (honestNow W mal)) db.numColumns) j := by
  have hd : db.numColumns ≤ db.keys.length := le_of_eq hdb
  have app : ∀ (x y : List U32), x.length = 5 → ∀ j, j < 5 → (x ++ y).getD j 0 = x.getD j 0 ∧
      (x ++ y).getD (5 + j) 0 = y.getD j 0 := by
    intro x y hx j hj
    simp only [List.getD_eq_getElem?_getD]
    rw [List.getElem?_append_left (by omega), List.getElem?_append_right (by omega), hx, Nat.add_sub_cancel_left]
    exact ⟨rfl, rfl⟩
  cases mal
  · obtain ⟨acc, sum, h1, h2, h3, h4⟩ := avgLoop_sum hS.cipher hS.same hS.draws (sn := 1) hd hk hage hsel hlen hS.buf1
    obtain ⟨b, w, u⟩ := words_roundtrip (acc.out ++ sum)
    refine ⟨b, acc.out ++ sum, ?_, u, by simp [h2, h3], ?_⟩
    · unfold World.serve
      simp only [Bool.false_eq_true, if_false]
      rw [if_neg (by decide), answer_avg ha hs ht]
      simp only [honestEnv, honestNow, Bool.false_eq_true, if_false] at h1
      rw [h1]
      exact w
    · intro j hj
      rw [(app _ _ h2 j hj).1, (app _ _ h2 j hj).2]
      exact h4 j hj
  · obtain ⟨acc, sum, h1, h2, h3, h4⟩ := avgLoop_sum hS.cipher hS.same hS.draws (sn := 0) hd hk hage hsel hlen hS.buf0
    obtain ⟨b, w, u⟩ := words_roundtrip (acc.out ++ sum)
    refine ⟨b, acc.out ++ sum, ?_, u, by simp [h2, h3], ?_⟩
    · unfold World.serve
      simp only [if_true]
      rw [answer_avg ha hs ht]
      simp only [honestEnv, honestNow, if_true] at h1
      rw [h1]
      exact w
    · intro j hj
      rw [(app _ _ h2 j hj).1, (app _ _ h2 j hj).2]
      exact h4 j hj

/-! ### A run -/

/-- A run in which one server forges: the forging server has one key, the honest one the other. -/
theorem forgedRun_eq {W : World} {mal : Bool} {e : U32} {fr : Nat → U32} (hS : Setup W mal e fr) (db : KeyDB)
    (q : Query.ClientFSS) (inOrder : Bool) (F : Msg → Res (List Byte)) (β : Fin 3 → Fin p) (α : Fin p)
    (s0 s1 : Fin 16 → Byte) (tb : Byte) :
    ∃ km kh, received W.env (mal == inOrder) q.input (shared β) s0 s1 tb α = ok km ∧
      Twins W.env.E e (mal == inOrder) q.input (vals (shared β) α) km kh ∧
      ∀ bh H, W.serve (if mal then 0 else 1) 5 db ⟨q.info, kh⟩ = ok bh → Utils.byteSliceToUint32Slice bh = ok H →
        ∀ r, forgedRun (drawn W β α s0 s1 tb) db q inOrder mal F = ok r →
          reconstruct 5 (clientState β α) (if mal then [H, wordsOf q F km] else [wordsOf q F km, H]) = ok r := by
  obtain ⟨k0, k1, o, hg, hsec⟩ := keys_five hS.cipher hS.draw hS.canonical hS.buf q.input β α s0 s1 tb
  obtain ⟨hrec, hT⟩ := hsec (mal == inOrder)
  refine ⟨_, _, hrec, hT, ?_⟩
  intro bh H hserve hdec r hrun
  obtain ⟨rnd', hd⟩ := drawKeys_mac hS.fuel β α
  have hq : query W.env W.fuel 5 (macSource β α) W.buf (List.ofFn s0 ++ [tb]) (List.ofFn s1) q 2 =
      ok ([⟨q.info, k0⟩, ⟨q.info, k1⟩], clientState β α, rnd', o) := by
    unfold query
    rw [if_neg (by simp), hd]
    simp only [ok_bind]
    rw [show (clientState β α).a = vals (shared β) α from rfl, hg]
    rfl
  unfold forgedRun at hrun
  simp only [show (drawn W β α s0 s1 tb).env = W.env from rfl, show (drawn W β α s0 s1 tb).fuel = W.fuel from rfl,
    show (drawn W β α s0 s1 tb).rnd = macSource β α from rfl, show (drawn W β α s0 s1 tb).buf = W.buf from rfl,
    show (drawn W β α s0 s1 tb).r1 = List.ofFn s0 ++ [tb] from rfl, show (drawn W β α s0 s1 tb).r2 = List.ofFn s1 from rfl,
    show ∀ sn m, (drawn W β α s0 s1 tb).serve sn 5 db m = W.serve sn 5 db m from fun _ _ => rfl] at hrun
  rw [hq] at hrun
  simp only [ok_bind] at hrun
  rw [show idx [(⟨q.info, k0⟩ : Msg), ⟨q.info, k1⟩] (if inOrder then 0 else 1)
      = ok ⟨q.info, if inOrder then k0 else k1⟩ by cases inOrder <;> rfl,
    show idx [(⟨q.info, k0⟩ : Msg), ⟨q.info, k1⟩] (if inOrder then 1 else 0)
      = ok ⟨q.info, if inOrder then k1 else k0⟩ by cases inOrder <;> rfl] at hrun
  simp only [ok_bind] at hrun
  have dec : ∀ {k b}, F ⟨q.info, k⟩ = ok b → Utils.byteSliceToUint32Slice b = ok (wordsOf q F k) := by
    intro k b h1
    unfold wordsOf
    rw [h1]
    simp only
    rw [Utils.byteSliceToUint32Slice_eq]
  cases mal
  · have hb : (if (false == inOrder) = true then k1 else k0) = if inOrder then k0 else k1 := by cases inOrder <;> rfl
    have hb' : (if (false == inOrder) = true then k0 else k1) = if inOrder then k1 else k0 := by cases inOrder <;> rfl
    rw [hb'] at hserve
    simp only [Bool.false_eq_true, if_false, bind_eq_ok] at hserve hrun ⊢
    obtain ⟨a0, h0, a1, h1, h2⟩ := hrun
    rw [hserve] at h1
    cases h1
    rw [hb, ← reconstructBytes_words 5 _ _ _ _ _ (dec h0) hdec]
    exact h2
  · have hb : (if (true == inOrder) = true then k1 else k0) = if inOrder then k1 else k0 := by cases inOrder <;> rfl
    have hb' : (if (true == inOrder) = true then k0 else k1) = if inOrder then k0 else k1 := by cases inOrder <;> rfl
    rw [hb'] at hserve
    simp only [if_true, bind_eq_ok] at hserve hrun ⊢
    obtain ⟨a0, h0, a1, h1, h2⟩ := hrun
    rw [hserve] at h0
    cases h0
    rw [hb, ← reconstructBytes_words 5 _ _ _ _ _ hdec (dec h1)]
    exact h2

theorem wrong_of {W : World} {db : KeyDB} {q : Query.ClientFSS} {inOrder mal : Bool} {e : U32} {fr : Nat → U32}
    {wt : Nat → KeyInfo → Nat} {n : Nat} (hn : n < p)
    (h : n ≠ due inOrder (settingOf W db q inOrder mal e fr wt).total) :
    Wrong (settingOf W db q inOrder mal e fr wt) n := by
  intro hw
  apply h
  generalize (settingOf W db q inOrder mal e fr wt).total = t at *
  have hs : (settingOf W db q inOrder mal e fr wt).sign = if inOrder then 1 else -1 := by
    cases mal <;> cases inOrder <;> simp [Setting.sign, settingOf]
  rw [hs] at hw
  have hm := Nat.mod_lt t p_pos
  unfold due
  cases inOrder
  · simp only [Bool.false_eq_true, if_false, neg_one_mul] at hw ⊢
    rw [← cast_mod t, ← neg_cast hm.le, ← cast_mod (p - t % p)] at hw
    exact eq_of_cast hn (Nat.mod_lt _ p_pos) hw
  · simp only [if_true, one_mul] at hw ⊢
    rw [← cast_mod t] at hw
    exact eq_of_cast hn hm hw

theorem recsTo_length {keys : List KeyInfo} {f : KeyInfo → Option (List Bool)} {fr : Nat → U32} {wt : Nat → KeyInfo → Nat}
    {m n : Nat} (hlen : ∀ ki ∈ keys, ∀ id, f ki = some id → id.length = m) :
    ∀ r ∈ recsTo keys f fr wt n, r.id.length = m := by
  intro r hr
  unfold recsTo at hr
  rw [List.mem_filterMap] at hr
  obtain ⟨i, -, hr⟩ := hr
  rw [Option.bind_eq_some_iff] at hr
  obtain ⟨ki, hki, hr⟩ := hr
  rw [Option.map_eq_some_iff] at hr
  obtain ⟨id, hid, rfl⟩ := hr
  exact hlen ki (List.mem_of_getElem? hki) id hid

theorem selOf_ok {hash : List Byte → List Byte} {i : Query.Info} {ki : KeyInfo} {o : Option (List Bool)}
    (h : keyId hash i ki = ok o) : selOf hash i ki = o := by
  unfold selOf
  rw [h]

/-- The tags of the client's check, with the answers in either order. -/
theorem tagsMatch_of {β : Fin 3 → Fin p} {α : Fin p} {A H a0 a1 : List U32} {c : U32} {mal : Bool}
    (h : ∀ i, (if mal then [H.getD i 0, A.getD i 0] else [A.getD i 0, H.getD i 0]) = [a0.getD i 0, a1.getD i 0])
    (hc : c = (a0.getD 0 0 + a1.getD 0 0) % modP)
    (ht : ∀ i, i < 4 → tagOf c ((clientState β α).alphas.getD i 0) = (a0.getD (i + 1) 0 + a1.getD (i + 1) 0) % modP) :
    TagsMatch β α A H ∧ c.toNat = dataOf A H := by
  have e : ∀ i, a0.getD i 0 + a1.getD i 0 = A.getD i 0 + H.getD i 0 := by
    intro i
    have h := h i
    cases mal
    · simp only [Bool.false_eq_true, if_false, List.cons.injEq, and_true] at h
      rw [h.1, h.2]
    · simp only [if_true, List.cons.injEq, and_true] at h
      rw [← h.1, ← h.2, BitVec.add_comm]
  rw [e] at hc
  refine ⟨?_, by rw [hc]; rfl⟩
  intro i hi
  have := ht i hi
  rw [e, hc] at this
  exact this

theorem dataOf_lt (A H : List U32) : dataOf A H < p := by
  unfold dataOf
  rw [BitVec.toNat_umod, modP_toNat]
  exact Nat.mod_lt _ p_pos

theorem runMean_mono {G G' : (Fin 3 → Fin p) → Fin p → (Fin 16 → Byte) → (Fin 16 → Byte) → Byte → ℚ}
    (h : ∀ β α s0 s1 tb, G β α s0 s1 tb ≤ G' β α s0 s1 tb) : runMean G ≤ runMean G' :=
  avg_mono fun β => avg_mono fun s0 => avg_mono fun s1 => avg_mono fun tb => avg_mono fun α => h β α s0 s1 tb

theorem runMean_add (G G' : (Fin 3 → Fin p) → Fin p → (Fin 16 → Byte) → (Fin 16 → Byte) → Byte → ℚ) :
    runMean (fun β α s0 s1 tb => G β α s0 s1 tb + G' β α s0 s1 tb) = runMean G + runMean G' := by
  unfold runMean
  simp only [avg_add]

theorem testMean_le {W : World} {mal : Bool} {e : U32} {fr : Nat → U32} (hS : Setup W mal e fr) (db : KeyDB)
    (q : Query.ClientFSS) (inOrder : Bool) (wt : Nat → KeyInfo → Nat) (T : Res Key → (Fin 3 → Fin p) → Fin p → ℚ)
    (h0 : ∀ k β α, 0 ≤ T k β α) {B : ℚ} (hB : ∀ k α, avg (fun β => T (ok k) β α) ≤ B) :
    runMean (fun β α s0 s1 tb => T (received W.env (mal == inOrder) q.input (shared β) s0 s1 tb α) β α)
      ≤ testGap (settingOf W db q inOrder mal e fr wt) T + 16 * B :=
  mean_le hS.cipher hS.draw hS.canonical (mal == inOrder) q.input T h0 hB

theorem avgTest_nonneg (S1 S2 : Setting) (A : Key → List U32) (k : Res Key) (β : Fin 3 → Fin p) (α : Fin p) :
    0 ≤ avgTest S1 S2 A k β α := by
  unfold avgTest
  split
  · split
    · exact add_nonneg (forgeTest_nonneg _ _ _ _ _) (forgeTest_nonneg _ _ _ _ _)
    · exact le_refl _
  · exact le_refl _

theorem avgTest_avg (S1 S2 : Setting) (A : Key → List U32) (k : Key) (α : Fin p) :
    avg (fun β => avgTest S1 S2 A (ok k) β α) ≤ 108 / (p : ℚ) ^ 3 := by
  have h := add_le_add (forgeTest_avg S1 A k α) (forgeTest_avg S2 (fun k => (A k).drop 5) k α)
  rw [avg_add] at h
  refine le_trans (avg_mono ?_) (le_trans h (le_of_eq (by ring)))
  intro β
  have h1 := forgeTest_nonneg S1 A (ok k) β α
  have h2 := forgeTest_nonneg S2 (fun k => (A k).drop 5) (ok k) β α
  simp only [avgTest]
  split
  · exact le_refl _
  · exact add_nonneg h1 h2

theorem count_bound {W : World} {mal : Bool} {e : U32} {fr : Nat → U32} (hS : Setup W mal e fr) {db : KeyDB}
    (hdb : Loaded db) {q : Query.ClientFSS} (ha : q.info.avg = false) (hs : q.info.sum = false)
    (ht : q.info.and = true ∨ q.info.target ≤ 2)
    (hsel : ∀ ki ∈ db.keys, keyId W.hash q.info ki = ok (selOf W.hash q.info ki))
    (hlen : ∀ ki ∈ db.keys, ∀ id, selOf W.hash q.info ki = some id → id.length = q.input.length) (inOrder : Bool)
    (F : Msg → Res (List Byte)) :
    forgeProb W db q inOrder mal F
        (fun n => n ≠ due inOrder (settingOf W db q inOrder mal e fr (fun _ _ => 1)).total)
      ≤ forgeGap (settingOf W db q inOrder mal e fr (fun _ _ => 1)) (wordsOf q F) + 864 / (p : ℚ) ^ 3 := by
  have m := testMean_le hS db q inOrder (fun _ _ => 1) (forgeTest (settingOf W db q inOrder mal e fr (fun _ _ => 1)) (wordsOf q F))
    (forgeTest_nonneg _ _) (forgeTest_avg _ _)
  rw [show (16 : ℚ) * (54 / (p : ℚ) ^ 3) = 864 / (p : ℚ) ^ 3 by ring] at m
  refine le_trans (runMean_mono ?_) m
  intro β α s0 s1 tb
  obtain ⟨km, kh, hkm, hT, hrun⟩ := forgedRun_eq hS db q inOrder F β α s0 s1 tb
  obtain ⟨b, H, h1, h2, h3, h4⟩ := honest_count hS hdb ha hs ht hsel hlen hT.okh
  split
  · rename_i hbad
    obtain ⟨r, hr, hbad⟩ := hbad
    have hrec := hrun b H h1 h2 r hr
    rw [hkm]
    unfold forgeTest
    simp only
    rw [if_pos]
    have hTM : TagsMatch β α (wordsOf q F km) H ∧ r.toNat = dataOf (wordsOf q F km) H := by
      cases mal
      · obtain ⟨hd, htag⟩ := reconstruct_count_ok (Or.inr h3) hrec
        exact tagsMatch_of (mal := false) (fun i => rfl) hd htag
      · obtain ⟨hd, htag⟩ := reconstruct_count_ok (Or.inl h3) hrec
        exact tagsMatch_of (mal := true) (fun i => rfl) hd htag
    rw [hTM.2] at hbad
    exact forgeable_of (S := settingOf W db q inOrder mal e fr (fun _ _ => 1)) hT (recsTo_length hlen) h3 h4 hTM.1
      (wrong_of (dataOf_lt _ _) hbad)
  · exact forgeTest_nonneg _ _ _ _ _

/-- When the client's checks of two answers of ten words succeed for a wrong number or a wrong sum, key and MAC keys are such
that this is possible. -/
theorem avgTest_wrong {W : World} {mal : Bool} {e : U32} {fr : Nat → U32} {db : KeyDB} {q : Query.ClientFSS} {inOrder : Bool}
    {β : Fin 3 → Fin p} {α : Fin p} {km kh : Key}
    (hT : Twins W.env.E e (mal == inOrder) q.input (vals (shared β) α) km kh)
    (hlen : ∀ ki ∈ db.keys, ∀ id, selOf W.hash q.info ki = some id → id.length = q.input.length) {H : List U32}
    (h3 : H.length = 10)
    (h4 : ∀ j, j < 5 → (H.getD j 0).toNat = realSum W.env.E (if mal then 0 else 1) kh
          (recsTo db.keys (selOf W.hash q.info) fr (isAged (honestNow W mal)) db.numColumns) j ∧
        (H.getD (5 + j) 0).toNat = realSum W.env.E (if mal then 0 else 1) kh
          (recsTo db.keys (selOf W.hash q.info) fr (ageOf (honestNow W mal)) db.numColumns) j)
    {A : Key → List U32} (h10 : 10 ≤ (A km).length) (t1 : TagsMatch β α (A km) H)
    (t2 : TagsMatch β α ((A km).drop 5) (H.drop 5))
    (hor : dataOf (A km) H ≠ due inOrder (settingOf W db q inOrder mal e fr (isAged (honestNow W mal))).total ∨
      dataOf ((A km).drop 5) (H.drop 5) ≠ due inOrder (settingOf W db q inOrder mal e fr (ageOf (honestNow W mal))).total) :
    1 ≤ avgTest (settingOf W db q inOrder mal e fr (isAged (honestNow W mal)))
      (settingOf W db q inOrder mal e fr (ageOf (honestNow W mal))) A (ok km) β α := by
  have n1 := forgeTest_nonneg (settingOf W db q inOrder mal e fr (isAged (honestNow W mal))) A (ok km) β α
  have n2 := forgeTest_nonneg (settingOf W db q inOrder mal e fr (ageOf (honestNow W mal)))
    (fun k => (A k).drop 5) (ok km) β α
  have dr : ∀ (l : List U32) i, (l.drop 5).getD i 0 = l.getD (5 + i) 0 := by
    intro l i
    simp only [List.getD_eq_getElem?_getD, List.getElem?_drop]
  have hcut : ∀ (l : List U32) j, j < 5 → (l.take 5).getD j 0 = l.getD j 0 := by
    intro l j hj
    simp only [List.getD_eq_getElem?_getD, List.getElem?_take]
    rw [if_pos hj]
  simp only [avgTest]
  rw [if_pos h10]
  rcases hor with hbad | hbad
  · have e1 : forgeTest (settingOf W db q inOrder mal e fr (isAged (honestNow W mal))) A (ok km) β α = 1 := by
      unfold forgeTest
      simp only
      rw [if_pos]
      refine forgeable_of (S := settingOf W db q inOrder mal e fr (isAged (honestNow W mal))) (H := H.take 5) hT
        (recsTo_length hlen) (by simp [h3]) ?_ ?_ (wrong_of (dataOf_lt _ _) ?_)
      · intro j hj
        rw [hcut _ _ hj]
        exact (h4 j hj).1
      · intro i hi
        rw [hcut _ _ (by omega), hcut _ _ (by omega)]
        exact t1 i hi
      · unfold dataOf
        rw [hcut _ _ (by omega)]
        exact hbad
    rw [e1]
    linarith
  · have e1 : forgeTest (settingOf W db q inOrder mal e fr (ageOf (honestNow W mal))) (fun k => (A k).drop 5)
        (ok km) β α = 1 := by
      unfold forgeTest
      simp only
      rw [if_pos]
      refine forgeable_of (S := settingOf W db q inOrder mal e fr (ageOf (honestNow W mal))) (H := H.drop 5) hT
        (recsTo_length hlen) (by simp [h3]) ?_ t2 (wrong_of (dataOf_lt _ _) hbad)
      intro j hj
      rw [dr]
      exact (h4 j hj).2
    rw [e1]
    linarith

theorem avg_bound {W : World} {mal : Bool} {e : U32} {fr : Nat → U32} (hS : Setup W mal e fr) {db : KeyDB}
    (hdb : Loaded db) {q : Query.ClientFSS} (ha : q.info.avg = true) (hs : q.info.sum = false) (ht : q.info.and = true)
    (hsel : ∀ ki ∈ db.keys, keyId W.hash q.info ki = ok (selOf W.hash q.info ki))
    (hlen : ∀ ki ∈ db.keys, ∀ id, selOf W.hash q.info ki = some id → id.length = q.input.length) (inOrder : Bool)
    (hage : ∀ i, ∀ ki ∈ db.keys, honestNow W mal i - ki.creation.year < 2 ^ 32)
    (F : Msg → Res (List Byte)) (hF : mal = true ∨ ∀ k, (wordsOf q F k).length = 10) :
    forgeProb W db q inOrder mal F
        (fun n => ¬ MeanOf inOrder (settingOf W db q inOrder mal e fr (ageOf (honestNow W mal))).total
          (settingOf W db q inOrder mal e fr (isAged (honestNow W mal))).total n)
      ≤ avgGap (settingOf W db q inOrder mal e fr (isAged (honestNow W mal)))
          (settingOf W db q inOrder mal e fr (ageOf (honestNow W mal))) (wordsOf q F) + 1728 / (p : ℚ) ^ 3 := by
  have m := testMean_le hS db q inOrder (isAged (honestNow W mal))
    (avgTest (settingOf W db q inOrder mal e fr (isAged (honestNow W mal)))
      (settingOf W db q inOrder mal e fr (ageOf (honestNow W mal))) (wordsOf q F)) (avgTest_nonneg _ _ _) (avgTest_avg _ _ _)
  rw [show (16 : ℚ) * (108 / (p : ℚ) ^ 3) = 1728 / (p : ℚ) ^ 3 by ring] at m
  refine le_trans (runMean_mono ?_) m
  intro β α s0 s1 tb
  obtain ⟨km, kh, hkm, hT, hrun⟩ := forgedRun_eq hS db q inOrder F β α s0 s1 tb
  obtain ⟨b, H, h1, h2, h3, h4⟩ := honest_avg hS hdb ha hs ht hsel hage hlen hT.okh
  split
  · rename_i hbad
    obtain ⟨r, hr, hbad⟩ := hbad
    have hrec := hrun b H h1 h2 r hr
    rw [hkm]
    have dr : ∀ (l : List U32) i, (l.drop 5).getD i 0 = l.getD (5 + i) 0 := by
      intro l i
      simp only [List.getD_eq_getElem?_getD, List.getElem?_drop]
    have hTM : ∃ c s : U32, divU32 s c = ok r ∧ 10 ≤ (wordsOf q F km).length ∧
        (TagsMatch β α (wordsOf q F km) H ∧ c.toNat = dataOf (wordsOf q F km) H) ∧
        (TagsMatch β α ((wordsOf q F km).drop 5) (H.drop 5) ∧
          s.toNat = dataOf ((wordsOf q F km).drop 5) (H.drop 5)) := by
      cases mal
      · obtain ⟨c, s, hc, hs, hd, -, htag⟩ := reconstruct_avg_ok ((hF.resolve_left (by simp)) km) hrec
        refine ⟨c, s, hd, ((hF.resolve_left (by simp)) km).ge, tagsMatch_of (mal := false) (fun i => rfl) hc (fun i hi => (htag i hi).1),
          tagsMatch_of (mal := false) (fun i => rfl) (a0 := (wordsOf q F km).drop 5) (a1 := H.drop 5) ?_ ?_⟩
        · rw [dr, dr]; exact hs
        · intro i hi
          rw [dr, dr]
          exact (htag i hi).2
      · obtain ⟨c, s, hc, hs, hd, h10, htag⟩ := reconstruct_avg_ok h3 hrec
        refine ⟨c, s, hd, h10, tagsMatch_of (mal := true) (fun i => rfl) hc (fun i hi => (htag i hi).1),
          tagsMatch_of (mal := true) (fun i => rfl) (a0 := H.drop 5) (a1 := (wordsOf q F km).drop 5) ?_ ?_⟩
        · rw [dr, dr]; exact hs
        · intro i hi
          rw [dr, dr]
          exact (htag i hi).2
    obtain ⟨c, s, hd, h10, ⟨t1, c1⟩, t2, c2⟩ := hTM
    have hq : c.toNat ≠ 0 ∧ r.toNat = s.toNat / c.toNat := by
      unfold divU32 at hd
      split at hd
      · cases hd
      · rename_i hz
        cases hd
        exact ⟨fun h => hz (BitVec.eq_of_toNat_eq (by simpa using h)), BitVec.toNat_udiv⟩
    have hor : c.toNat ≠ due inOrder (settingOf W db q inOrder mal e fr (isAged (honestNow W mal))).total ∨
        s.toNat ≠ due inOrder (settingOf W db q inOrder mal e fr (ageOf (honestNow W mal))).total := by
      by_contra hcon
      push Not at hcon
      exact hbad ⟨by rw [← hcon.1]; exact hq.1, by rw [← hcon.1, ← hcon.2]; exact hq.2⟩
    rw [c1, c2] at hor
    exact avgTest_wrong hT hlen h3 h4 h10 t1 t2 hor
  · exact avgTest_nonneg _ _ _ _ _ _

/-! ### Totals -/

theorem recsTo_total {keys : List KeyInfo} {f : KeyInfo → Option (List Bool)} {fr : Nat → U32} {wt : Nat → KeyInfo → Nat}
    {g : KeyInfo → Nat} (hg : ∀ i, ∀ ki ∈ keys, wt i ki = g ki) {a : List Bool} (h256 : a.length ≤ 256)
    (hlen : ∀ ki ∈ keys, ∀ id, f ki = some id → id.length = a.length) (n : Nat) (hn : n ≤ keys.length) :
    (((recsTo keys f fr wt n).filter (fun r => decide (clear256 r.id = a))).map Rec.weight).sum
      = (((keys.take n).filter (fun ki => decide (f ki = some a))).map g).sum := by
  induction n with
  | zero => rfl
  | succ n ih =>
    have hm : keys[n] ∈ keys := List.getElem_mem _
    rw [recsTo_succ _ _ _ _ (by omega), List.take_succ_eq_append_getElem (by omega)]
    simp only [List.filter_append, List.map_append, List.sum_append]
    rw [ih (by omega)]
    congr 1
    cases hf : f keys[n] with
    | none => simp [hf]
    | some id =>
      have hc : clear256 id = id := clear256_of_le (by rw [hlen _ hm id hf]; exact h256)
      by_cases he : id = a
      · subst he
        simp [hf, hc, hg n _ hm]
      · simp [hf, hc, he]

theorem setting_total {W : World} {db : KeyDB} (hdb : Loaded db) {q : Query.ClientFSS} (inOrder mal : Bool) (e : U32)
    (fr : Nat → U32) {wt : Nat → KeyInfo → Nat} {g : KeyInfo → Nat} (hg : ∀ i, ∀ ki ∈ db.keys, wt i ki = g ki)
    (h256 : q.input.length ≤ 256)
    (hlen : ∀ ki ∈ db.keys, ∀ id, selOf W.hash q.info ki = some id → id.length = q.input.length) :
    (settingOf W db q inOrder mal e fr wt).total
      = ((db.keys.filter (fun ki => decide (selOf W.hash q.info ki = some q.input))).map g).sum := by
  have h := recsTo_total (fr := fr) hg h256 hlen db.numColumns (le_of_eq hdb)
  rw [show db.keys.take db.numColumns = db.keys by rw [hdb, List.take_length]] at h
  exact h

end Verif.Forge
