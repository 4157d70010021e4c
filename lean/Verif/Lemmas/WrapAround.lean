import Verif.Spec.WrapAround
import Verif.Lemmas.ForgeryMain

/-! # Answers whose words are not reduced -/

namespace Verif.Forge
open Res Verif.Field Verif.Field.Spec Verif.Fss Verif.Fss.Spec Verif.Predicate Verif.Predicate.Spec Verif.Query Verif.Rand
  Verif.Forge.Spec
set_option linter.unusedSimpArgs false

/-- Everything that happens in a counting query: the messages, the answers, and what they add up to. -/
theorem count_words {W : World} (hR : Ready W 5) {db : KeyDB} (hdb : Loaded db) {q : ClientFSS} (ha : q.info.avg = false)
    (hs : q.info.sum = false) (ht : q.info.and = true ∨ q.info.target ≤ 2) (hno : NoHits W 5 db q)
    {f : KeyInfo → Option (List Bool)} (hsel : ∀ ki ∈ db.keys, keyId W.hash q.info ki = ok (f ki))
    (hlen : ∀ ki ∈ db.keys, ∀ id, f ki = some id → id.length = q.input.length) (h256 : q.input.length ≤ 256)
    (inOrder : Bool) :
    ∃ st rnd' buf' m0 m1 b0 b1 a0 a1, ∃ αs : List U32, drawKeys W.fuel 5 W.rnd = ok (st, rnd') ∧
      query W.env W.fuel 5 W.rnd W.buf W.r1 W.r2 q 2 = ok (if inOrder then [m0, m1] else [m1, m0], st, rnd', buf') ∧
      αs.length = 4 ∧ (∀ v ∈ αs, Canonical v) ∧ st.alphas = αs ++ [0] ∧
      W.serve 0 5 db m0 = ok b0 ∧ W.serve 1 5 db m1 = ok b1 ∧
      Utils.byteSliceToUint32Slice b0 = ok a0 ∧ Utils.byteSliceToUint32Slice b1 = ok a1 ∧
      Tagged 5 αs a0 a1 ∧
      msum (a0.getD 0 0) (a1.getD 0 0) = due inOrder (db.keys.countP (fun ki => decide (f ki = some q.input))) := by
  have e : db.keys.countP (fun ki => decide ((f ki).map clear256 = some q.input)) =
      db.keys.countP (fun ki => decide (f ki = some q.input)) := by
    apply List.countP_congr
    intro ki hki
    cases hf : f ki with
    | none => simp
    | some id =>
      rw [Option.map_some, clear256_of_le (by rw [hlen ki hki id hf]; exact h256)]
  obtain ⟨⟨st, rnd'⟩, hk⟩ := hR.keys
  obtain ⟨αs', hl, hc, haa, hal⟩ := drawKeys_spec (by omega) hk
  have hlena : st.a.length = 5 := by rw [haa]; simp; omega
  have hcan : ∀ v ∈ st.a, Canonical v := by
    rw [haa]
    intro v hv
    rw [List.mem_cons] at hv
    rcases hv with rfl | hv
    · simp [Canonical, p]
    · exact hc v hv
  obtain ⟨k0', k1', b', eg, -, -⟩ := keys_values hR.cipher (by rw [hlena]; exact hR.buf) hR.seed1 hR.seed2
    (by omega) hcan (by rw [hlena]; exact hno.1)
  have hq : query W.env W.fuel 5 W.rnd W.buf W.r1 W.r2 q 2 =
      ok ([⟨q.info, k0'⟩, ⟨q.info, k1'⟩], st, rnd', b') := by
    unfold query
    rw [if_neg (by simp), hk]
    simp only [ok_bind]
    rw [eg]
    rfl
  obtain ⟨k0, k1, αs, hms, hl', hc', hal', ⟨acc0, acc1, r, e0, e1, -, -, er, hr, hT, hm⟩,
      acc0', acc1', r', e0', e1', er', hr', hT', hm'⟩ :=
    count_core hR.cipher (by omega) (by omega) hR.buf hR.seed1 hR.seed2 hq hno.1 hdb hsel hlen
      (fun ki hki id hid m hm => hno.2 _ _ _ _ hq m hm ki hki id (by rw [hsel ki hki, hid]))
      hR.same0 hR.same1 hR.buf0 hR.buf1
  simp only [List.cons.injEq, Msg.mk.injEq, true_and, and_true] at hms
  obtain ⟨rfl, rfl⟩ := hms
  rw [e] at hr hr'
  cases inOrder with
  | true =>
    obtain ⟨b0, w0, u0⟩ := words_roundtrip acc0.out
    obtain ⟨b1, w1, u1⟩ := words_roundtrip acc1.out
    refine ⟨st, rnd', b', ⟨q.info, k0'⟩, ⟨q.info, k1'⟩, b0, b1, acc0.out, acc1.out, αs, hk, by simpa using hq, hl', hc', hal',
      ?_, ?_, u0, u1, hT, ?_⟩
    · unfold World.serve
      rw [if_pos rfl, answer_count ha hs ht]
      simp only [e0, ok_bind, w0]
    · unfold World.serve
      rw [if_neg (by decide), answer_count ha hs ht]
      simp only [e1, ok_bind, w1]
    · rw [← hm, hr, due, if_pos rfl]
  | false =>
    obtain ⟨b0, w0, u0⟩ := words_roundtrip acc0'.out
    obtain ⟨b1, w1, u1⟩ := words_roundtrip acc1'.out
    refine ⟨st, rnd', b', ⟨q.info, k1'⟩, ⟨q.info, k0'⟩, b0, b1, acc0'.out, acc1'.out, αs, hk, by simpa using hq, hl', hc', hal',
      ?_, ?_, u0, u1, hT', ?_⟩
    · unfold World.serve
      rw [if_pos rfl, answer_count ha hs ht]
      simp only [e0', ok_bind, w0]
    · unfold World.serve
      rw [if_neg (by decide), answer_count ha hs ht]
      simp only [e1', ok_bind, w1]
    · have hlt : msum (acc0'.out.getD 0 0) (acc1'.out.getD 0 0) < p := Nat.mod_lt _ p_pos
      rw [hm'] at hr'
      rw [due, if_neg (by simp)]
      generalize db.keys.countP (fun ki => decide (f ki = some q.input)) = N at *
      have hN : N % p < p := Nat.mod_lt _ p_pos
      rw [Nat.add_mod, Nat.mod_eq_of_lt hlt] at hr'
      generalize msum (acc0'.out.getD 0 0) (acc1'.out.getD 0 0) = m at *
      generalize N % p = n at *
      rw [p_val] at *
      omega

/-- The sum that the client makes of two words. -/
theorem sum_words {x y : U32} (hy : y.toNat < p) :
    ((x + y) % modP).toNat = if x.toNat + y.toNat < 2 ^ 32 then (x.toNat + y.toNat) % p
      else x.toNat + y.toNat - 2 ^ 32 := by
  have hx := x.isLt
  have hp : p = 2147483647 := p_val
  rw [BitVec.toNat_umod, BitVec.toNat_add, modP_toNat]
  rw [hp] at hy ⊢
  generalize x.toNat = a at *
  generalize y.toNat = b at *
  split <;> omega

/-- The sum with a reduced word and its sum with the modulus added: the same unless it exceeds 32 bits, and then two less. -/
theorem sum_raised {x y : U32} (hx : x.toNat < p) (hy : y.toNat < p) :
    ((x + modP + y) % modP).toNat =
      if x.toNat ≤ msum x y ∨ msum x y < 2 then msum x y else msum x y - 2 := by
  have hp : p = 2147483647 := p_val
  have ex : (x + modP).toNat = x.toNat + p := by
    rw [BitVec.toNat_add, modP_toNat, Nat.mod_eq_of_lt (by omega), p_val]
  rw [sum_words hy, ex]
  unfold msum
  by_cases h : x.toNat + y.toNat < p
  · rw [Nat.mod_eq_of_lt h, if_pos (by omega), if_pos (Or.inl (by omega)),
      show x.toNat + p + y.toNat = x.toNat + y.toNat + p by omega, Nat.add_mod_right, Nat.mod_eq_of_lt h]
  · have e : (x.toNat + y.toNat) % p = x.toNat + y.toNat - p := by
      rw [Nat.mod_eq_sub_mod (by omega), Nat.mod_eq_of_lt (by omega)]
    rw [e]
    by_cases h2 : x.toNat + y.toNat - p < 2
    · rw [if_pos (by omega), if_pos (Or.inr h2), show x.toNat + p + y.toNat = x.toNat + y.toNat + p by omega,
        Nat.add_mod_right, e]
    · rw [if_neg (by omega), if_neg (by omega)]
      omega

open Classical in
/-- Reconstruction of two answers of five words, in terms of the sums. -/
theorem reconstruct_sums {st : State} {αs a0 a1 : List U32} (hl : αs.length = 4) (hc : ∀ v ∈ αs, Canonical v)
    (hal : st.alphas = αs ++ [0]) (h0 : a0.length = 5) (h1 : a1.length = 5) {S : Nat → Nat}
    (hS : ∀ j, j < 5 → ((a0.getD j 0 + a1.getD j 0) % modP).toNat = S j) :
    reconstruct 5 st [a0, a1] = if ∀ i, i < 4 → S 0 * (αs.getD i 0).toNat % p = S (i + 1)
      then ok (BitVec.ofNat 32 (S 0)) else err "REJECT" := by
  have hlt : S 0 < 2 ^ 31 := by
    rw [← hS 0 (by omega), BitVec.toNat_umod, modP_toNat]
    have := Nat.mod_lt (a0.getD 0 0 + a1.getD 0 0).toNat (y := 2147483647) (by omega)
    omega
  have e0 : (a0.getD 0 0 + a1.getD 0 0) % modP = BitVec.ofNat 32 (S 0) := by
    apply BitVec.eq_of_toNat_eq
    rw [hS 0 (by omega), BitVec.toNat_ofNat]
    omega
  rw [reconstruct_count_eq (by omega) (by rw [hal]; simp; omega) h0 h1, e0]
  have hiff : (∀ i, i < 5 - 1 → ¬ tagOf (BitVec.ofNat 32 (S 0)) (st.alphas.getD i 0)
      ≠ (a0.getD (i + 1) 0 + a1.getD (i + 1) 0) % modP) ↔
      ∀ i, i < 4 → S 0 * (αs.getD i 0).toNat % p = S (i + 1) := by
    have hstep : ∀ i, i < 4 → (¬ tagOf (BitVec.ofNat 32 (S 0)) (st.alphas.getD i 0)
        ≠ (a0.getD (i + 1) 0 + a1.getD (i + 1) 0) % modP ↔ S 0 * (αs.getD i 0).toNat % p = S (i + 1)) := by
      intro i hi
      have hα : st.alphas.getD i 0 = αs.getD i 0 := by
        rw [hal, List.getD_eq_getElem?_getD, List.getD_eq_getElem?_getD, List.getElem?_append_left (by omega)]
      have hcα : (αs.getD i 0).toNat < 2 ^ 31 := by
        rw [getD_of_lt _ (by omega)]
        have := hc _ (List.getElem_mem (h := (by omega : i < αs.length)))
        unfold Canonical at this
        have := p_val
        omega
      have e1 : (BitVec.ofNat 32 (S 0)).toNat = S 0 := by rw [BitVec.toNat_ofNat]; omega
      rw [not_not, hα, ← hS (i + 1) (by omega), ← BitVec.toNat_inj, tagOf_toNat (by rw [e1]; exact hlt) hcα, e1]
    constructor
    · intro h i hi
      exact (hstep i hi).1 (h i hi)
    · intro h i hi
      exact (hstep i hi).2 (h i hi)
  by_cases h : ∀ i, i < 4 → S 0 * (αs.getD i 0).toNat % p = S (i + 1)
  · rw [if_pos h, if_pos (hiff.2 h)]
  · rw [if_neg h, if_neg (fun x => h (hiff.1 x))]

/-- The client's reaction when the modulus is added to a word of one of two honest answers. -/
theorem reconstruct_raised {st : State} {αs a0 a1 : List U32} (hl : αs.length = 4) (hc : ∀ v ∈ αs, Canonical v)
    (hal : st.alphas = αs ++ [0]) (hT : Tagged 5 αs a0 a1) {j : Nat} (hj : j < 5)
    (hz : j = 0 → ∃ i, i < 4 ∧ αs.getD i 0 ≠ 0) (w : U32) (b0 b1 : List U32)
    (hb : (b0 = a0.set j (a0.getD j 0 + modP) ∧ b1 = a1 ∧ w = a0.getD j 0) ∨
      (b0 = a0 ∧ b1 = a1.set j (a1.getD j 0 + modP) ∧ w = a1.getD j 0)) :
    reconstruct 5 st [b0, b1] =
      if w.toNat ≤ msum (a0.getD j 0) (a1.getD j 0) ∨ msum (a0.getD j 0) (a1.getD j 0) < 2
      then ok (BitVec.ofNat 32 (msum (a0.getD 0 0) (a1.getD 0 0))) else err "REJECT" := by
  set t := msum (a0.getD j 0) (a1.getD j 0) with ht
  have l0 := hT.len0
  have l1 := hT.len1
  have hset : ∀ (a : List U32) (v : U32) (i : Nat), a.length = 5 → (a.set j v).getD i 0 = if i = j then v else a.getD i 0 := by
    intro a v i ha
    rw [List.getD_eq_getElem?_getD, List.getElem?_set]
    by_cases h : i = j
    · subst h
      rw [if_pos rfl, if_pos rfl, if_pos (by omega)]
      rfl
    · rw [if_neg (fun x => h x.symm), if_neg h, List.getD_eq_getElem?_getD]
  have hsum : ∀ i, i < 5 → ((b0.getD i 0 + b1.getD i 0) % modP).toNat =
      if i = j then (if w.toNat ≤ t ∨ t < 2 then t else t - 2) else msum (a0.getD i 0) (a1.getD i 0) := by
    intro i hi
    have hplain : ((a0.getD i 0 + a1.getD i 0) % modP).toNat = msum (a0.getD i 0) (a1.getD i 0) := by
      apply add_mod_toNat
      have := hT.can0 i hi
      have := hT.can1 i hi
      have := p_val
      omega
    rcases hb with ⟨rfl, rfl, rfl⟩ | ⟨rfl, rfl, rfl⟩
    · rw [hset _ _ _ l0]
      by_cases h : i = j
      · subst h
        rw [if_pos rfl, if_pos rfl, sum_raised (hT.can0 i hi) (hT.can1 i hi)]
      · rw [if_neg h, if_neg h, hplain]
    · rw [hset _ _ _ l1]
      by_cases h : i = j
      · subst h
        rw [if_pos rfl, if_pos rfl, BitVec.add_comm, sum_raised (hT.can1 i hi) (hT.can0 i hi)]
        have : msum (b0.getD i 0) (a1.getD i 0) = msum (a1.getD i 0) (b0.getD i 0) := by
          unfold msum; rw [Nat.add_comm]
        rw [ht, this]
      · rw [if_neg h, if_neg h, hplain]
  have hlb : b0.length = 5 ∧ b1.length = 5 := by
    rcases hb with ⟨rfl, rfl, -⟩ | ⟨rfl, rfl, -⟩
    · exact ⟨by rw [List.length_set]; exact l0, l1⟩
    · exact ⟨l0, by rw [List.length_set]; exact l1⟩
  rw [reconstruct_sums hl hc hal hlb.1 hlb.2 hsum]
  by_cases hok : w.toNat ≤ t ∨ t < 2
  · simp only [if_pos hok]
    have hsame : ∀ i, (if i = j then t else msum (a0.getD i 0) (a1.getD i 0)) = msum (a0.getD i 0) (a1.getD i 0) := by
      intro i
      split
      · rename_i h; rw [h]
      · rfl
    simp only [hsame]
    rw [if_pos]
    intro i hi
    exact (hT.tags i (by omega)).symm
  · simp only [if_neg hok]
    rw [if_neg]
    intro hall
    push Not at hok
    have htp : t < p := Nat.mod_lt _ p_pos
    by_cases hj0 : j = 0
    · obtain ⟨i, hi, hne⟩ := hz hj0
      have h := hall i hi
      rw [if_pos hj0.symm, if_neg (by omega), hT.tags i (by omega), ← hj0, ← ht] at h
      -- (t - 2) * α = t * α
      have hcα : (αs.getD i 0).toNat < p := by
        rw [getD_of_lt _ (by omega)]
        exact hc _ (List.getElem_mem (h := (by omega : i < αs.length)))
      have hpos : 0 < (αs.getD i 0).toNat := by
        rcases Nat.eq_zero_or_pos (αs.getD i 0).toNat with h0 | h0
        · exact absurd (BitVec.eq_of_toNat_eq (by rw [h0]; rfl)) hne
        · exact h0
      generalize (αs.getD i 0).toNat = A at *
      have hm : (t - 2) * A ≡ t * A [MOD p] := h
      have hd : p ∣ t * A - (t - 2) * A := (Nat.modEq_iff_dvd' (Nat.mul_le_mul_right _ (by omega))).1 hm
      rw [← Nat.sub_mul, show t - (t - 2) = 2 by omega] at hd
      have hpp : Nat.Prime p := p_prime
      rcases (Nat.Prime.dvd_mul hpp).1 hd with h2 | h2
      · have := Nat.le_of_dvd (by omega) h2
        have := p_val
        omega
      · have := Nat.le_of_dvd hpos h2
        omega
    · have h := hall (j - 1) (by omega)
      rw [if_neg (by omega), if_pos (by omega), ← hT.tags (j - 1) (by omega)] at h
      rw [show j - 1 + 1 = j by omega, ← ht] at h
      omega

end Verif.Forge
