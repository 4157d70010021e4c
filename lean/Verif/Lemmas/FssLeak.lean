import Verif.Lemmas.FssCorrect

/-! # Lemmas about the unmasked components of the final correction word -/

namespace Verif.Fss
open Res Verif.Field Verif.Field.Spec Verif.Fss.Spec

/-- An all-zero chunk is converted to the element 0, whatever happens to the others. -/
theorem bytesToElements_zero_elem (fresh : Nat → U32) (fuel : Nat) (out out' : List U32)
    (inp inp' : List Byte) (h : bytesToElements fresh fuel out inp = ok (out', inp')) :
    out'.length = out.length ∧ ∀ i, i < out.length →
      (∀ j, j < 4 → inp[i * 4 + j]? = some 0) → out'[i]? = some 0 := by
  unfold bytesToElements at h
  have := forLoop_inv_ok (P := fun k (s : List U32 × List Byte) => s.1.length = out.length ∧
    s.2.length = inp.length ∧ (∀ j : Nat, inp[j]? = some 0 → s.2[j]? = some 0) ∧
    ∀ i, i < k → (∀ j, j < 4 → inp[i * 4 + j]? = some 0) → s.1[i]? = some 0)
    ⟨rfl, rfl, fun _ h => h, fun i hi => absurd hi (by omega)⟩ ?_ h
  · exact ⟨this.1, this.2.2.2⟩
  rintro i ⟨o, b⟩ ⟨o', b'⟩ hi ⟨hol, hl, hz, hprev⟩ hb
  have hb' := hb
  simp only [bind_eq_ok] at hb
  obtain ⟨c, hc, ⟨e, c'⟩, he, b2, hb2, o2, ho2, heq⟩ := hb
  have hcl := slice_length hc
  rw [slice_eq_ok] at hc
  obtain ⟨hc1, hc2, rfl⟩ := hc
  obtain ⟨b0, rest, hcr, et⟩ := toElement_eq fresh fuel (c := (b.drop (i * 4)).take ((i + 1) * 4 - i * 4)) (by omega)
  rw [et] at he
  simp only [bind_eq_ok] at he
  obtain ⟨w, hw0, hw⟩ := he
  simp only [ok.injEq, Prod.mk.injEq] at hw heq
  obtain ⟨rfl, rfl⟩ := hw
  obtain ⟨rfl, rfl⟩ := heq
  have hrl : rest.length = 3 := by
    have := congrArg List.length hcr
    simp only [List.length_take, List.length_drop, List.length_cons] at this
    omega
  rw [copyAt_of_le (by simp [hrl]; omega)] at hb2
  simp only [ok.injEq] at hb2
  subst hb2
  simp only at hc2 hl hol hz hprev
  rw [setAt_of_lt (by omega)] at ho2
  simp only [ok.injEq] at ho2
  subst ho2
  refine ⟨by simpa using hol, by simp [hrl]; omega, ?_, ?_⟩
  · intro j hj
    have hj' := hz j hj
    have hjl : j < b.length := (List.getElem?_eq_some_iff.1 hj').1
    rw [List.append_assoc]
    by_cases h1 : j < i * 4
    · rw [List.getElem?_append_left (by simp; omega), List.getElem?_take_of_lt h1]
      exact hj'
    · rw [List.getElem?_append_right (by simp; omega)]
      simp only [List.length_take, show min (i * 4) b.length = i * 4 by omega]
      by_cases h2 : j < i * 4 + 4
      · rw [List.getElem?_append_left (by simp [hrl]; omega)]
        have hcj : (b0 :: rest)[j - i * 4]? = some 0 := by
          rw [← hcr, List.getElem?_take_of_lt (by omega), List.getElem?_drop]
          rw [show i * 4 + (j - i * 4) = j by omega]
          exact hj'
        rcases Nat.eq_zero_or_pos (j - i * 4) with h0 | h0
        · rw [h0] at hcj ⊢
          simp at hcj
          simp [hcj]
        · obtain ⟨m, hm⟩ := Nat.exists_eq_succ_of_ne_zero (by omega : j - i * 4 ≠ 0)
          rw [hm] at hcj ⊢
          simpa using hcj
      · rw [List.getElem?_append_right (by simp [hrl]; omega), List.getElem?_drop]
        simp only [List.length_cons, hrl]
        rw [show i * 4 + (3 + 1) + (j - i * 4 - (3 + 1)) = j by omega]
        exact hj'
  · intro m hm hzero
    by_cases hmi : m = i
    · subst hmi
      have hchunk : (b.drop (m * 4)).take ((m + 1) * 4 - m * 4) = List.replicate 4 0 := by
        apply List.ext_getElem?
        intro j
        by_cases hj : j < 4
        · rw [List.getElem?_take_of_lt (by omega), List.getElem?_drop,
            List.getElem?_replicate_of_lt hj]
          exact hz _ (hzero j hj)
        · rw [List.getElem?_eq_none (by simp; omega), List.getElem?_eq_none (by simp; omega)]
      rw [hchunk, maskedWord, low31_zero, resample_ok (by decide)] at hw0
      simp only [ok.injEq] at hw0
      subst hw0
      simp [show m < o.length by omega]
    · rw [List.getElem?_set_ne (Ne.symm hmi)]
      exact hprev m (by omega) hzero

theorem convertBlock_tail {env : Env} (hE : BlockCipher env.E) {n : Nat} {ocb s : List Byte}
    {out out' : List U32} {ocb' : List Byte}
    (ho : BufferReady n ocb) (hs : s.length = 16) (hout : out.length = n)
    (h : convertBlock env ocb s out = ok (out', ocb')) :
    out'.length = n ∧ BufferReady n ocb' ∧ ∀ i, n / 4 * 4 ≤ i → i < n → out'[i]? = some 0 := by
  subst hout
  obtain ⟨hl, hz⟩ := ho
  unfold convertBlock at h
  have hn : out.length / 4 ≤ 4 := by
    by_contra hcon
    have : prf env.E s (out.length / 4) ocb = crash "index out of range" := by
      obtain ⟨d, hd⟩ : ∃ d, out.length / 4 = 5 + d := ⟨out.length / 4 - 5, by omega⟩
      have h5 : prf env.E s 5 ocb = crash "index out of range" := by
        unfold prf
        rw [forLoop_succ]
        have h4 := prf_eq hE hs (nb := 4) (out := ocb) (by omega) (by omega)
        unfold prf at h4
        rw [h4]
        rfl
      rw [hd]
      unfold prf at h5 ⊢
      rw [forLoop_append, h5]
      rfl
    rw [this] at h
    simp at h
  have hsl := stream_length hE hs (out.length / 4)
  rw [prf_eq hE hs (by omega) (by omega), hz] at h
  simp only [ok_bind] at h
  have hz1 := bytesToElements_zero _ _ _ _ _ _ h
  have hz2 := bytesToElements_zero_elem _ _ _ _ _ _ h
  refine ⟨hz2.1, ⟨?_, ?_⟩, ?_⟩
  · rw [hz1.1]; simp [hsl]; omega
  · apply List.ext_getElem?
    intro j
    rw [List.getElem?_drop]
    by_cases hj : j < out.length * 4 - out.length / 4 * 16
    · rw [List.getElem?_replicate_of_lt hj]
      apply hz1.2
      rw [List.getElem?_append_right (by omega), hsl, List.getElem?_replicate_of_lt (by omega)]
    · rw [List.getElem?_eq_none (by rw [hz1.1]; simp [hsl]; omega), List.getElem?_eq_none (by simp; omega)]
  · intro i hi1 hi2
    apply hz2.2 i hi2
    intro j hj
    rw [List.getElem?_append_right (by omega), hsl, List.getElem?_replicate_of_lt (by omega)]

theorem generate_leak {env : Env} (hE : BlockCipher env.E) {ocb r1 r2 : List Byte} {a : List Bool}
    {b : List U32} (ho : BufferReady b.length ocb) (h1 : r1.length = 17) (h2 : r2.length = 16)
    {k0 k1 : Key} {ocb' : List Byte} (h : generateTreePF env ocb r1 r2 a b = ok (k0, k1, ocb'))
    (i : Nat) (hi : b.length / 4 * 4 ≤ i) (hib : i < b.length) (hb : Canonical b[i]) :
    k0.finalCW = k1.finalCW ∧
      (k0.finalCW[i]? = some b[i] ∨ k0.finalCW[i]? = some (modP - b[i])) := by
  obtain ⟨c0, c1, cne⟩ := init_bits (r1.getD 16 0)
  have hl0 : (r1.take 16).length = 16 := by simp [h1]
  have hgl := genLoop_eq hE a hl0 h2 c0 c1 cne
  have hgb := genRec_bits hE a hl0 h2 c0 c1 cne
  unfold generateTreePF at h
  rw [slice_of_le (by omega) (by omega), idx_getD 0 (by omega)] at h
  simp only [ok_bind, List.drop_zero, Nat.sub_zero] at h
  rw [copyAt_of_le (by simp [hl0]), copyAt_of_le (by simp [h2])] at h
  simp only [ok_bind, List.take_zero, List.nil_append, Nat.zero_add, List.drop_replicate, hl0, h2, Nat.sub_self,
    List.replicate_zero, List.append_nil] at h
  rw [hgl] at h
  simp only [ok_bind] at h
  set r := genRec env.E a (r1.take 16) r2 (r1.getD 16 0 % 2) (r1.getD 16 0 % 2 ^^^ 1) with hr
  rw [bind_eq_ok] at h
  obtain ⟨⟨tmp0, o1⟩, e1, h⟩ := h
  obtain ⟨l1, ho1, z1⟩ := convertBlock_tail hE ho hgb.1 (by simp) e1
  simp only [bind_eq_ok] at h
  obtain ⟨⟨tmp1, o2⟩, e2, fcw, e3, h⟩ := h
  obtain ⟨l2, ho2, z2⟩ := convertBlock_tail hE ho1 hgb.2.1 (by simp) e2
  rw [finalCW_eq (by simpa using l1) (by simpa using l2)] at e3
  simp only [ok.injEq, Prod.mk.injEq] at e3 h
  obtain ⟨rfl, rfl, -⟩ := h
  refine ⟨rfl, ?_⟩
  simp only
  rw [← e3]
  have t0 := z1 i hi hib
  have t1 := z2 i hi hib
  rw [List.getElem?_map, List.getElem?_range hib]
  simp only [Option.map_some, Option.some.injEq, List.getD_eq_getElem?_getD, t0, t1, Option.getD_some,
    List.getElem?_eq_getElem hib]
  have e : ((b[i] + (modP - 0)) % modP + 0) % modP = b[i] := by
    apply BitVec.eq_of_toNat_eq
    have := (fcw_toNat hb (x0 := 0) (x1 := 0) (by simp [Canonical, p]) (by simp [Canonical, p])).1
    rw [this]
    unfold Canonical at hb
    have hz : (0 : U32).toNat = 0 := rfl
    rw [hz, p_val] at *
    omega
  rw [e]
  split
  · right; rfl
  · left; rfl

end Verif.Fss
