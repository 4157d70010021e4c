import Verif.Lemmas.Fss

/-! # Conversion of seeds to field elements and correctness of the FSS -/

namespace Verif.Fss
open Res Verif.Field Verif.Field.Spec Verif.Fss.Spec
set_option linter.unusedSimpArgs false

/-! ### Conversion -/

/-- Masking bytes never turns a zero byte into something else. -/
theorem bytesToElements_zero (fresh : Nat → U32) (fuel : Nat) (out out' : List U32) (inp inp' : List Byte)
    (h : bytesToElements fresh fuel out inp = ok (out', inp')) :
    inp'.length = inp.length ∧ ∀ j : Nat, inp[j]? = some 0 → inp'[j]? = some 0 := by
  unfold bytesToElements at h
  refine forLoop_inv_ok (P := fun _ (s : List U32 × List Byte) => s.2.length = inp.length ∧
    ∀ j : Nat, inp[j]? = some 0 → s.2[j]? = some 0) ⟨rfl, fun _ h => h⟩ ?_ h
  rintro i ⟨o, b⟩ ⟨o', b'⟩ hi ⟨hl, hz⟩ hb
  simp only [bind_eq_ok] at hb
  obtain ⟨c, hc, ⟨e, c'⟩, he, b2, hb2, o2, ho2, heq⟩ := hb
  have hcl := slice_length hc
  rw [slice_eq_ok] at hc
  obtain ⟨hc1, hc2, rfl⟩ := hc
  obtain ⟨b0, rest, hcr, et⟩ := toElement_eq fresh fuel (c := (b.drop (i * 4)).take ((i + 1) * 4 - i * 4)) (by omega)
  rw [et] at he
  simp only [bind_eq_ok] at he
  obtain ⟨w, -, hw⟩ := he
  simp only [ok.injEq, Prod.mk.injEq] at hw heq
  obtain ⟨-, rfl⟩ := hw
  obtain ⟨-, rfl⟩ := heq
  have hrl : rest.length = 3 := by
    have := congrArg List.length hcr
    simp only [List.length_take, List.length_drop, List.length_cons] at this
    omega
  rw [copyAt_of_le (by simp [hrl]; omega)] at hb2
  simp only [ok.injEq] at hb2
  subst hb2
  simp only at hc2 hl
  refine ⟨by simp [hrl]; omega, ?_⟩
  intro j hj
  have hj' := hz j hj
  simp only at hj'
  have hjl : j < b.length := (List.getElem?_eq_some_iff.1 hj').1
  rw [List.append_assoc]
  by_cases h1 : j < i * 4
  · rw [List.getElem?_append_left (by simp; omega), List.getElem?_take_of_lt h1]
    exact hj'
  · rw [List.getElem?_append_right (by simp; omega)]
    simp only [List.length_take, show min (i * 4) b.length = i * 4 by omega]
    by_cases h2 : j < i * 4 + 4
    · rw [List.getElem?_append_left (by simp [hrl]; omega)]
      have hcj : (b0 :: rest)[j - i * 4]? = some 0 := by
        rw [← hcr, List.getElem?_take_of_lt (by omega), List.getElem?_drop]
        rw [show i * 4 + (j - i * 4) = j by omega]
        exact hj'
      rcases Nat.eq_zero_or_pos (j - i * 4) with h0 | h0
      · rw [h0] at hcj ⊢
        simp at hcj
        simp [hcj]
      · obtain ⟨m, hm⟩ := Nat.exists_eq_succ_of_ne_zero (by omega : j - i * 4 ≠ 0)
        rw [hm] at hcj ⊢
        simpa using hcj
    · rw [List.getElem?_append_right (by simp [hrl]; omega), List.getElem?_drop]
      simp only [List.length_cons, hrl]
      rw [show i * 4 + (3 + 1) + (j - i * 4 - (3 + 1)) = j by omega]
      exact hj'

theorem low31_zero : low31 (List.replicate 4 0) = 0 := by
  simp [low31, ofBE, ofLE]

/-- The elements obtained from a seed. -/
def convC (E : Cipher) (s : List Byte) (n : Nat) : List U32 :=
  (List.range n).map (fun i =>
    if i < n / 4 * 4 then maskedWord (((stream E s (n / 4)).drop (i * 4)).take 4) else 0)

@[simp] theorem convC_length (E : Cipher) (s : List Byte) (n : Nat) : (convC E s n).length = n := by
  simp [convC]

theorem convC_canonical {E : Cipher} {s : List Byte} {n : Nat} (h : NoHit E n s) :
    ∀ v ∈ convC E s n, Canonical v := by
  intro v hv
  simp only [convC, List.mem_map, List.mem_range] at hv
  obtain ⟨i, hi, rfl⟩ := hv
  split
  · exact maskedWord_canonical (h i (by assumption))
  · simp [Canonical, p]

theorem initFss_ok (n : Nat) : BufferReady n (initFss n) := by
  simp [BufferReady, initFss, List.drop_replicate]

theorem convertBlock_eq {env : Env} (hE : BlockCipher env.E) {n : Nat} {ocb s : List Byte} {out : List U32}
    (ho : BufferReady n ocb) (hs : s.length = 16) (hout : out.length = n) (hn : n < 20)
    (hno : NoHit env.E n s) :
    ∃ ocb', convertBlock env ocb s out = ok (convC env.E s n, ocb') ∧ BufferReady n ocb' := by
  subst hout
  obtain ⟨hl, hz⟩ := ho
  have hsl := stream_length hE hs (out.length / 4)
  unfold convertBlock
  rw [prf_eq hE hs (by omega) (by omega), hz]
  simp only [ok_bind]
  set inp := stream env.E s (out.length / 4) ++ List.replicate (out.length * 4 - out.length / 4 * 16) (0 : Byte)
    with hinp
  have hil : inp.length = out.length * 4 := by simp [hinp, hsl]; omega
  have hchunk : ∀ i, i < out.length → (inp.drop (i * 4)).take 4 =
      if i < out.length / 4 * 4 then ((stream env.E s (out.length / 4)).drop (i * 4)).take 4
      else List.replicate 4 0 := by
    intro i hi
    split
    · rw [hinp, List.drop_append_of_le_length (by omega), List.take_append_of_le_length (by simp; omega)]
    · rw [hinp, List.drop_append, List.drop_eq_nil_of_le (by omega)]
      rw [List.nil_append, List.drop_replicate, List.take_replicate]
      congr 1
      omega
  obtain ⟨inp', e, hl'⟩ := bytesToElements_nohit env.fresh env.fuel out inp (by omega) (by
    intro i hi
    rw [hchunk i hi]
    split
    · exact hno i (by assumption)
    · rw [low31_zero]; norm_num [p])
  refine ⟨inp', ?_, ?_, ?_⟩
  · rw [e]
    congr 2
    unfold convC
    apply List.map_congr_left
    intro i hi
    rw [hchunk i (List.mem_range.1 hi)]
    split
    · rfl
    · rw [maskedWord, low31_zero]; rfl
  · omega
  · have hzz := (bytesToElements_zero _ _ _ _ _ _ e).2
    apply List.ext_getElem?
    intro j
    rw [List.getElem?_drop]
    by_cases hj : j < out.length * 4 - out.length / 4 * 16
    · rw [List.getElem?_replicate_of_lt hj]
      apply hzz
      rw [hinp, List.getElem?_append_right (by omega), hsl, List.getElem?_replicate_of_lt (by omega)]
    · rw [List.getElem?_eq_none (by omega), List.getElem?_eq_none (by simp; omega)]

/-! ### Final correction word and output -/

theorem finalCW_eq {b tmp0 tmp1 : List U32} (h0 : tmp0.length = b.length) (h1 : tmp1.length = b.length)
    (t1 : Byte) :
    finalCW b tmp0 tmp1 t1 = ok ((List.range b.length).map (fun i =>
      let val := ((b.getD i 0 + (modP - tmp0.getD i 0)) % modP + tmp1.getD i 0) % modP
      if t1 = 1 then modP - val else val)) := by
  unfold finalCW
  apply forLoop_set_all
  · intro i t hi ht
    rw [idx_getD 0 hi, idx_getD 0 (by omega), idx_getD 0 (by omega)]
    simp only [ok_bind]
    split <;> rfl
  · simp

theorem evalOut_eq {tmp fcw out : List U32} (h0 : tmp.length = out.length) (h1 : fcw.length = out.length)
    (sn t : Byte) :
    evalOut sn tmp fcw t out = ok ((List.range out.length).map (fun i =>
      let v := (tmp.getD i 0 + t.setWidth 32 * fcw.getD i 0) % modP
      if sn = 0 then v else modP - v)) := by
  unfold evalOut
  apply forLoop_set_all
  · intro i t hi ht
    rw [idx_getD 0 (by omega), idx_getD 0 (by omega)]
    simp only [ok_bind]
    split <;> rfl
  · rfl

theorem canonical_getD {l : List U32} (h : ∀ v ∈ l, Canonical v) (i : Nat) : Canonical (l.getD i 0) := by
  by_cases hi : i < l.length
  · rw [getD_of_lt _ hi]; exact h _ (List.getElem_mem hi)
  · rw [List.getD_eq_getElem?_getD, List.getElem?_eq_none (by omega)]
    simp [Canonical, p]

/-- The correction word as a number. -/
theorem fcw_toNat {b x0 x1 : U32} (hb : Canonical b) (h0 : Canonical x0) (h1 : Canonical x1) :
    (((b + (modP - x0)) % modP + x1) % modP).toNat = (b.toNat + (p - x0.toNat) + x1.toNat) % p ∧
    (modP - (((b + (modP - x0)) % modP + x1) % modP)).toNat
      = p - (b.toNat + (p - x0.toNat) + x1.toNat) % p := by
  unfold Canonical at *
  rw [p_val] at *
  have e : (((b + (modP - x0)) % modP + x1) % modP).toNat
      = (b.toNat + (2147483647 - x0.toNat) + x1.toNat) % 2147483647 := by
    simp -implicitDefEqProofs only [BitVec.toNat_umod, BitVec.toNat_add, BitVec.toNat_sub, modP_toNat]
    omega
  refine ⟨e, ?_⟩
  have hlt : (((b + (modP - x0)) % modP + x1) % modP).toNat < 2147483647 := by rw [e]; omega
  rw [BitVec.toNat_sub, modP_toNat, e]
  omega

theorem out_toNat {x c : U32} {t : Byte} (hx : Canonical x) (hc : c.toNat ≤ p) (ht : Bit t) :
    ((x + t.setWidth 32 * c) % modP).toNat = (x.toNat + t.toNat * c.toNat) % p ∧
    (modP - (x + t.setWidth 32 * c) % modP).toNat = p - (x.toNat + t.toNat * c.toNat) % p := by
  unfold Canonical at *
  rw [p_val] at *
  have e : ((x + t.setWidth 32 * c) % modP).toNat = (x.toNat + t.toNat * c.toNat) % 2147483647 := by
    rcases ht with rfl | rfl
    · simp -implicitDefEqProofs [BitVec.toNat_umod, BitVec.toNat_add]
    · simp -implicitDefEqProofs [BitVec.toNat_umod, BitVec.toNat_add]; omega
  refine ⟨e, ?_⟩
  rw [BitVec.toNat_sub, modP_toNat, e]
  omega

/-- Sum of the two shares at the special point. -/
theorem shares_on {b x0 x1 : U32} {t0 t1 : Byte} (hb : Canonical b) (h0 : Canonical x0) (h1 : Canonical x1)
    (b0 : Bit t0) (b1 : Bit t1) (hne : t0 ≠ t1) (c : U32)
    (hc : c = if t1 = 1 then modP - (((b + (modP - x0)) % modP + x1) % modP)
      else ((b + (modP - x0)) % modP + x1) % modP) :
    (((x0 + t0.setWidth 32 * c) % modP).toNat + (modP - (x1 + t1.setWidth 32 * c) % modP).toNat) % p
      = b.toNat % p := by
  have e := fcw_toNat hb h0 h1
  have hcp : c.toNat ≤ p := by
    rw [hc]; split
    · rw [e.2]; exact Nat.sub_le _ _
    · rw [e.1]; exact (Nat.mod_lt _ (by norm_num [p])).le
  rw [(out_toNat h0 hcp b0).1, (out_toNat h1 hcp b1).2]
  have bz : (0 : Byte).toNat = 0 := rfl
  have bo : (1 : Byte).toNat = 1 := rfl
  unfold Canonical at *
  rcases b0 with rfl | rfl <;> rcases b1 with rfl | rfl
  · exact absurd rfl hne
  · rw [if_pos rfl] at hc
    rw [hc, e.2]
    rw [bz, bo, Nat.zero_mul, Nat.one_mul, Nat.add_zero]
    rw [p_val] at *
    omega
  · rw [if_neg (by decide)] at hc
    rw [hc, e.1]
    rw [bz, bo, Nat.zero_mul, Nat.one_mul, Nat.add_zero]
    rw [p_val] at *
    omega
  · exact absurd rfl hne

/-- Sum of the two shares away from the special point. -/
theorem shares_off {x c : U32} {t : Byte} (hx : Canonical x) (hc : c.toNat ≤ p) (ht : Bit t) :
    (((x + t.setWidth 32 * c) % modP).toNat + (modP - (x + t.setWidth 32 * c) % modP).toNat) % p = 0 := by
  rw [(out_toNat hx hc ht).1, (out_toNat hx hc ht).2]
  have : (x.toNat + t.toNat * c.toNat) % p < p := Nat.mod_lt _ (by norm_num [p])
  rw [Nat.add_sub_cancel' this.le, Nat.mod_self]

/-! ### Key generation and evaluation together -/

/-- Initial control bits. -/
theorem init_bits (tb : Byte) : Bit (tb % 2) ∧ Bit (tb % 2 ^^^ 1) ∧ tb % 2 ≠ tb % 2 ^^^ 1 := by
  rcases bit_mod tb with h | h <;> rw [h] <;> decide

/-- The final correction word as a list. -/
def fcwC (b tmp0 tmp1 : List U32) (t1 : Byte) : List U32 :=
  (List.range b.length).map (fun i =>
    let val := ((b.getD i 0 + (modP - tmp0.getD i 0)) % modP + tmp1.getD i 0) % modP
    if t1 = 1 then modP - val else val)

theorem fcwC_le {b tmp0 tmp1 : List U32} {t1 : Byte} (hb : ∀ v ∈ b, Canonical v)
    (h0 : ∀ v ∈ tmp0, Canonical v) (h1 : ∀ v ∈ tmp1, Canonical v) (i : Nat) :
    ((fcwC b tmp0 tmp1 t1).getD i 0).toNat ≤ p := by
  by_cases hi : i < b.length
  · rw [getD_of_lt _ (by simpa [fcwC] using hi)]
    simp only [fcwC, List.getElem_map, List.getElem_range]
    have e := fcw_toNat (canonical_getD hb i) (canonical_getD h0 i) (canonical_getD h1 i)
    split
    · rw [e.2]; exact Nat.sub_le _ _
    · rw [e.1]; exact (Nat.mod_lt _ (by norm_num [p])).le
  · rw [List.getD_eq_getElem?_getD, List.getElem?_eq_none (by simp [fcwC]; omega)]
    simp

theorem generate_eq {env : Env} (hE : BlockCipher env.E) {ocb r1 r2 : List Byte} {a : List Bool} {b : List U32}
    (ho : BufferReady b.length ocb) (h1 : r1.length = 17) (h2 : r2.length = 16) (hbl : b.length < 20)
    (g : GenState)
    (hg : genLoop env.E a (r1.take 16) r2 (r1.getD 16 0 % 2) (r1.getD 16 0 % 2 ^^^ 1) = ok g)
    (hn0 : NoHit env.E b.length g.s0) (hn1 : NoHit env.E b.length g.s1) :
    ∃ ocb', BufferReady b.length ocb' ∧ generateTreePF env ocb r1 r2 a b =
      ok (⟨r1.take 16, r1.getD 16 0 % 2, g.cw, fcwC b (convC env.E g.s0 b.length) (convC env.E g.s1 b.length) g.t1⟩,
        ⟨r2, r1.getD 16 0 % 2 ^^^ 1, g.cw, fcwC b (convC env.E g.s0 b.length) (convC env.E g.s1 b.length) g.t1⟩,
        ocb') := by
  obtain ⟨c0, c1, cne⟩ := init_bits (r1.getD 16 0)
  have hl0 : (r1.take 16).length = 16 := by simp [h1]
  have hgl := genLoop_eq hE a hl0 h2 c0 c1 cne
  rw [hg] at hgl
  have hgb := genRec_bits hE a hl0 h2 c0 c1 cne
  simp only [ok.injEq] at hgl
  have hs0 : g.s0.length = 16 := by rw [hgl]; exact hgb.1
  have hs1 : g.s1.length = 16 := by rw [hgl]; exact hgb.2.1
  obtain ⟨o1, e1, ho1⟩ := convertBlock_eq hE ho hs0 (List.length_replicate (n := b.length) (a := (0 : U32))) hbl hn0
  obtain ⟨o2, e2, ho2⟩ := convertBlock_eq hE ho1 hs1 (List.length_replicate (n := b.length) (a := (0 : U32))) hbl hn1
  refine ⟨o2, ho2, ?_⟩
  unfold generateTreePF
  rw [slice_of_le (by omega) (by omega), idx_getD 0 (by omega)]
  simp only [ok_bind, List.drop_zero, Nat.sub_zero]
  rw [copyAt_of_le (by simp [hl0]), copyAt_of_le (by simp [h2])]
  simp only [ok_bind, List.take_zero, List.nil_append, Nat.zero_add, List.drop_replicate, hl0, h2, Nat.sub_self,
    List.replicate_zero, List.append_nil]
  rw [hg]
  simp only [ok_bind]
  rw [e1]
  simp only [ok_bind]
  rw [e2]
  simp only [ok_bind]
  rw [finalCW_eq (by simp) (by simp)]
  rfl

/-- Element `i` of the share of party `sn` with final seed and control bit `r`. -/
def shareC (E : Cipher) (n : Nat) (fcw : List U32) (sn : Byte) (r : List Byte × Byte) (i : Nat) : U32 :=
  let v := ((convC E r.1 n).getD i 0 + r.2.setWidth 32 * fcw.getD i 0) % modP
  if sn = 0 then v else modP - v

theorem shareC_zero (E : Cipher) (n : Nat) (fcw : List U32) (r : List Byte × Byte) (i : Nat) :
    shareC E n fcw 0 r i = ((convC E r.1 n).getD i 0 + r.2.setWidth 32 * fcw.getD i 0) % modP := by
  unfold shareC
  rw [if_pos rfl]

theorem shareC_one (E : Cipher) (n : Nat) (fcw : List U32) (r : List Byte × Byte) (i : Nat) :
    shareC E n fcw 1 r i = modP - ((convC E r.1 n).getD i 0 + r.2.setWidth 32 * fcw.getD i 0) % modP := by
  unfold shareC
  rw [if_neg (by decide)]

theorem combine_range (n : Nat) (f g : Nat → U32) :
    combine ((List.range n).map f) ((List.range n).map g)
      = (List.range n).map (fun i => ((f i).toNat + (g i).toNat) % p) := by
  unfold combine
  rw [List.zipWith_map, List.zipWith_self]

theorem point_range {α : Type} [DecidableEq α] (a x : α) (b : List U32) :
    point a (b.map BitVec.toNat) x
      = (List.range b.length).map (fun i => if x = a then (b.getD i 0).toNat % p else 0) := by
  unfold point
  by_cases h : x = a
  · rw [if_pos h]
    apply List.ext_getElem
    · simp
    · intro i h1 h2
      have : i < b.length := by simpa using h1
      simp only [List.getElem_map, List.getElem_range, if_pos h]
      rw [getD_of_lt _ this]
  · rw [if_neg h]
    apply List.ext_getElem
    · simp
    · intro i h1 h2
      simp only [List.getElem_map, List.getElem_range, if_neg h]

theorem evaluate_eq {env : Env} (hE : BlockCipher env.E) {ocb : List Byte} {k : Key} {x : List Bool}
    {out : List U32} (sn : Byte) (hn : out.length < 20) (ho : BufferReady out.length ocb)
    (hk : k.sInit.length = 16) (ht : Bit k.tInit) (hcw : k.cw.length = x.length)
    (h18 : ∀ cw ∈ k.cw, cw.length = 18) (hf : k.finalCW.length = out.length)
    (hno : ∀ s t, evalPath env.E k x = ok (s, t) → NoHit env.E out.length s) :
    ∃ ocb', BufferReady out.length ocb' ∧ evaluatePF env ocb sn k x out = ok
      (let r := evalRec env.E ((clear256 x).zip k.cw) (k.sInit, k.tInit)
       (List.range out.length).map (shareC env.E out.length k.finalCW sn r), ocb') := by
  have e := evalPath_eq hE k x hk hcw h18
  have hr := evalRec_inv hE ((clear256 x).zip k.cw) hk ht (by
    intro c hc
    obtain ⟨x', cw⟩ := c
    exact h18 cw (List.of_mem_zip hc).2)
  set r := evalRec env.E ((clear256 x).zip k.cw) (k.sInit, k.tInit) with hrdef
  obtain ⟨o, eo, hob⟩ := convertBlock_eq hE ho hr.1
    (List.length_replicate (n := out.length) (a := (0 : U32))) hn (hno _ _ e)
  refine ⟨o, hob, ?_⟩
  unfold evaluatePF
  rw [e]
  simp only [ok_bind]
  rw [eo]
  simp only [ok_bind]
  rw [evalOut_eq (by simp) hf]
  rfl

/-- The two evaluations add up to the point function at the input with bit 256 cleared. -/
theorem fss_correct {envG env0 env1 : Env} (hE : BlockCipher envG.E) (he0 : env0.E = envG.E)
    (he1 : env1.E = envG.E) {ocb r1 r2 : List Byte} {a : List Bool} {b : List U32}
    (ho : BufferReady b.length ocb) (h1 : r1.length = 17) (h2 : r2.length = 16) (hbl : b.length < 20)
    (hb : ∀ v ∈ b, Canonical v)
    (hno : ∀ g, genLoop envG.E a (r1.take 16) r2 (r1.getD 16 0 % 2) (r1.getD 16 0 % 2 ^^^ 1) = ok g →
      NoHit envG.E b.length g.s0 ∧ NoHit envG.E b.length g.s1) :
    ∃ k0 k1 ocb', generateTreePF envG ocb r1 r2 a b = ok (k0, k1, ocb') ∧ BufferReady b.length ocb' ∧
      ∀ (x : List Bool), x.length = a.length →
      (∀ s t, evalPath envG.E k0 x = ok (s, t) → NoHit envG.E b.length s) →
      (∀ s t, evalPath envG.E k1 x = ok (s, t) → NoHit envG.E b.length s) →
      ∀ (ocb0 ocb1 : List Byte) (out0 out1 : List U32),
      out0.length = b.length → out1.length = b.length →
      BufferReady b.length ocb0 → BufferReady b.length ocb1 →
      ∃ y0 o0 y1 o1, evaluatePF env0 ocb0 0 k0 x out0 = ok (y0, o0) ∧
        evaluatePF env1 ocb1 1 k1 x out1 = ok (y1, o1) ∧
        BufferReady b.length o0 ∧ BufferReady b.length o1 ∧
        combine y0 y1 = point a (b.map BitVec.toNat) (clear256 x) := by
  obtain ⟨c0, c1, cne⟩ := init_bits (r1.getD 16 0)
  have hl0 : (r1.take 16).length = 16 := by simp [h1]
  have hgl := genLoop_eq hE a hl0 h2 c0 c1 cne
  have hgb := genRec_bits hE a hl0 h2 c0 c1 cne
  have hgc := genRec_cw hE a hl0 h2 c0 c1 cne
  have hon := evalRec_on hE a hl0 h2 c0 c1 cne
  have hoff := fun x => evalRec_off hE a x hl0 h2 c0 c1 cne
  set r := genRec envG.E a (r1.take 16) r2 (r1.getD 16 0 % 2) (r1.getD 16 0 % 2 ^^^ 1) with hr
  simp only at hgl hgb hon hoff
  obtain ⟨hn0, hn1⟩ := hno _ hgl
  simp only at hn0 hn1
  obtain ⟨ocb', ho', eg⟩ := generate_eq hE ho h1 h2 hbl _ hgl hn0 hn1
  refine ⟨_, _, ocb', eg, ho', ?_⟩
  simp only
  intro x hx hx0 hx1 ocb0 ocb1 out0 out1 hout0 hout1 hob0 hob1
  set fcw := fcwC b (convC envG.E r.2.1 b.length) (convC envG.E r.2.2.1 b.length) r.2.2.2.2 with hfcw
  have hfl : fcw.length = b.length := by simp [hfcw, fcwC]
  obtain ⟨o0, hbo0, e0⟩ := evaluate_eq (env := env0) (k := ⟨r1.take 16, r1.getD 16 0 % 2, r.1, fcw⟩)
    (x := x) (ocb := ocb0) (out := out0) (by rw [he0]; exact hE) 0 (by omega) (by rw [hout0]; exact hob0)
    hl0 c0 (by rw [hgc.1, hx]) hgc.2 (by rw [hfl, hout0]) (by rw [he0, hout0]; exact hx0)
  obtain ⟨o1, hbo1, e1⟩ := evaluate_eq (env := env1) (k := ⟨r2, r1.getD 16 0 % 2 ^^^ 1, r.1, fcw⟩)
    (x := x) (ocb := ocb1) (out := out1) (by rw [he1]; exact hE) 1 (by omega) (by rw [hout1]; exact hob1)
    h2 c1 (by rw [hgc.1, hx]) hgc.2 (by rw [hfl, hout1]) (by rw [he1, hout1]; exact hx1)
  refine ⟨_, o0, _, o1, e0, e1, by rw [hout0] at hbo0; exact hbo0, by rw [hout1] at hbo1; exact hbo1, ?_⟩
  have hcan0 := convC_canonical hn0
  have hcan1 := convC_canonical hn1
  have p0 := evalPath_eq hE ⟨r1.take 16, r1.getD 16 0 % 2, r.1, fcw⟩ x hl0 (by rw [hgc.1, hx]) hgc.2
  have hinv := evalRec_inv hE ((clear256 x).zip r.1) hl0 c0 (by
    intro c hc
    obtain ⟨x', cw⟩ := c
    exact hgc.2 cw (List.of_mem_zip hc).2)
  simp only [he0, he1, hout0, hout1]
  rw [combine_range, point_range]
  apply List.map_congr_left
  intro i hi
  have hi : i < b.length := List.mem_range.1 hi
  rw [shareC_zero, shareC_one]
  by_cases hxa : clear256 x = a
  · rw [if_pos hxa, hxa, hon.1, hon.2]
    apply shares_on (canonical_getD hb i) (canonical_getD hcan0 i) (canonical_getD hcan1 i)
      hgb.2.2.1 hgb.2.2.2.1 hgb.2.2.2.2 (fcw.getD i 0)
    rw [getD_of_lt _ (by omega)]
    simp only [hfcw, fcwC, List.getElem_map, List.getElem_range]
  · rw [if_neg hxa, ← hoff (clear256 x) (by rw [clear256_length, hx]) hxa]
    have hc := convC_canonical (hx0 _ _ p0)
    exact shares_off (canonical_getD hc i) (fcwC_le hb hcan0 hcan1 i) hinv.2

end Verif.Fss
