import Verif.Lemmas.FssHybrid

/-! # The final correction word of a key with five values -/

namespace Verif.Fss
open Res Verif.Field Verif.Field.Spec Verif.Fss.Spec Verif.Privacy Finset
set_option linter.unusedSimpArgs false

/-! ### Key generation as seen by one party -/

theorem zipXor_comm (l m : List Byte) : List.zipWith (· ^^^ ·) l m = List.zipWith (· ^^^ ·) m l := by
  rw [List.zipWith_comm]
  congr 1
  funext x y
  exact BitVec.xor_comm _ _

theorem bit_other {t t' : Byte} (h : Bit t) (h' : Bit t') (hne : t ≠ t') : t' = t ^^^ 1 ∧ t = t' ^^^ 1 := by
  rcases h with rfl | rfl <;> rcases h' with rfl | rfl <;> first | exact absurd rfl hne | decide

theorem bit_flip {t : Byte} (h : Bit t) : Bit (t ^^^ 1) ∧ t ≠ t ^^^ 1 := by
  rcases h with rfl | rfl <;> decide

theorem genStepC_first (E : Cipher) (a : Bool) (s0 s1 : List Byte) (t0 t1 : Byte) (ht : t1 = t0 ^^^ 1) :
    let g := genStepC E a s0 s1 t0 t1
    stepU a (stream E s0 3) (stream E s1 3) t0 = (g.1, (g.2.1, g.2.2.2.1), g.2.2.1) := by
  subst ht
  rfl

theorem genStepC_second (E : Cipher) (a : Bool) (s0 s1 : List Byte) (t0 t1 : Byte) (ht : t0 = t1 ^^^ 1) :
    let g := genStepC E a s0 s1 t0 t1
    stepU a (stream E s1 3) (stream E s0 3) t1 = (g.1, (g.2.2.1, g.2.2.2.2), g.2.1) := by
  subst ht
  simp only [stepU, genStepC, half, ctl, halfU, ctlU]
  rw [zipXor_comm]
  simp only [BitVec.xor_comm (List.getD (stream E s1 3) _ _ % 2), Bool.false_eq_true, if_false, if_true]

theorem genRec_first {E : Cipher} (hE : BlockCipher E) : ∀ (a : List Bool) {s0 s1 : List Byte} {t0 t1 : Byte},
    s0.length = 16 → s1.length = 16 → Bit t0 → Bit t1 → t0 ≠ t1 →
    let g := genRec E a s0 s1 t0 t1
    runReal E a (s0, t0) s1 = (g.1, (g.2.1, g.2.2.2.1), g.2.2.1) := by
  intro a
  induction a with
  | nil => intros; rfl
  | cons a as ih =>
    intro s0 s1 t0 t1 h0 h1 b0 b1 hne
    obtain ⟨k0, k1, c0, c1, cne⟩ := step_on_bits hE h0 h1 a b0 b1 hne
    have e := genStepC_first E a s0 s1 t0 t1 (bit_other b0 b1 hne).1
    have i := ih k0 k1 c0 c1 cne
    simp only at e i ⊢
    unfold runReal genRec
    simp only [e, i]

theorem genRec_second {E : Cipher} (hE : BlockCipher E) : ∀ (a : List Bool) {s0 s1 : List Byte} {t0 t1 : Byte},
    s0.length = 16 → s1.length = 16 → Bit t0 → Bit t1 → t0 ≠ t1 →
    let g := genRec E a s0 s1 t0 t1
    runReal E a (s1, t1) s0 = (g.1, (g.2.2.1, g.2.2.2.2), g.2.1) := by
  intro a
  induction a with
  | nil => intros; rfl
  | cons a as ih =>
    intro s0 s1 t0 t1 h0 h1 b0 b1 hne
    obtain ⟨k0, k1, c0, c1, cne⟩ := step_on_bits hE h0 h1 a b0 b1 hne
    have e := genStepC_second E a s0 s1 t0 t1 (bit_other b0 b1 hne).2
    have i := ih k0 k1 c0 c1 cne
    simp only at e i ⊢
    unfold runReal genRec
    simp only [e, i]

/-! ### Conversion with replacement of the modulus -/

/-- `bytesToElements` when the replacement for the modulus is `e`. -/
theorem bytesToElements_gen (fresh : Nat → U32) (fuel : Nat) (e : U32) (he : resample fresh fuel 0 modP = ok e)
    (out : List U32) (inp : List Byte) (hlen : out.length * 4 ≤ inp.length) :
    ∃ inp', bytesToElements fresh fuel out inp
      = ok ((List.range out.length).map (fun i =>
          if low31 ((inp.drop (i * 4)).take 4) = p then e else maskedWord ((inp.drop (i * 4)).take 4)), inp') ∧
      inp'.length = inp.length := by
  set f : Nat → U32 := fun i =>
    if low31 ((inp.drop (i * 4)).take 4) = p then e else maskedWord ((inp.drop (i * 4)).take 4) with hf
  have key : ∃ s, bytesToElements fresh fuel out inp = ok s ∧
      (s.1 = (List.range out.length).map f ++ out.drop out.length ∧ s.2.length = inp.length ∧
        s.2.drop (out.length * 4) = inp.drop (out.length * 4)) := by
    unfold bytesToElements
    refine forLoop_inv (fun k (s : List U32 × List Byte) =>
      s.1 = (List.range k).map f ++ out.drop k ∧
      s.2.length = inp.length ∧ s.2.drop (k * 4) = inp.drop (k * 4)) (by simp) ?_
    rintro i ⟨o, b⟩ hi ⟨ho, hb, hd⟩
    simp only at ho hb hd ⊢
    rw [slice_of_le (by omega) (by omega), ok_bind]
    have e4 : (i + 1) * 4 - i * 4 = 4 := by omega
    rw [e4, hd]
    have hcl : ((inp.drop (i * 4)).take 4).length = 4 := by simp; omega
    obtain ⟨b0, rest, hc, et⟩ := toElement_eq fresh fuel hcl
    have hfi : resample fresh fuel 0 (maskedWord ((inp.drop (i * 4)).take 4)) = ok (f i) := by
      simp only [hf]
      by_cases hh : low31 ((inp.drop (i * 4)).take 4) = p
      · rw [if_pos hh]
        have : maskedWord ((inp.drop (i * 4)).take 4) = modP := by
          by_contra hn
          exact (maskedWord_ne_iff _).1 hn hh
        rw [this, he]
      · rw [if_neg hh, resample_ok ((maskedWord_ne_iff _).2 hh)]
    have e2 : ((b0 &&& Field.mask) :: rest).length = 4 := by rw [hc] at hcl; simpa using hcl
    rw [et, hfi, ok_bind, ok_bind]
    generalize (b0 &&& Field.mask) :: rest = c' at e2 ⊢
    simp only
    rw [copyAt_of_le (by omega), ok_bind]
    have hol : o.length = out.length := by rw [ho]; simp; omega
    rw [setAt_of_lt (by omega), ok_bind]
    refine ⟨_, rfl, ?_, ?_, ?_⟩
    · simp only
      rw [ho, List.set_append_right _ _ (by simp), List.range_succ, List.map_append,
        List.append_assoc]
      congr 1
      simp only [List.length_map, List.length_range, Nat.sub_self, drop_set_zero hi, List.map_cons,
        List.map_nil, List.cons_append, List.nil_append]
    · simp; omega
    · simp only
      have l1 : (b.take (i * 4) ++ c').length = (i + 1) * 4 := by simp [e2]; omega
      rw [List.drop_append, List.drop_eq_nil_of_le (by omega), l1, Nat.sub_self, List.nil_append,
        List.drop_zero, e2, ← List.drop_drop, hd, List.drop_drop]
      congr 1
      omega
  obtain ⟨s, h1, h2, h3, -⟩ := key
  rw [List.drop_length, List.append_nil] at h2
  exact ⟨s.2, by rw [h1, ← h2], h3⟩

theorem convertBlock_five {env : Env} (hE : BlockCipher env.E) {e : U32}
    (he : resample env.fresh env.fuel 0 modP = ok e) {ocb s : List Byte}
    (ho : BufferReady 5 ocb) (hs : s.length = 16) :
    ∃ ocb', convertBlock env ocb s (List.replicate 5 0) = ok (elems e (words env.E s), ocb') ∧
      BufferReady 5 ocb' := by
  obtain ⟨hl, hz⟩ := ho
  have hsl := stream_length hE hs 1
  unfold convertBlock
  rw [List.length_replicate, show 5 / 4 = 1 from rfl, prf_eq hE hs (by omega) (by omega),
    show 1 * 16 = 5 / 4 * 16 from rfl, hz]
  simp only [ok_bind]
  set inp := stream env.E s 1 ++ List.replicate (5 * 4 - 5 / 4 * 16) (0 : Byte) with hinp
  have hil : inp.length = 20 := by simp [hinp, hsl]
  obtain ⟨inp', e1, hl'⟩ := bytesToElements_gen env.fresh env.fuel e he (List.replicate 5 0) inp (by simp; omega)
  refine ⟨inp', ?_, ?_, ?_⟩
  · rw [e1]
    congr 2
    have hc : ∀ i, i < 4 → (inp.drop (i * 4)).take 4 = ((stream env.E s 1).drop (i * 4)).take 4 := by
      intro i hi
      rw [hinp, List.drop_append_of_le_length (by omega), List.take_append_of_le_length (by simp; omega)]
    have h4 : (inp.drop (4 * 4)).take 4 = List.replicate 4 0 := by
      rw [hinp, List.drop_append, List.drop_eq_nil_of_le (by omega), hsl]
      rfl
    have hw : ∀ i, (hi : i < 4) → (if low31 ((inp.drop (i * 4)).take 4) = p then e
        else maskedWord ((inp.drop (i * 4)).take 4)) = orFresh e (words env.E s ⟨i, hi⟩) := by
      intro i hi
      rw [hc i hi]
      rfl
    have h5 : (if low31 ((inp.drop (4 * 4)).take 4) = p then e
        else maskedWord ((inp.drop (4 * 4)).take 4)) = 0 := by
      rw [h4, low31_zero, if_neg (by norm_num [p]), maskedWord, low31_zero]; rfl
    simp only [List.length_replicate, show List.range 5 = [0, 1, 2, 3, 4] from rfl, List.map_cons, List.map_nil]
    rw [hw 0 (by omega), hw 1 (by omega), hw 2 (by omega), hw 3 (by omega), h5]
    rfl
  · omega
  · have hzz := (bytesToElements_zero _ _ _ _ _ _ e1).2
    apply List.ext_getElem?
    intro j
    rw [List.getElem?_drop]
    by_cases hj : j < 5 * 4 - 5 / 4 * 16
    · rw [List.getElem?_replicate_of_lt hj]
      apply hzz
      rw [hinp, List.getElem?_append_right (by omega), hsl, List.getElem?_replicate_of_lt (by omega)]
    · rw [List.getElem?_eq_none (by omega), List.getElem?_eq_none (by simp; omega)]

theorem generate_five {env : Env} (hE : BlockCipher env.E) {e : U32}
    (he : resample env.fresh env.fuel 0 modP = ok e) {ocb r1 r2 : List Byte} {a : List Bool} {b : List U32}
    (ho : BufferReady 5 ocb) (h1 : r1.length = 17) (h2 : r2.length = 16) (hb : b.length = 5)
    (g : GenState)
    (hg : genLoop env.E a (r1.take 16) r2 (r1.getD 16 0 % 2) (r1.getD 16 0 % 2 ^^^ 1) = ok g) :
    ∃ ocb', generateTreePF env ocb r1 r2 a b =
      ok (⟨r1.take 16, r1.getD 16 0 % 2, g.cw, fcwC b (elems e (words env.E g.s0)) (elems e (words env.E g.s1)) g.t1⟩,
        ⟨r2, r1.getD 16 0 % 2 ^^^ 1, g.cw, fcwC b (elems e (words env.E g.s0)) (elems e (words env.E g.s1)) g.t1⟩,
        ocb') := by
  obtain ⟨c0, c1, cne⟩ := init_bits (r1.getD 16 0)
  have hl0 : (r1.take 16).length = 16 := by simp [h1]
  have hgl := genLoop_eq hE a hl0 h2 c0 c1 cne
  rw [hg] at hgl
  have hgb := genRec_bits hE a hl0 h2 c0 c1 cne
  simp only [ok.injEq] at hgl
  have hs0 : g.s0.length = 16 := by rw [hgl]; exact hgb.1
  have hs1 : g.s1.length = 16 := by rw [hgl]; exact hgb.2.1
  obtain ⟨o1, e1, ho1⟩ := convertBlock_five hE he ho hs0
  obtain ⟨o2, e2, ho2⟩ := convertBlock_five hE he ho1 hs1
  refine ⟨o2, ?_⟩
  unfold generateTreePF
  rw [slice_of_le (by omega) (by omega), idx_getD 0 (by omega)]
  simp only [ok_bind, List.drop_zero, Nat.sub_zero]
  rw [copyAt_of_le (by simp [hl0]), copyAt_of_le (by simp [h2])]
  simp only [ok_bind, List.take_zero, List.nil_append, Nat.zero_add, List.drop_replicate, hl0, h2, Nat.sub_self,
    List.replicate_zero, List.append_nil]
  rw [hg]
  simp only [ok_bind, hb]
  rw [e1]
  simp only [ok_bind]
  rw [e2]
  simp only [ok_bind]
  rw [finalCW_eq (by simp [elems, hb]) (by simp [elems, hb])]
  rfl

end Verif.Fss
