import Verif.Model.Field
import Verif.Spec.Field
import Verif.Lemmas.Rand

namespace Verif.Field
open Res Verif.Rand Spec

@[simp] theorem modP_toNat : modP.toNat = 2147483647 := by simp [modP]

theorem p_val : p = 2147483647 := by norm_num [p]

theorem and_mask_toNat (b : Byte) : (b &&& mask).toNat = b.toNat % 128 := by
  rw [BitVec.toNat_and]
  exact Nat.and_two_pow_sub_one_eq_mod b.toNat 7

/-- The masked word of a four-byte chunk. -/
def maskedWord (c : List Byte) : U32 := BitVec.ofNat 32 (low31 c)

theorem ofBE_four (b0 b1 b2 b3 : Byte) :
    ofBE [b0, b1, b2, b3] = b0.toNat * 2 ^ 24 + b1.toNat * 2 ^ 16 + b2.toNat * 2 ^ 8 + b3.toNat := by
  simp only [ofBE, ofLE, List.reverse_cons, List.reverse_nil, List.nil_append, List.cons_append]
  omega

theorem low31_lt (c : List Byte) : low31 c < 2 ^ 31 := Nat.mod_lt _ (by norm_num)

theorem maskedWord_toNat (c : List Byte) : (maskedWord c).toNat = low31 c := by
  have := low31_lt c
  simp only [maskedWord, BitVec.toNat_ofNat]
  omega

theorem maskedWord_ne_iff (c : List Byte) : maskedWord c ≠ modP ↔ low31 c ≠ p := by
  rw [Ne, ← BitVec.toNat_inj, maskedWord_toNat, modP_toNat, p_val]

theorem maskedWord_canonical {c : List Byte} (h : low31 c ≠ p) : Canonical (maskedWord c) := by
  have := low31_lt c
  unfold Canonical
  rw [maskedWord_toNat]
  rw [p_val] at *
  omega

theorem getBE32_masked (b0 b1 b2 b3 : Byte) :
    getBE32 [b0 &&& mask, b1, b2, b3] = ok (maskedWord [b0, b1, b2, b3]) := by
  rw [getBE32, if_pos (by simp)]
  congr 1
  rw [List.take_of_length_le (by simp)]
  apply BitVec.eq_of_toNat_eq
  rw [maskedWord_toNat, low31, BitVec.toNat_ofNat, ofBE_four, ofBE_four, and_mask_toNat]
  have h0 := b0.isLt
  have h1 := b1.isLt
  have h2 := b2.isLt
  have h3 := b3.isLt
  omega

theorem len4 {c : List Byte} (h : c.length = 4) : ∃ b0 b1 b2 b3, c = [b0, b1, b2, b3] := by
  match c, h with
  | [b0, b1, b2, b3], _ => exact ⟨b0, b1, b2, b3, rfl⟩

theorem resample_ok {fresh : Nat → U32} {fuel j : Nat} {out : U32} (h : out ≠ modP) :
    resample fresh fuel j out = ok out := by
  cases fuel <;> simp [resample, h]

theorem resample_ne {fresh : Nat → U32} {fuel : Nat} : ∀ {j : Nat} {out r : U32},
    resample fresh fuel j out = ok r → r ≠ modP := by
  induction fuel with
  | zero =>
    intro j out r h
    unfold resample at h
    split at h
    · cases h
    · simp at h; subst h; assumption
  | succ fuel ih =>
    intro j out r h
    unfold resample at h
    split at h
    · exact ih h
    · simp at h; subst h; assumption

theorem toElement_eq (fresh : Nat → U32) (fuel : Nat) {c : List Byte} (h : c.length = 4) :
    ∃ b0 rest, c = b0 :: rest ∧ toElement fresh fuel c
      = (resample fresh fuel 0 (maskedWord c) >>= fun out => ok (out, (b0 &&& mask) :: rest)) := by
  obtain ⟨b0, b1, b2, b3, rfl⟩ := len4 h
  refine ⟨b0, _, rfl, ?_⟩
  have e := getBE32_masked b0 b1 b2 b3
  simp [toElement, idx, setAt, slice, e]

theorem toElement_nohit (fresh : Nat → U32) (fuel : Nat) {c : List Byte} (h : c.length = 4)
    (hn : low31 c ≠ p) :
    ∃ c', toElement fresh fuel c = ok (maskedWord c, c') ∧ c'.length = 4 := by
  obtain ⟨b0, rest, hc, e⟩ := toElement_eq fresh fuel h
  rw [e, resample_ok ((maskedWord_ne_iff c).2 hn)]
  refine ⟨_, rfl, ?_⟩
  rw [hc] at h
  simpa using h

/-- `bytesToElements` when no chunk converts to `ModP`. -/
theorem bytesToElements_nohit (fresh : Nat → U32) (fuel : Nat) (out : List U32) (inp : List Byte)
    (hlen : out.length * 4 ≤ inp.length)
    (hn : ∀ i, i < out.length → low31 ((inp.drop (i * 4)).take 4) ≠ p) :
    ∃ inp', bytesToElements fresh fuel out inp
      = ok ((List.range out.length).map (fun i => maskedWord ((inp.drop (i * 4)).take 4)), inp') ∧
      inp'.length = inp.length := by
  have key : ∃ s, bytesToElements fresh fuel out inp = ok s ∧
      (s.1 = (List.range out.length).map (fun i => maskedWord ((inp.drop (i * 4)).take 4))
        ++ out.drop out.length ∧ s.2.length = inp.length ∧
        s.2.drop (out.length * 4) = inp.drop (out.length * 4)) := by
    unfold bytesToElements
    refine forLoop_inv (fun k (s : List U32 × List Byte) =>
      s.1 = (List.range k).map (fun i => maskedWord ((inp.drop (i * 4)).take 4)) ++ out.drop k ∧
      s.2.length = inp.length ∧ s.2.drop (k * 4) = inp.drop (k * 4)) (by simp) ?_
    rintro i ⟨o, b⟩ hi ⟨ho, hb, hd⟩
    simp only at ho hb hd ⊢
    rw [slice_of_le (by omega) (by omega), ok_bind]
    have e4 : (i + 1) * 4 - i * 4 = 4 := by omega
    rw [e4, hd]
    obtain ⟨c', e1, e2⟩ := toElement_nohit fresh fuel (c := (inp.drop (i * 4)).take 4)
      (by simp; omega) (hn i hi)
    rw [e1, ok_bind]
    simp only
    rw [copyAt_of_le (by omega), ok_bind]
    have hol : o.length = out.length := by rw [ho]; simp; omega
    rw [setAt_of_lt (by omega), ok_bind]
    refine ⟨_, rfl, ?_, ?_, ?_⟩
    · simp only
      rw [ho, List.set_append_right _ _ (by simp), List.range_succ, List.map_append,
        List.append_assoc]
      congr 1
      simp only [List.length_map, List.length_range, Nat.sub_self, drop_set_zero hi, List.map_cons,
        List.map_nil, List.cons_append, List.nil_append]
    · simp; omega
    · simp only
      have l1 : (b.take (i * 4) ++ c').length = (i + 1) * 4 := by simp [e2]; omega
      rw [List.drop_append, List.drop_eq_nil_of_le (by omega), l1, Nat.sub_self, List.nil_append,
        List.drop_zero, e2, ← List.drop_drop, hd, List.drop_drop]
      congr 1
      omega
  obtain ⟨s, h1, h2, h3, -⟩ := key
  rw [List.drop_length, List.append_nil] at h2
  exact ⟨s.2, by rw [h1, ← h2], h3⟩

/-! ### Sampling -/

theorem read4 (g : Prg) (buf : List Byte) (h : buf.length = 4) :
    g.read buf = (keyStream g.ks g.pos 4, ⟨g.ks, g.pos + 16⟩) := by
  unfold Prg.read xorKeyStream
  rw [if_pos (by omega)]
  simp only [List.length_replicate]
  rw [zipWith_xor_zero _ _ (by simp), h, keyStream_take _ _ _ _ (by omega)]
  simp [List.drop_eq_nil_of_le (show buf.length ≤ 16 by omega)]

theorem masked_step (c : List Byte) (h : c.length = 4) :
    ∃ c', c'.length = 4 ∧ (do
      let b0 ← idx c 0
      let buf ← setAt c 0 (b0 &&& mask)
      ok buf) = ok c' ∧ getBE32 c' = ok (maskedWord c) := by
  obtain ⟨b0, b1, b2, b3, rfl⟩ := len4 h
  exact ⟨[b0 &&& mask, b1, b2, b3], rfl, rfl, getBE32_masked b0 b1 b2 b3⟩

/-- Candidate word number `j` drawn by `RandElementWithPRG` from generator `g`. -/
def candidate (g : Prg) (j : Nat) : List Byte := keyStream g.ks (g.pos + 16 * j) 4

theorem randElementLoop_step (fuel : Nat) (buf : List Byte) (g : Prg) (hb : buf.length = 4) :
    ∃ buf', buf'.length = 4 ∧ randElementLoop (fuel + 1) buf modP g
      = randElementLoop fuel buf' (maskedWord (candidate g 0)) ⟨g.ks, g.pos + 16⟩ := by
  obtain ⟨b0, b1, b2, b3, e⟩ := len4 (show (keyStream g.ks g.pos 4).length = 4 by simp)
  refine ⟨[b0 &&& mask, b1, b2, b3], rfl, ?_⟩
  rw [randElementLoop, if_pos rfl, read4 g buf hb]
  have e' : candidate g 0 = [b0, b1, b2, b3] := by simp [candidate, e]
  simp [e, e', idx, setAt, getBE32_masked]

/-- `RandElementWithPRG` returns the first candidate whose masked value is not `ModP`. -/
theorem randElementLoop_first (k : Nat) : ∀ (fuel : Nat) (buf : List Byte) (g : Prg),
    buf.length = 4 → (∀ j, j < k → low31 (candidate g j) = p) → low31 (candidate g k) ≠ p →
    randElementLoop (fuel + k + 1) buf modP g
      = ok (maskedWord (candidate g k), ⟨g.ks, g.pos + 16 * (k + 1)⟩) := by
  induction k with
  | zero =>
    intro fuel buf g hb _ hk
    obtain ⟨buf', -, e⟩ := randElementLoop_step fuel buf g hb
    rw [Nat.add_zero, e]
    have hne := (maskedWord_ne_iff _).2 hk
    cases fuel <;> simp [randElementLoop, hne]
  | succ k ih =>
    intro fuel buf g hb hj hk
    obtain ⟨buf', hb', e⟩ := randElementLoop_step (fuel + (k + 1)) buf g hb
    rw [e]
    have h0 : maskedWord (candidate g 0) = modP := by
      by_contra hne
      exact (maskedWord_ne_iff _).1 hne (hj 0 (by omega))
    have hc : ∀ j, candidate ⟨g.ks, g.pos + 16⟩ j = candidate g (j + 1) := by
      intro j
      simp only [candidate]
      congr 1
      omega
    rw [h0, ← Nat.add_assoc, ih fuel buf' ⟨g.ks, g.pos + 16⟩ hb' (fun j hjk => by
      rw [hc]; exact hj (j + 1) (by omega)) (by rw [hc]; exact hk), hc]
    simp only
    congr 3
    ring

theorem randElementLoop_out : ∀ (fuel : Nat) (buf : List Byte) (out : U32) (g g' : Prg) (r : U32),
    buf.length = 4 → (out = modP ∨ Canonical out) → randElementLoop fuel buf out g = ok (r, g') →
    Canonical r := by
  intro fuel
  induction fuel with
  | zero =>
    intro buf out g g' r hb ho h
    unfold randElementLoop at h
    split at h
    · cases h
    · rename_i hne
      simp at h
      rw [← h.1]
      tauto
  | succ fuel ih =>
    intro buf out g g' r hb ho h
    by_cases hm : out = modP
    · subst hm
      obtain ⟨buf', hb', e⟩ := randElementLoop_step fuel buf g hb
      rw [e] at h
      refine ih buf' _ _ _ _ hb' ?_ h
      by_cases hh : low31 (candidate g 0) = p
      · left
        by_contra hne
        exact (maskedWord_ne_iff _).1 hne hh
      · right; exact maskedWord_canonical hh
    · rw [randElementLoop, if_neg hm] at h
      simp at h
      rw [← h.1]
      tauto

theorem randVectorFix_out (fuel : Nat) : ∀ (k : Nat) (out : U32) (g g' : Prg) (r : U32),
    (out = modP ∨ Canonical out) → randVectorFix fuel k out g = ok (r, g') → Canonical r := by
  intro k
  induction k with
  | zero =>
    intro out g g' r ho h
    unfold randVectorFix at h
    split at h
    · cases h
    · simp at h; rw [← h.1]; tauto
  | succ k ih =>
    intro out g g' r ho h
    unfold randVectorFix at h
    split at h
    · rw [Res.bind_eq_ok] at h
      obtain ⟨⟨o, g1⟩, e1, e2⟩ := h
      exact ih _ _ _ _ (Or.inr (randElementLoop_out _ _ _ _ _ _ (by simp) (Or.inl rfl) e1)) e2
    · simp at h; rw [← h.1]; tauto

theorem maskedWord_or (c : List Byte) : maskedWord c = modP ∨ Canonical (maskedWord c) := by
  by_cases hh : low31 c = p
  · left
    by_contra hne
    exact (maskedWord_ne_iff _).1 hne hh
  · right; exact maskedWord_canonical hh

end Verif.Field
