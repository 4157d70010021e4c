import Verif.Model.Fss
import Verif.Spec.Fss
import Verif.Lemmas.Field
import Verif.Lemmas.Loop
import Verif.Lemmas.Encoding

/-! # Lemmas about the FSS model -/

namespace Verif.Fss
open Res Verif.Field Verif.Field.Spec Verif.Fss.Spec
set_option linter.unusedSimpArgs false

theorem getD_of_lt {α : Type _} {l : List α} {i : Nat} (d : α) (h : i < l.length) : l.getD i d = l[i] := by
  simp [h]

/-! ### Expansion -/

theorem stream_length {E : Cipher} (hE : BlockCipher E) {s : List Byte} (hs : s.length = 16) (nb : Nat) :
    (stream E s nb).length = nb * 16 := by
  unfold stream
  rw [Utils.flatMap_length_const (k := 16)]
  · simp
  · intro i _
    simp [hE i s hs, hs]

theorem prf_eq {E : Cipher} (hE : BlockCipher E) {s out : List Byte} (hs : s.length = 16) {nb : Nat}
    (hnb : nb ≤ 4) (hout : nb * 16 ≤ out.length) :
    prf E s nb out = ok (stream E s nb ++ out.drop (nb * 16)) := by
  unfold prf
  rw [forLoop_fill nb 16 0 (fun i => List.zipWith (· ^^^ ·) (E i s) s) out]
  · simp [stream]
  · intro i t hi ht
    rw [if_neg (by omega), if_neg (by omega)]
    have hz : (List.zipWith (· ^^^ ·) (E i s) s).length = 16 := by simp [hE i s hs, hs]
    have h1 : i * 16 + 16 ≤ t.length := by omega
    rw [List.take_of_length_le (by omega : s.length ≤ 16), slice_of_le (by omega) (le_refl _)]
    simp only [ok_bind, Nat.zero_add]
    rw [copyAt_of_le (by rw [fastxor_length]; simp; omega), copyAt_of_le (by omega)]
    congr 1
    rw [List.append_assoc, List.append_assoc]
    congr 1
    rw [fastxor_length]
    simp only [fastxor, hE i s hs, hs, hz]
    simp only [List.length_take, List.length_drop, Nat.min_self]
    rw [List.take_of_length_le (by simp : (List.drop (i*16) t).length ≤ t.length - i * 16)]
    rw [show min (t.length - i * 16) 16 = 16 by omega, List.take_of_length_le (by omega)]
    simp [show i * 16 + (t.length - i * 16) = t.length by omega]
  · intro i hi
    simp [hE i s hs, hs]
  · omega

/-- The half of the expanded seed selected by a bit. -/
def half (E : Cipher) (x : Bool) (s : List Byte) : List Byte :=
  if x then ((stream E s 3).drop 17).take 16 else (stream E s 3).take 16

/-- The byte holding the control bit of a half. -/
def ctl (E : Cipher) (x : Bool) (s : List Byte) : Byte :=
  if x then (stream E s 3).getD 33 0 else (stream E s 3).getD 16 0

theorem half_length {E : Cipher} (hE : BlockCipher E) {s : List Byte} (hs : s.length = 16) (x : Bool) :
    (half E x s).length = 16 := by
  have := stream_length hE hs 3
  unfold half
  split <;> simp [this]

/-- Xor a scaled correction into a seed. -/
def corr (l : List Byte) (t : Byte) (cs : List Byte) : List Byte :=
  List.zipWith (· ^^^ ·) l (cs.map (fun c => t * c))

@[simp] theorem corr_length (l : List Byte) (t : Byte) (cs : List Byte) :
    (corr l t cs).length = min l.length cs.length := by simp [corr]

/-- Closed form of one key-generation step. -/
def genStepC (E : Cipher) (a : Bool) (s0 s1 : List Byte) (t0 t1 : Byte) :
    List Byte × List Byte × List Byte × Byte × Byte :=
  let cs := List.zipWith (· ^^^ ·) (half E (!a) s0) (half E (!a) s1)
  let aBit : Byte := if a then 1 else 0
  let cwL := ctl E false s0 % 2 ^^^ ctl E false s1 % 2 ^^^ aBit ^^^ 1
  let cwR := ctl E true s0 % 2 ^^^ ctl E true s1 % 2 ^^^ aBit
  let cwK := if a then cwR else cwL
  (cs ++ [cwL, cwR], corr (half E a s0) t0 cs, corr (half E a s1) t1 cs,
    (ctl E a s0 % 2) ^^^ (cwK * t0), (ctl E a s1 % 2) ^^^ (cwK * t1))

theorem genStep_eq {E : Cipher} (hE : BlockCipher E) {s0 s1 : List Byte} (h0 : s0.length = 16)
    (h1 : s1.length = 16) (a : Bool) (t0 t1 : Byte) :
    genStep E a s0 s1 t0 t1 = ok (genStepC E a s0 s1 t0 t1) := by
  have l0 := stream_length hE h0 3
  have l1 := stream_length hE h1 3
  unfold genStep
  rw [prf_eq hE h0 (by omega) (by simp), prf_eq hE h1 (by omega) (by simp)]
  simp only [ok_bind]
  have e0 : slice (stream E s0 3 ++ List.drop (3 * 16) (List.replicate 64 (0 : Byte))) 0 48
      = ok (stream E s0 3) := by
    rw [slice_of_le (by omega) (by simp [l0])]
    simp [List.take_append, l0, List.take_of_length_le]
  have e1 : slice (stream E s1 3 ++ List.drop (3 * 16) (List.replicate 64 (0 : Byte))) 0 48
      = ok (stream E s1 3) := by
    rw [slice_of_le (by omega) (by simp [l1])]
    simp [List.take_append, l1, List.take_of_length_le]
  rw [e0, e1]
  simp only [ok_bind]
  rw [idx_getD 0 (by omega), idx_getD 0 (by omega), idx_getD 0 (by omega), idx_getD 0 (by omega)]
  simp only [ok_bind]
  cases a
  · simp only [Bool.false_eq_true, if_false, if_true, Nat.reduceAdd]
    rw [slice_of_le (by omega) (by omega), slice_of_le (by omega) (by omega),
      slice_of_le (by omega) (by omega), slice_of_le (by omega) (by omega)]
    simp only [ok_bind]
    rw [idx_getD 0 (by omega), idx_getD 0 (by omega)]
    simp [genStepC, half, ctl, corr]
  · have n1 : ¬ ((1 : Byte) = 0) := by decide
    simp only [n1, if_false, if_true, Nat.reduceAdd]
    rw [slice_of_le (by omega) (by omega), slice_of_le (by omega) (by omega),
      slice_of_le (by omega) (by omega), slice_of_le (by omega) (by omega)]
    simp only [ok_bind]
    rw [idx_getD 0 (by omega), idx_getD 0 (by omega)]
    simp [genStepC, half, ctl, corr]

/-- Index into the correction word used for byte `j` of the expanded seed. -/
def cidx (j : Nat) : Nat := if j < 17 then j else if j < 33 then j - 17 else 17

theorem correct_spec (out cw : List Byte) (t : Byte) (ho : 34 ≤ out.length) (hc : cw.length = 18) :
    ∃ out', correct out t cw = ok out' ∧ out'.length = out.length ∧
      ∀ j, j < 34 → out'.getD j 0 = out.getD j 0 ^^^ (t * cw.getD (cidx j) 0) := by
  have key : ∃ s : List Byte × Nat, forLoop (16 * 2 + 2) (fun j (s : List Byte × Nat) => do
      let count := if j = 16 + 1 then 0 else if j = 16 * 2 + 1 then 16 + 1 else s.2
      let o ← idx s.1 j
      let c ← idx cw count
      let out ← setAt s.1 j (o ^^^ (t * c))
      ok (out, count + 1)) (out, 0) = ok s ∧
      (s.1.length = out.length ∧
        (∀ j, s.1.getD j 0 = if j < 16 * 2 + 2 then out.getD j 0 ^^^ (t * cw.getD (cidx j) 0)
          else out.getD j 0) ∧
        s.2 = if 16 * 2 + 2 = 0 then 0 else cidx (16 * 2 + 2 - 1) + 1) := by
    apply forLoop_inv (P := fun i (s : List Byte × Nat) => s.1.length = out.length ∧
        (∀ j, s.1.getD j 0 = if j < i then out.getD j 0 ^^^ (t * cw.getD (cidx j) 0)
          else out.getD j 0) ∧
        s.2 = if i = 0 then 0 else cidx (i - 1) + 1)
    · simp
    · rintro i ⟨o, cnt⟩ hi ⟨hl, hv, hcnt⟩
      simp only at hl hv hcnt ⊢
      have hcount : (if i = 16 + 1 then 0 else if i = 16 * 2 + 1 then 16 + 1 else cnt) = cidx i := by
        rw [hcnt]
        unfold cidx
        split_ifs <;> omega
      have hci : cidx i < cw.length := by unfold cidx; split_ifs <;> omega
      rw [hcount, idx_getD 0 (by omega), idx_getD 0 hci]
      simp only [ok_bind]
      rw [setAt_of_lt (by omega)]
      refine ⟨_, rfl, by simpa using hl, ?_, by simp⟩
      intro j
      by_cases hj : j = i
      · subst hj
        have := hv j
        simp only [lt_irrefl, if_false] at this
        rw [this]
        simp [List.getD_eq_getElem?_getD, List.getElem?_set, show j < o.length by omega]
      · have := hv j
        simp only [List.getD_eq_getElem?_getD, List.getElem?_set, Ne.symm hj, if_false] at this ⊢
        rw [this]
        have : j < i + 1 ↔ j < i := by omega
        simp only [this]
  obtain ⟨⟨o, c⟩, e, hl, hv, -⟩ := key
  refine ⟨o, ?_, hl, ?_⟩
  · unfold correct
    rw [e]; rfl
  · intro j hj
    rw [hv j, if_pos (by omega)]

/-- The control correction of a half. -/
def cwCtl (x : Bool) (cw : List Byte) : Byte := if x then cw.getD 17 0 else cw.getD 16 0

/-- Closed form of one evaluation step. -/
def evalStepC (E : Cipher) (x : Bool) (cw s : List Byte) (t : Byte) : List Byte × Byte :=
  (corr (half E x s) t (cw.take 16), (ctl E x s ^^^ (t * cwCtl x cw)) % 2)

theorem evalStep_eq {E : Cipher} (hE : BlockCipher E) {s cw : List Byte} (hs : s.length = 16)
    (hc : cw.length = 18) (x : Bool) (t : Byte) :
    evalStep E x cw s t = ok (evalStepC E x cw s t) := by
  have l := stream_length hE hs 3
  unfold evalStep
  rw [prf_eq hE hs (by omega) (by simp)]
  simp only [ok_bind]
  obtain ⟨o, e, ho, hv⟩ := correct_spec (stream E s 3 ++ List.drop (3 * 16) (List.replicate 64 (0 : Byte))) cw t
    (by simp [l]) hc
  have ho' : o.length = 64 := by rw [ho]; simp [l]
  rw [e]
  simp only [ok_bind]
  have hv' : ∀ j, j < 34 → o.getD j 0 = (stream E s 3).getD j 0 ^^^ (t * cw.getD (cidx j) 0) := by
    intro j hj
    rw [hv j hj]
    congr 1
    simp only [List.getD_eq_getElem?_getD]
    rw [List.getElem?_append_left (by omega)]
  cases x
  · simp only [Bool.false_eq_true, if_false, if_true]
    rw [slice_of_le (by omega) (by omega), idx_getD 0 (by omega)]
    simp only [ok_bind, evalStepC, half, ctl, cwCtl, Bool.false_eq_true, if_false]
    rw [hv' 16 (by omega)]
    congr 2
    apply List.ext_getElem
    · simp [l, ho', hc]
    · intro j h1 h2
      have hj : j < 16 := by simp at h1; omega
      have := hv' j (by omega)
      rw [getD_of_lt _ (by omega), getD_of_lt _ (by omega),
        show cidx j = j by unfold cidx; split_ifs <;> omega, getD_of_lt _ (by omega)] at this
      simp [corr, this]
  · have n1 : ¬ ((1 : Byte) = 0) := by decide
    simp only [n1, if_false, if_true]
    rw [slice_of_le (by omega) (by omega), idx_getD 0 (by omega)]
    simp only [ok_bind, evalStepC, half, ctl, cwCtl, if_true]
    rw [hv' 33 (by omega)]
    congr 2
    apply List.ext_getElem
    · simp [l, ho', hc]
    · intro j h1 h2
      have hj : j < 16 := by simp at h1; omega
      have := hv' (17 + j) (by omega)
      rw [getD_of_lt _ (by omega), getD_of_lt _ (by omega),
        show cidx (17 + j) = j by unfold cidx; split_ifs <;> omega,
        getD_of_lt _ (by omega)] at this
      simp [corr, this]

/-! ### One level of the tree -/

/-- A control bit. -/
def Bit (t : Byte) : Prop := t = 0 ∨ t = 1

instance (t : Byte) : Decidable (Bit t) := by unfold Bit; infer_instance

theorem bit_mod (b : Byte) : Bit (b % 2) := by
  unfold Bit
  revert b
  decide

theorem bit_xor {a b : Byte} (ha : Bit a) (hb : Bit b) : Bit (a ^^^ b) := by
  rcases ha with rfl | rfl <;> rcases hb with rfl | rfl <;> decide

theorem bit_mul {a b : Byte} (ha : Bit a) (hb : Bit b) : Bit (a * b) := by
  rcases ha with rfl | rfl <;> rcases hb with rfl | rfl <;> decide

theorem xor_mul_mod (u c t : Byte) (hc : Bit c) (ht : Bit t) :
    (u ^^^ (t * c)) % 2 = (u % 2) ^^^ (c * t) := by
  rcases hc with rfl | rfl <;> rcases ht with rfl | rfl <;> revert u <;> decide

theorem bit_aBit (a : Bool) : Bit (if a then (1 : Byte) else 0) := by cases a <;> simp [Bit]

theorem zipWith_xor_left {l m : List Byte} (h : l.length = m.length) :
    List.zipWith (· ^^^ ·) l (List.zipWith (· ^^^ ·) l m) = m := by
  apply List.ext_getElem
  · simp; omega
  · intro i h1 h2
    simp [← BitVec.xor_assoc]

theorem zipWith_xor_right {l m : List Byte} (h : l.length = m.length) :
    List.zipWith (· ^^^ ·) m (List.zipWith (· ^^^ ·) l m) = l := by
  apply List.ext_getElem
  · simp; omega
  · intro i h1 h2
    simp only [List.getElem_zipWith]
    rw [BitVec.xor_comm, BitVec.xor_assoc]
    simp

theorem corr_zero {l cs : List Byte} (h : l.length = cs.length) : corr l 0 cs = l := by
  apply List.ext_getElem
  · simp; omega
  · intro i h1 h2
    simp [corr]

theorem corr_one {l cs : List Byte} : corr l 1 cs = List.zipWith (· ^^^ ·) l cs := by
  simp [corr]

theorem genStepC_cw_length {E : Cipher} (hE : BlockCipher E) {s0 s1 : List Byte} (h0 : s0.length = 16)
    (h1 : s1.length = 16) (a : Bool) (t0 t1 : Byte) :
    (genStepC E a s0 s1 t0 t1).1.length = 18 := by
  simp [genStepC, half_length hE h0, half_length hE h1]

theorem genStepC_take {E : Cipher} (hE : BlockCipher E) {s0 s1 : List Byte} (h0 : s0.length = 16)
    (h1 : s1.length = 16) (a : Bool) (t0 t1 : Byte) :
    (genStepC E a s0 s1 t0 t1).1.take 16
      = List.zipWith (· ^^^ ·) (half E (!a) s0) (half E (!a) s1) := by
  simp [genStepC, List.take_append, half_length hE h0, half_length hE h1, List.take_of_length_le]

theorem genStepC_ctl {E : Cipher} (hE : BlockCipher E) {s0 s1 : List Byte} (h0 : s0.length = 16)
    (h1 : s1.length = 16) (a x : Bool) (t0 t1 : Byte) :
    cwCtl x (genStepC E a s0 s1 t0 t1).1
      = (ctl E x s0 % 2) ^^^ (ctl E x s1 % 2) ^^^ (if x = a then 1 else 0) := by
  have hl : (List.zipWith (· ^^^ ·) (half E (!a) s0) (half E (!a) s1)).length = 16 := by
    simp [half_length hE h0, half_length hE h1]
  cases x <;> cases a <;>
    simp [cwCtl, genStepC, List.getD_eq_getElem?_getD, List.getElem?_append_right, half_length hE h0,
      half_length hE h1, BitVec.xor_assoc]

theorem bit_genStepC_ctl {E : Cipher} (hE : BlockCipher E) {s0 s1 : List Byte} (h0 : s0.length = 16)
    (h1 : s1.length = 16) (a x : Bool) (t0 t1 : Byte) :
    Bit (cwCtl x (genStepC E a s0 s1 t0 t1).1) := by
  rw [genStepC_ctl hE h0 h1]
  refine bit_xor (bit_xor (bit_mod _) (bit_mod _)) ?_
  split <;> simp [Bit]

theorem xor_ne_bits {u v t0 t1 : Byte} (hu : Bit u) (hv : Bit v) (h0 : Bit t0) (h1 : Bit t1)
    (hne : t0 ≠ t1) :
    (u ^^^ ((u ^^^ v ^^^ 1) * t0)) ≠ (v ^^^ ((u ^^^ v ^^^ 1) * t1)) ∧
    (u ^^^ ((u ^^^ v ^^^ 0) * t0)) = (v ^^^ ((u ^^^ v ^^^ 0) * t1)) := by
  rcases hu with rfl | rfl <;> rcases hv with rfl | rfl <;> rcases h0 with rfl | rfl <;>
    rcases h1 with rfl | rfl <;> revert hne <;> decide

/-- Evaluating along the special path reproduces the state of key generation. -/
theorem step_on {E : Cipher} (hE : BlockCipher E) {s0 s1 : List Byte} (h0 : s0.length = 16)
    (h1 : s1.length = 16) (a : Bool) {t0 t1 : Byte} (b0 : Bit t0) (b1 : Bit t1) :
    evalStepC E a (genStepC E a s0 s1 t0 t1).1 s0 t0
        = ((genStepC E a s0 s1 t0 t1).2.1, (genStepC E a s0 s1 t0 t1).2.2.2.1) ∧
    evalStepC E a (genStepC E a s0 s1 t0 t1).1 s1 t1
        = ((genStepC E a s0 s1 t0 t1).2.2.1, (genStepC E a s0 s1 t0 t1).2.2.2.2) := by
  have hb := bit_genStepC_ctl hE h0 h1 a a t0 t1
  have hk : cwCtl a (genStepC E a s0 s1 t0 t1).1
      = (if a then ctl E true s0 % 2 ^^^ ctl E true s1 % 2 ^^^ (if a then 1 else 0)
        else ctl E false s0 % 2 ^^^ ctl E false s1 % 2 ^^^ (if a then 1 else 0) ^^^ 1) := by
    rw [genStepC_ctl hE h0 h1]
    cases a <;> simp
  constructor
  · unfold evalStepC
    rw [genStepC_take hE h0 h1, xor_mul_mod _ _ _ hb b0, hk]
    rfl
  · unfold evalStepC
    rw [genStepC_take hE h0 h1, xor_mul_mod _ _ _ hb b1, hk]
    rfl

theorem step_on_bits {E : Cipher} (hE : BlockCipher E) {s0 s1 : List Byte} (h0 : s0.length = 16)
    (h1 : s1.length = 16) (a : Bool) {t0 t1 : Byte} (b0 : Bit t0) (b1 : Bit t1) (hne : t0 ≠ t1) :
    let g := genStepC E a s0 s1 t0 t1
    g.2.1.length = 16 ∧ g.2.2.1.length = 16 ∧ Bit g.2.2.2.1 ∧ Bit g.2.2.2.2 ∧ g.2.2.2.1 ≠ g.2.2.2.2 := by
  intro g
  have hb := bit_genStepC_ctl hE h0 h1 a a t0 t1
  have e := step_on hE h0 h1 a b0 b1
  have hc := genStepC_ctl hE h0 h1 a a t0 t1
  simp only [if_true] at hc
  have e1 : g.2.2.2.1 = (ctl E a s0 % 2) ^^^ (cwCtl a g.1 * t0) := by
    rw [← xor_mul_mod _ _ _ hb b0]
    exact (congrArg Prod.snd e.1).symm
  have e2 : g.2.2.2.2 = (ctl E a s1 % 2) ^^^ (cwCtl a g.1 * t1) := by
    rw [← xor_mul_mod _ _ _ hb b1]
    exact (congrArg Prod.snd e.2).symm
  refine ⟨?_, ?_, ?_, ?_, ?_⟩
  · simp [g, genStepC, half_length hE h0, half_length hE h1]
  · simp [g, genStepC, half_length hE h0, half_length hE h1]
  · rw [e1]; exact bit_xor (bit_mod _) (bit_mul hb b0)
  · rw [e2]; exact bit_xor (bit_mod _) (bit_mul hb b1)
  · rw [e1, e2, hc]
    exact (xor_ne_bits (bit_mod _) (bit_mod _) b0 b1 hne).1

/-- Leaving the special path makes the two parties' states coincide. -/
theorem step_off {E : Cipher} (hE : BlockCipher E) {s0 s1 : List Byte} (h0 : s0.length = 16)
    (h1 : s1.length = 16) {a x : Bool} (hx : x ≠ a) {t0 t1 : Byte} (b0 : Bit t0) (b1 : Bit t1)
    (hne : t0 ≠ t1) :
    evalStepC E x (genStepC E a s0 s1 t0 t1).1 s0 t0
      = evalStepC E x (genStepC E a s0 s1 t0 t1).1 s1 t1 := by
  have hb := bit_genStepC_ctl hE h0 h1 a x t0 t1
  have hc := genStepC_ctl hE h0 h1 a x t0 t1
  rw [if_neg hx] at hc
  have hxa : x = !a := by cases x <;> cases a <;> simp_all
  have hl : (half E x s0).length = (half E x s1).length := by
    rw [half_length hE h0, half_length hE h1]
  unfold evalStepC
  rw [genStepC_take hE h0 h1, ← hxa]
  congr 1
  · have hz : (List.zipWith (fun x1 x2 => x1 ^^^ x2) (half E x s0) (half E x s1)).length
        = (half E x s0).length := by simp; omega
    rcases b0 with rfl | rfl <;> rcases b1 with rfl | rfl
    · exact absurd rfl hne
    · rw [corr_zero hz.symm, corr_one, zipWith_xor_right hl]
    · rw [corr_zero (by omega), corr_one, zipWith_xor_left hl]
    · exact absurd rfl hne
  · rw [xor_mul_mod _ _ _ hb b0, xor_mul_mod _ _ _ hb b1, hc]
    exact (xor_ne_bits (bit_mod _) (bit_mod _) b0 b1 hne).2

/-! ### The whole tree -/

/-- Key generation as a recursion over the bits. -/
def genRec (E : Cipher) : List Bool → List Byte → List Byte → Byte → Byte →
    List (List Byte) × List Byte × List Byte × Byte × Byte
  | [], s0, s1, t0, t1 => ([], s0, s1, t0, t1)
  | a :: as, s0, s1, t0, t1 =>
    let g := genStepC E a s0 s1 t0 t1
    let r := genRec E as g.2.1 g.2.2.1 g.2.2.2.1 g.2.2.2.2
    (g.1 :: r.1, r.2)

/-- Evaluation as a recursion over bits and correction words. -/
def evalRec (E : Cipher) : List (Bool × List Byte) → List Byte × Byte → List Byte × Byte
  | [], st => st
  | (x, cw) :: r, st => evalRec E r (evalStepC E x cw st.1 st.2)

theorem genRec_cw {E : Cipher} (hE : BlockCipher E) : ∀ (a : List Bool) {s0 s1 : List Byte} {t0 t1 : Byte},
    s0.length = 16 → s1.length = 16 → Bit t0 → Bit t1 → t0 ≠ t1 →
    (genRec E a s0 s1 t0 t1).1.length = a.length ∧
      ∀ cw ∈ (genRec E a s0 s1 t0 t1).1, cw.length = 18 := by
  intro a
  induction a with
  | nil => intros; simp [genRec]
  | cons a as ih =>
    intro s0 s1 t0 t1 h0 h1 b0 b1 hne
    obtain ⟨k0, k1, c0, c1, cne⟩ := step_on_bits hE h0 h1 a b0 b1 hne
    obtain ⟨i1, i2⟩ := ih k0 k1 c0 c1 cne
    refine ⟨by simp [genRec, i1], ?_⟩
    intro cw hcw
    simp only [genRec, List.mem_cons] at hcw
    rcases hcw with rfl | hcw
    · exact genStepC_cw_length hE h0 h1 a t0 t1
    · exact i2 cw hcw

theorem genRec_bits {E : Cipher} (hE : BlockCipher E) : ∀ (a : List Bool) {s0 s1 : List Byte} {t0 t1 : Byte},
    s0.length = 16 → s1.length = 16 → Bit t0 → Bit t1 → t0 ≠ t1 →
    let r := genRec E a s0 s1 t0 t1
    r.2.1.length = 16 ∧ r.2.2.1.length = 16 ∧ Bit r.2.2.2.1 ∧ Bit r.2.2.2.2 ∧ r.2.2.2.1 ≠ r.2.2.2.2 := by
  intro a
  induction a with
  | nil => intro s0 s1 t0 t1 h0 h1 b0 b1 hne; exact ⟨h0, h1, b0, b1, hne⟩
  | cons a as ih =>
    intro s0 s1 t0 t1 h0 h1 b0 b1 hne
    obtain ⟨k0, k1, c0, c1, cne⟩ := step_on_bits hE h0 h1 a b0 b1 hne
    exact ih k0 k1 c0 c1 cne

theorem evalRec_on {E : Cipher} (hE : BlockCipher E) : ∀ (a : List Bool) {s0 s1 : List Byte} {t0 t1 : Byte},
    s0.length = 16 → s1.length = 16 → Bit t0 → Bit t1 → t0 ≠ t1 →
    let r := genRec E a s0 s1 t0 t1
    evalRec E (a.zip r.1) (s0, t0) = (r.2.1, r.2.2.2.1) ∧
    evalRec E (a.zip r.1) (s1, t1) = (r.2.2.1, r.2.2.2.2) := by
  intro a
  induction a with
  | nil => intros; exact ⟨rfl, rfl⟩
  | cons a as ih =>
    intro s0 s1 t0 t1 h0 h1 b0 b1 hne
    obtain ⟨k0, k1, c0, c1, cne⟩ := step_on_bits hE h0 h1 a b0 b1 hne
    have e := step_on hE h0 h1 a b0 b1
    have := ih k0 k1 c0 c1 cne
    simp only [genRec, List.zip_cons_cons, evalRec]
    rw [e.1, e.2]
    exact this

theorem evalRec_off {E : Cipher} (hE : BlockCipher E) : ∀ (a x : List Bool) {s0 s1 : List Byte} {t0 t1 : Byte},
    s0.length = 16 → s1.length = 16 → Bit t0 → Bit t1 → t0 ≠ t1 → x.length = a.length → x ≠ a →
    let r := genRec E a s0 s1 t0 t1
    evalRec E (x.zip r.1) (s0, t0) = evalRec E (x.zip r.1) (s1, t1) := by
  intro a
  induction a with
  | nil =>
    intro x s0 s1 t0 t1 _ _ _ _ _ hl hx
    exact absurd (List.length_eq_zero_iff.1 hl) hx
  | cons a as ih =>
    intro x s0 s1 t0 t1 h0 h1 b0 b1 hne hl hx
    cases x with
    | nil => simp at hl
    | cons x xs =>
      simp only [genRec, List.zip_cons_cons, evalRec]
      by_cases hxa : x = a
      · subst hxa
        obtain ⟨k0, k1, c0, c1, cne⟩ := step_on_bits hE h0 h1 x b0 b1 hne
        have e := step_on hE h0 h1 x b0 b1
        rw [e.1, e.2]
        exact ih xs k0 k1 c0 c1 cne (by simpa using hl) (by simpa using hx)
      · rw [step_off hE h0 h1 hxa b0 b1 hne]

theorem evalRec_inv {E : Cipher} (hE : BlockCipher E) : ∀ (l : List (Bool × List Byte)) {s : List Byte} {t : Byte},
    s.length = 16 → Bit t → (∀ c ∈ l, c.2.length = 18) →
    (evalRec E l (s, t)).1.length = 16 ∧ Bit (evalRec E l (s, t)).2 := by
  intro l
  induction l with
  | nil => intro s t hs ht _; exact ⟨hs, ht⟩
  | cons c l ih =>
    intro s t hs ht hc
    obtain ⟨x, cw⟩ := c
    have h18 := hc (x, cw) (by simp)
    simp only at h18
    simp only [evalRec]
    apply ih
    · simp [evalStepC, half_length hE hs, h18]
    · exact bit_mod _
    · intro c h; exact hc c (by simp [h])

theorem genLoop_eq {E : Cipher} (hE : BlockCipher E) (a : List Bool) {s0 s1 : List Byte} {t0 t1 : Byte}
    (h0 : s0.length = 16) (h1 : s1.length = 16) (b0 : Bit t0) (b1 : Bit t1) (hne : t0 ≠ t1) :
    genLoop E a s0 s1 t0 t1 = ok
      (let r := genRec E a s0 s1 t0 t1; ⟨r.1, r.2.1, r.2.2.1, r.2.2.2.1, r.2.2.2.2⟩) := by
  unfold genLoop
  rw [forLoop_idx_foldlM a (fun (g : GenState) ai => do
    let (cw, s0, s1, t0, t1) ← genStep E ai g.s0 g.s1 g.t0 g.t1
    ok ⟨g.cw ++ [cw], s0, s1, t0, t1⟩)]
  suffices h : ∀ (cw0 : List (List Byte)) , List.foldlM (fun (g : GenState) ai => do
      let (cw, s0, s1, t0, t1) ← genStep E ai g.s0 g.s1 g.t0 g.t1
      ok ⟨g.cw ++ [cw], s0, s1, t0, t1⟩) (⟨cw0, s0, s1, t0, t1⟩ : GenState) a
      = ok (let r := genRec E a s0 s1 t0 t1; ⟨cw0 ++ r.1, r.2.1, r.2.2.1, r.2.2.2.1, r.2.2.2.2⟩) by
    simpa using h []
  induction a generalizing s0 s1 t0 t1 with
  | nil => intro cw0; simp [genRec]
  | cons a as ih =>
    intro cw0
    obtain ⟨k0, k1, c0, c1, cne⟩ := step_on_bits hE h0 h1 a b0 b1 hne
    rw [List.foldlM_cons]
    simp only [genStep_eq hE h0 h1, ok_bind]
    rw [ih k0 k1 c0 c1 cne]
    simp [genRec]

theorem clear256_length (x : List Bool) : (clear256 x).length = x.length := by simp [clear256]

theorem clear256_of_le {x : List Bool} (h : x.length ≤ 256) : clear256 x = x := by
  unfold clear256
  rw [List.set_eq_of_length_le h]

theorem evalPath_eq {E : Cipher} (hE : BlockCipher E) (k : Key) (x : List Bool)
    (hs : k.sInit.length = 16) (hcw : k.cw.length = x.length) (h18 : ∀ cw ∈ k.cw, cw.length = 18) :
    evalPath E k x = ok (evalRec E ((clear256 x).zip k.cw) (k.sInit, k.tInit)) := by
  unfold evalPath
  rw [copyAt_of_le (by simp [hs])]
  simp only [ok_bind, List.take_zero, List.nil_append, Nat.zero_add, List.drop_replicate, hs, Nat.sub_self,
    List.replicate_zero, List.append_nil]
  set l := (clear256 x).zip k.cw with hl
  have hll : l.length = x.length := by simp [hl, clear256, hcw]
  have hl18 : ∀ c ∈ l, c.2.length = 18 := by
    intro c hc
    obtain ⟨x', cw⟩ := c
    exact h18 cw (List.of_mem_zip hc).2
  suffices h : forLoop x.length (fun i (st : List Byte × Byte) => do
      let xi ← (if i ≠ maxBits then idx x i else ok false)
      let cw ← idx k.cw i
      evalStep E xi cw st.1 st.2) (k.sInit, k.tInit)
      = forLoop l.length (fun i st => idx l i >>= fun c => evalStep E c.1 c.2 st.1 st.2)
        (k.sInit, k.tInit) by
    rw [h, forLoop_idx_foldlM l (fun (st : List Byte × Byte) c => evalStep E c.1 c.2 st.1 st.2)]
    clear h
    suffices h : ∀ (m : List (Bool × List Byte)) (st : List Byte × Byte), (∀ c ∈ m, c.2.length = 18) →
        st.1.length = 16 →
        List.foldlM (fun (st : List Byte × Byte) c => evalStep E c.1 c.2 st.1 st.2) st m
          = ok (evalRec E m st) from h l _ hl18 hs
    intro m
    induction m with
    | nil => intro st _ _; rfl
    | cons c m ih =>
      intro st hc hst
      rw [List.foldlM_cons, evalStep_eq hE hst (hc c (by simp))]
      simp only [ok_bind]
      rw [ih _ (fun c h => hc c (by simp [h])) (by
        simp [evalStepC, half_length hE hst, hc c (by simp)])]
      rfl
  rw [hll]
  apply forLoop_congr
  intro i st hi
  have hi' : i < l.length := by omega
  rw [idx_of_lt hi']
  simp only [ok_bind]
  have e : l[i] = ((clear256 x)[i]'(by simp [clear256]; omega), k.cw[i]'(by omega)) := by
    simp [hl, List.getElem_zip]
  rw [e, idx_of_lt (show i < k.cw.length by omega)]
  by_cases hm : i = maxBits
  · subst hm
    simp [clear256, maxBits]
  · rw [if_pos hm, idx_of_lt hi]
    have : ¬ 256 = i := fun h => hm h.symm
    simp [clear256, List.getElem_set, this]

end Verif.Fss
