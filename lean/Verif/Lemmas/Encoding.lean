import Verif.Model.Encoding
import Verif.Lemmas.Loop

namespace Verif.Utils
open Res

theorem flatMap_length_const {α β : Type _} (l : List α) (g : α → List β) (k : Nat)
    (h : ∀ a ∈ l, (g a).length = k) : (l.flatMap g).length = l.length * k := by
  induction l with
  | nil => simp
  | cons a l ih =>
    rw [List.flatMap_cons, List.length_append, h a (by simp), ih (fun b hb => h b (by simp [hb])),
      List.length_cons, Nat.succ_mul]
    omega

theorem range_flatMap_getElem {α β : Type _} (l : List α) (f : α → List β) (g : Nat → List β)
    (h : ∀ i, (hi : i < l.length) → g i = f l[i]) :
    (List.range l.length).flatMap g = l.flatMap f := by
  rw [List.flatMap_def, List.flatMap_def]
  congr 1
  apply List.ext_getElem (by simp)
  intro i h1 h2
  simp at h1
  simp [h i h1]

theorem uint32SliceToByteSlice_eq (v : List U32) :
    uint32SliceToByteSlice v = ok (v.flatMap putBE32) := by
  unfold uint32SliceToByteSlice
  rw [forLoop_fill_all v.length 4 (fun i => putBE32 (v.getD i 0)) _ _ ?_ (by simp) (by simp)]
  · rw [range_flatMap_getElem v putBE32]
    intro i hi
    simp [hi]
  · intro i t hi ht
    have hle : (i + 1) * 4 ≤ t.length := by
      simp at ht; omega
    rw [idx_of_lt hi, ok_bind, slice_of_le (by omega) hle, ok_bind]
    simp [hi]

/-- Element `i` of the decoded vector: the big-endian value of bytes `4i .. 4i+3`. -/
def word (b : List Byte) (i : Nat) : U32 := BitVec.ofNat 32 (ofBE ((b.drop (i * 4)).take 4))

theorem byteSliceToUint32Slice_eq (b : List Byte) :
    byteSliceToUint32Slice b = ok ((List.range (b.length / 4)).map (word b)) := by
  unfold byteSliceToUint32Slice
  simp only [List.length_replicate]
  rw [forLoop_set_all (b.length / 4) (word b) _ _ ?_ (by simp)]
  intro i t hi ht
  have hlt : i * 4 + 4 ≤ b.length := by omega
  rw [slice_of_le (by omega) (le_refl _), ok_bind, getBE32, if_pos (by simp; omega), ok_bind]
  unfold word
  rw [List.take_of_length_le (i := b.length - i * 4) (by simp)]

theorem flatMap_putBE32_drop (v : List U32) (i : Nat) :
    (v.flatMap putBE32).drop (i * 4) = (v.drop i).flatMap putBE32 := by
  induction v generalizing i with
  | nil => simp
  | cons a v ih =>
    cases i with
    | zero => simp
    | succ i =>
      rw [List.flatMap_cons, List.drop_append, List.drop_eq_nil_of_le (by simp)]
      simp only [putBE32_length, List.nil_append, List.drop_succ_cons]
      rw [← ih i]
      congr 1
      omega

theorem word_flatMap (v : List U32) (i : Nat) (hi : i < v.length) :
    word (v.flatMap putBE32) i = v[i] := by
  unfold word
  rw [flatMap_putBE32_drop, List.drop_eq_getElem_cons hi, List.flatMap_cons]
  have h := getBE32_put v[i] ((v.drop (i + 1)).flatMap putBE32)
  unfold getBE32 at h
  rw [if_pos (by simp)] at h
  simpa using h

theorem putBE32_word (b : List Byte) (i : Nat) (hi : i * 4 + 4 ≤ b.length) :
    putBE32 (word b i) = (b.drop (i * 4)).take 4 := by
  have hl : ((b.drop (i * 4)).take 4).length = 4 := by simp; omega
  apply putBE32_get hl
  rw [getBE32, if_pos (by omega), List.take_of_length_le (by omega)]
  rfl

theorem flatMap_words (b : List Byte) (n : Nat) (h : n * 4 ≤ b.length) :
    (List.range n).flatMap (fun i => putBE32 (word b i)) = b.take (n * 4) := by
  induction n with
  | zero => simp
  | succ n ih =>
    rw [List.range_succ, List.flatMap_append, ih (by omega)]
    simp only [List.flatMap_cons, List.flatMap_nil, List.append_nil]
    rw [putBE32_word b n (by omega), Nat.succ_mul, List.take_add]

/-- The eight bits of a byte, most significant first. -/
def bits8 (d : Byte) : List Bool := (List.range 8).map (fun j => d.getLsbD (7 - j))

theorem byteToBits_eq (data : List Byte) : byteToBits data = ok (data.flatMap bits8) := by
  unfold byteToBits
  rw [forLoop_fill_all data.length 8 (fun i => bits8 (data.getD i 0)) _ _ ?_ (by simp [bits8])
    (by simp)]
  · rw [range_flatMap_getElem data bits8]
    intro i hi
    simp [hi]
  · intro i t hi ht
    have hle : i * 8 + 8 ≤ t.length := by simp at ht; omega
    rw [idx_of_lt hi, ok_bind]
    have key : ∃ s, forLoop 8 (fun j (s : List Bool × Byte) => do
        let out ← (if s.2.msb = true then setAt s.1 (i * 8 + j) true
          else setAt s.1 (i * 8 + j) false)
        ok (out, s.2 <<< 1)) (t, data[i]) = ok s ∧
        (s.1 = t.take (i * 8) ++ (List.range 8).map (fun j => data[i].getLsbD (7 - j))
          ++ t.drop (i * 8 + 8) ∧ s.2 = data[i] <<< 8) := by
      refine forLoop_inv (fun j (s : List Bool × Byte) => s.1 = t.take (i * 8)
        ++ (List.range j).map (fun j => data[i].getLsbD (7 - j)) ++ t.drop (i * 8 + j)
        ∧ s.2 = data[i] <<< j) (by simp) ?_
      rintro j ⟨o, d⟩ hj ⟨ho, hd⟩
      simp only at ho hd ⊢
      have hol : o.length = t.length := by rw [ho]; simp; omega
      have hm : d.msb = data[i].getLsbD (7 - j) := by
        rw [hd, BitVec.msb_eq_getLsbD_last]
        simp only [BitVec.getLsbD_shiftLeft]
        have : ¬ (7 < j) := by omega
        simp [this]
      have hs : (if d.msb = true then setAt o (i * 8 + j) true else setAt o (i * 8 + j) false)
          = ok (o.set (i * 8 + j) (data[i].getLsbD (7 - j))) := by
        rw [← hm]
        have : i * 8 + j < o.length := by omega
        cases d.msb <;> simp [setAt, this]
      refine ⟨_, by rw [hs]; rfl, ?_, ?_⟩
      · simp only
        rw [List.set_eq_take_append_cons_drop, if_pos (by omega), ho]
        have l1 : (t.take (i * 8) ++ (List.range j).map (fun j => data[i].getLsbD (7 - j))).length
            = i * 8 + j := by simp; omega
        rw [List.take_append_of_le_length (by omega), List.take_of_length_le (by omega),
          List.drop_append, List.drop_eq_nil_of_le (by omega), l1, List.drop_drop, List.range_succ,
          List.map_append]
        simp only [List.append_assoc, List.map_cons, List.map_nil, List.cons_append, List.nil_append]
        congr 4
        omega
      · rw [hd, BitVec.shiftLeft_add]
    obtain ⟨s, h1, h2, -⟩ := key
    rw [h1, ok_bind]
    simp only
    rw [h2, copyAt_of_le (by simp [bits8]; omega)]
    simp [bits8, hi]

theorem bits8_inj {a b : Byte} (h : bits8 a = bits8 b) : a = b := by
  apply BitVec.eq_of_getLsbD_eq
  intro i hi
  have := congrArg (fun l => l[7 - i]?) h
  simp only [bits8, List.getElem?_map, List.getElem?_range (show 7 - i < 8 by omega),
    Option.map_some, Option.some.injEq] at this
  have e : 7 - (7 - i) = i := by omega
  rwa [e] at this

theorem flatMap_bits8_inj {l l' : List Byte} (h : l.flatMap bits8 = l'.flatMap bits8) : l = l' := by
  induction l generalizing l' with
  | nil =>
    cases l' with
    | nil => rfl
    | cons b l' => simp [bits8] at h
  | cons a l ih =>
    cases l' with
    | nil => simp [bits8] at h
    | cons b l' =>
      rw [List.flatMap_cons, List.flatMap_cons] at h
      have := List.append_inj h (by simp [bits8])
      rw [bits8_inj this.1, ih this.2]

end Verif.Utils
