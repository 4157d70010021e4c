import Verif.Lemmas.Field
import Verif.Lemmas.Encoding

/-! # C28, C29: field elements (lib/field/field.go) -/

namespace Verif.Field
open Res Verif.Rand Spec

/-- C28: an element sampled by `RandElementWithPRG` is canonical, whatever the random stream. -/
theorem C28_randElement_canonical (fuel : Nat) (g g' : Prg) (r : U32)
    (h : randElementWithPRG fuel g = ok (r, g')) : Canonical r :=
  randElementLoop_out fuel _ modP g g' r (by simp) (Or.inl rfl) h

example : ∃ r g', randElementWithPRG 1 ⟨fun i => BitVec.ofNat 8 (i + 200), 0⟩ = ok (r, g') :=
  ⟨_, _, rfl⟩

/-- C28: `RandElementWithPRG` returns the 31 low bits of the first 4-byte draw for which they are not all
ones (rejection sampling: nothing else is rejected and nothing is folded), consuming one 16-byte block per
draw. -/
theorem C28_randElement_first_accepted (g : Prg) (k fuel : Nat)
    (hrej : ∀ j, j < k → low31 ((List.range 4).map (fun i => g.ks (g.pos + 16 * j + i))) = p)
    (hacc : low31 ((List.range 4).map (fun i => g.ks (g.pos + 16 * k + i))) ≠ p) (hf : k < fuel) :
    ∃ r, randElementWithPRG fuel g = ok (r, ⟨g.ks, g.pos + 16 * (k + 1)⟩) ∧
      r.toNat = low31 ((List.range 4).map (fun i => g.ks (g.pos + 16 * k + i))) := by
  obtain ⟨d, rfl⟩ : ∃ d, fuel = d + k + 1 := ⟨fuel - k - 1, by omega⟩
  have := randElementLoop_first k d (List.replicate 4 0) g (by simp) hrej hacc
  exact ⟨_, this, maskedWord_toNat _⟩

/-- A stream whose first draw is rejected and whose second is accepted. -/
example : (∀ j, j < 1 → low31 ((List.range 4).map (fun i =>
      (fun n => if n < 16 then (255 : Byte) else 9) (0 + 16 * j + i))) = p) ∧
    low31 ((List.range 4).map (fun i => (fun n => if n < 16 then (255 : Byte) else 9) (0 + 16 * 1 + i))) ≠ p := by
  decide

/-- C28: every element of a vector sampled by `RandVectorWithPRG` is canonical. -/
theorem C28_randVector_canonical (fuel n : Nat) (g g' : Prg) (v : List U32)
    (h : randVectorWithPRG fuel n g = ok (v, g')) :
    v.length = n ∧ ∀ x ∈ v, Canonical x := by
  unfold randVectorWithPRG at h
  obtain ⟨g1, e1, -, -⟩ := read_zero g (n * 4)
  simp only [e1] at h
  rw [Res.bind_eq_ok] at h
  obtain ⟨⟨o, b, g2⟩, hl, hr⟩ := h
  simp only [ok.injEq, Prod.mk.injEq] at hr
  obtain ⟨rfl, -⟩ := hr
  have hinv := forLoop_inv_ok (fun k (s : List U32 × List Byte × Prg) =>
    s.1.length = n ∧ s.2.1.length = n * 4 ∧ ∀ i, i < k → ∀ x, s.1[i]? = some x → Canonical x)
    (by simp) (by
      rintro i ⟨o, b, g⟩ t' hi ⟨h1, h2, h3⟩ hb
      simp only at h1 h2 h3 hb
      have hlt : i * 4 < b.length := by omega
      rw [idx_of_lt hlt, ok_bind, setAt_of_lt hlt, ok_bind,
        slice_of_le (by omega) (by simp; omega), ok_bind] at hb
      have e4 : (i + 1) * 4 - i * 4 = 4 := by omega
      rw [e4] at hb
      obtain ⟨c0, c1, c2, c3, ec⟩ := len4 (c := (b.drop (i * 4)).take 4) (by simp; omega)
      have es : ((b.set (i * 4) (b[i * 4] &&& mask)).drop (i * 4)).take 4
          = [c0 &&& mask, c1, c2, c3] := by
        have hd : b.drop (i * 4) = b[i * 4] :: b.drop (i * 4 + 1) := List.drop_eq_getElem_cons hlt
        have hs : (b.set (i * 4) (b[i * 4] &&& mask)).drop (i * 4)
            = (b[i * 4] &&& mask) :: b.drop (i * 4 + 1) := by
          rw [List.drop_set, if_neg (by omega), Nat.sub_self, hd]; rfl
        rw [hd, List.take_succ_cons] at ec
        rw [hs, List.take_succ_cons]
        simp only [List.cons.injEq] at ec
        rw [ec.1, ec.2]
      rw [es, getBE32_masked, ok_bind, Res.bind_eq_ok] at hb
      obtain ⟨⟨x, g3⟩, hx, hb⟩ := hb
      simp only at hb
      rw [setAt_of_lt (by omega), ok_bind] at hb
      simp only [ok.injEq] at hb
      subst hb
      have hcan := randVectorFix_out fuel fuel _ _ _ _ (maskedWord_or _) hx
      refine ⟨by simp [h1], by simp [h2], ?_⟩
      intro j hj y hy
      simp only at hy
      rw [List.getElem?_set] at hy
      split at hy
      · rename_i he
        rw [if_pos (by omega)] at hy
        simp only [Option.some.injEq] at hy
        rw [← hy]; exact hcan
      · exact h3 j (by omega) y hy) hl
  obtain ⟨h1, -, h3⟩ := hinv
  refine ⟨h1, ?_⟩
  intro x hx
  obtain ⟨i, hi, he⟩ := List.mem_iff_getElem.1 hx
  simp only at h1 h3
  exact h3 i (by omega) x (by rw [List.getElem?_eq_getElem hi, he])

example : ∃ v g', randVectorWithPRG 1 5 ⟨fun i => BitVec.ofNat 8 (i + 200), 0⟩ = ok (v, g') :=
  ⟨_, _, rfl⟩

/-- C28 (no bias): every canonical element has exactly the same number (two) of 4-byte draws that give it. -/
theorem C28_no_bias (v : Nat) (hv : v < p) (b : List Byte) (hb : b.length = 4) :
    low31 b = v ↔ b = beBytes 4 v ∨ b = beBytes 4 (v + 2 ^ 31) := by
  have hlt := ofBE_lt b
  rw [hb] at hlt
  rw [p_val] at hv
  constructor
  · intro h
    unfold low31 at h
    have hcase : ofBE b = v ∨ ofBE b = v + 2 ^ 31 := by omega
    rcases hcase with e | e
    · left; rw [← e, ← hb, beBytes_ofBE]
    · right; rw [← e, ← hb, beBytes_ofBE]
  · rintro (rfl | rfl) <;> · rw [low31, ofBE_beBytes]; omega

example : (5 : Nat) < p ∧ [(0 : Byte), 0, 0, 5].length = 4 := by decide

/-- C29 as a user would state it: the conversion is a canonical function of the bytes. -/
def C29_Statement : Prop :=
  ∀ (fresh fresh' : Nat → U32) (fuel : Nat) (c : List Byte), c.length = 4 → 0 < fuel →
    ∃ r c', toElement fresh fuel c = ok (r, c') ∧ toElement fresh' fuel c = ok (r, c') ∧ Canonical r

/-- C29 is false: on 0x7fffffff (and 0xffffffff) the conversion returns an unmasked word of fresh system
randomness, so two parties converting the same bytes get different results, possibly not even canonical. -/
theorem C29_refuted_nondeterministic (b0 : Byte) (h : b0.toNat % 128 = 127) (x y : U32)
    (hx : x ≠ modP) (hy : y ≠ modP) :
    ∃ c', toElement (fun _ => x) 1 [b0, 255, 255, 255] = ok (x, c') ∧
      toElement (fun _ => y) 1 [b0, 255, 255, 255] = ok (y, c') := by
  have hl : low31 [b0, 255, 255, 255] = p := by
    have := b0.isLt
    rw [low31, ofBE_four, p_val]
    show (_ + 255 * 2 ^ 16 + 255 * 2 ^ 8 + 255) % _ = _
    omega
  have hm : maskedWord [b0, 255, 255, 255] = modP := by
    by_contra hne
    exact (maskedWord_ne_iff _).1 hne hl
  have e : ∀ z : U32, z ≠ modP →
      toElement (fun _ => z) 1 [b0, 255, 255, 255] = ok (z, [b0 &&& mask, 255, 255, 255]) := by
    intro z hz
    obtain ⟨c0, rest, hc, e⟩ := toElement_eq (fun _ => z) 1 (c := [b0, 255, 255, 255]) rfl
    simp only [List.cons.injEq] at hc
    rw [e, hm, ← hc.1, ← hc.2]
    simp [resample, hz]
  exact ⟨_, e x hx, e y hy⟩

example : (127 : Byte).toNat % 128 = 127 ∧ (5 : U32) ≠ modP ∧ (0xFFFFFFFF : U32) ≠ modP := by decide

theorem C29_refuted : ¬ C29_Statement := by
  intro h
  obtain ⟨r, c, h1, -, hc⟩ := h (fun _ => 0xFFFFFFFF) (fun _ => 0) 1 [127, 255, 255, 255] rfl (by omega)
  obtain ⟨c', e1, -⟩ := C29_refuted_nondeterministic 127 (by decide) 0xFFFFFFFF 0 (by decide) (by decide)
  rw [e1] at h1
  simp only [ok.injEq, Prod.mk.injEq] at h1
  rw [← h1.1] at hc
  revert hc
  decide

/-- What does hold of C29: on every byte string none of whose 4-byte chunks has its 31 low bits all set,
the conversion is deterministic, canonical, and equal to those 31 bits. Missing: the excluded chunks, for which
the property is false. -/
theorem C29_bytesToElements_partial (fresh : Nat → U32) (fuel : Nat) (out : List U32)
    (inp : List Byte) (hlen : out.length * 4 ≤ inp.length)
    (hn : ∀ i, i < out.length → low31 ((inp.drop (i * 4)).take 4) ≠ p) :
    ∃ v inp', bytesToElements fresh fuel out inp = ok (v, inp') ∧ v.length = out.length ∧
      ∀ i, i < out.length → ∃ x, v[i]? = some x ∧ Canonical x ∧
        x.toNat = low31 ((inp.drop (i * 4)).take 4) := by
  obtain ⟨inp', e, -⟩ := bytesToElements_nohit fresh fuel out inp hlen hn
  refine ⟨_, inp', e, by simp, ?_⟩
  intro i hi
  refine ⟨maskedWord ((inp.drop (i * 4)).take 4), by simp [hi], maskedWord_canonical (hn i hi),
    maskedWord_toNat _⟩

example : [0, (0 : U32)].length * 4 ≤ [1, 2, 3, 4, 128, 255, 255, (255 : Byte)].length ∧
    ∀ i, i < [0, (0 : U32)].length →
      low31 (([1, 2, 3, 4, 128, 255, 255, (255 : Byte)].drop (i * 4)).take 4) ≠ p := by decide

/-- C29: negation gives the additive inverse modulo `p` of every canonical element; the result lies in
`1..p`, so the inverse of 0 is represented by the non-canonical value `p`. -/
theorem C29_negate (v : List U32) (h : ∀ x ∈ v, Canonical x) :
    ∃ w, negateVector v = ok w ∧ w.length = v.length ∧
      ∀ i, (hi : i < v.length) → ∃ y, w[i]? = some y ∧ (v[i].toNat + y.toNat) % p = 0 ∧
        1 ≤ y.toNat ∧ y.toNat ≤ p := by
  have key : ∃ t, negateVector v = ok t ∧ t.length = v.length ∧
      (∀ j, (hj : j < v.length) → t[j]? = some (if j < v.length then modP - v[j] else v[j])) := by
    unfold negateVector
    refine forLoop_inv (fun k (t : List U32) => t.length = v.length ∧
      ∀ j, (hj : j < v.length) → t[j]? = some (if j < k then modP - v[j] else v[j])) ?_ ?_
    · refine ⟨rfl, ?_⟩
      intro j hj
      simp [hj]
    · rintro i t hi ⟨hl, ht⟩
      have hti : t[i]? = some v[i] := by rw [ht i hi]; simp
      refine ⟨t.set i (modP - v[i]), ?_, by simp [hl], ?_⟩
      · rw [(idx_eq_ok).2 hti, ok_bind, setAt_of_lt (by omega)]
      · intro j hj
        rw [List.getElem?_set]
        by_cases hij : i = j
        · subst hij
          simp [hl, hj]
        · rw [if_neg hij, ht j hj]
          by_cases hji : j < i
          · simp [hji, show j < i + 1 by omega]
          · simp [hji, show ¬ j < i + 1 by omega]
  obtain ⟨t, e, hl, ht⟩ := key
  refine ⟨t, e, hl, ?_⟩
  intro i hi
  refine ⟨_, ht i hi, ?_⟩
  rw [if_pos hi]
  have hc := h v[i] (by simp)
  unfold Canonical at hc
  rw [p_val] at *
  have : (modP - v[i]).toNat = 2147483647 - v[i].toNat := by
    rw [BitVec.toNat_sub, modP_toNat]
    omega
  rw [this]
  refine ⟨?_, by omega, by omega⟩
  have : v[i].toNat + (2147483647 - v[i].toNat) = 2147483647 := by omega
  rw [this]

example : ∀ x ∈ [0, 5, (2147483646 : U32)], Canonical x := by simp [Canonical, p]

/-- C29: turning field elements into bytes keeps exactly the three low bytes of every element, in order. -/
theorem C29_vector_to_bytes (vec : List U32) :
    vectorToBytes vec = ok (vec.flatMap (fun e => beBytes 3 (e.toNat % 2 ^ 24))) := by
  have hb : ∀ e : U32, (putBE32 e).drop 1 = beBytes 3 (e.toNat % 2 ^ 24) := by
    intro e
    have hl : ((putBE32 e).drop 1).length = 3 := by simp
    have h1 : ofBE (putBE32 e) = e.toNat := by
      have := e.isLt
      rw [putBE32, ofBE_beBytes]; omega
    obtain ⟨c0, c1, c2, c3, ec⟩ := len4 (c := putBE32 e) (by simp)
    rw [ec] at h1 hl ⊢
    rw [ofBE_four] at h1
    have h3 : ofBE [c1, c2, c3] = e.toNat % 2 ^ 24 := by
      have := c1.isLt
      have := c2.isLt
      have := c3.isLt
      have h4 := ofBE_four 0 c1 c2 c3
      have h5 : ofBE [0, c1, c2, c3] = ofBE [c1, c2, c3] := by
        simp [ofBE, ofLE]
      rw [← h5, h4, ← h1, show (0 : Byte).toNat = 0 from rfl]
      clear h1 h4 h5
      omega
    rw [← h3]
    exact (beBytes_ofBE [c1, c2, c3]).symm
  unfold vectorToBytes
  simp only []
  rw [forLoop_fill_all vec.length 3 (fun i => (putBE32 (vec.getD i 0)).drop 1) _ _ ?_ (by simp) (by simp)]
  · rw [Utils.range_flatMap_getElem vec (fun e => beBytes 3 (e.toNat % 2 ^ 24))]
    intro i hi
    simp [hi, hb]
  · intro i t hi ht
    have hle : (i + 1) * 3 ≤ t.length := by
      simp at ht; omega
    rw [idx_of_lt hi, ok_bind, slice_of_le (by simp) (le_refl _), ok_bind, slice_of_le (by omega) hle, ok_bind]
    rw [List.take_of_length_le (by simp)]
    simp [hi]

/-- C29: elements that carry three bytes of data each give the data back, and two vectors of such elements with the same
bytes are equal; an element with more data loses its top byte. -/
theorem C29_data_bytes (data : List (List Byte)) (h : ∀ d ∈ data, d.length = 3) :
    vectorToBytes (data.map (fun d => BitVec.ofNat 32 (ofBE d))) = ok data.flatten := by
  rw [C29_vector_to_bytes, List.flatMap_def, List.map_map]
  congr 2
  conv_rhs => rw [← List.map_id data]
  apply List.map_congr_left
  intro d hd
  have hl := ofBE_lt d
  rw [h d hd] at hl
  simp only [Function.comp_apply, BitVec.toNat_ofNat, id]
  rw [show ofBE d % 2 ^ 32 % 2 ^ 24 = ofBE d by omega, ← h d hd, beBytes_ofBE]

example : ∀ d ∈ [[1, 2, (3 : Byte)], [255, 255, 255]], d.length = 3 := by decide

example : vectorToBytes [0x01020304] = vectorToBytes [0x7f020304] := by
  rw [C29_vector_to_bytes, C29_vector_to_bytes]; rfl

end Verif.Field
