import Verif.Props.Field

/-! # Exactly which byte strings two parties convert to the same field elements (C29) -/

namespace Verif.Field
open Res Verif.Field.Spec

/-- A chunk whose 31 low bits are all set is replaced by the fresh word, every other chunk is kept. -/
theorem toElement_any (fresh : Nat → U32) (fuel : Nat) {c : List Byte} (h : c.length = 4) (hf : fresh 0 ≠ modP) :
    ∃ c', toElement fresh (fuel + 1) c = ok (if low31 c = p then fresh 0 else maskedWord c, c') ∧ c'.length = 4 := by
  by_cases hn : low31 c = p
  · obtain ⟨b0, rest, hc, e⟩ := toElement_eq fresh (fuel + 1) h
    have hm : maskedWord c = modP := by
      by_contra hne
      exact (maskedWord_ne_iff _).1 hne hn
    rw [e, hm, if_pos hn]
    have hr : resample fresh (fuel + 1) 0 modP = ok (fresh 0) := by
      rw [resample, if_pos rfl]
      exact resample_ok hf
    rw [hr]
    refine ⟨_, rfl, ?_⟩
    rw [hc] at h
    simpa using h
  · rw [if_neg hn]
    exact toElement_nohit fresh (fuel + 1) h hn

theorem bytesToElements_any (fresh : Nat → U32) (fuel : Nat) (out : List U32) (inp : List Byte)
    (hlen : out.length * 4 ≤ inp.length) (hf : fresh 0 ≠ modP) :
    ∃ inp', bytesToElements fresh (fuel + 1) out inp
      = ok ((List.range out.length).map (fun i => if low31 ((inp.drop (i * 4)).take 4) = p then fresh 0
          else maskedWord ((inp.drop (i * 4)).take 4)), inp') := by
  have key : ∃ s, bytesToElements fresh (fuel + 1) out inp = ok s ∧
      (s.1 = (List.range out.length).map (fun i => if low31 ((inp.drop (i * 4)).take 4) = p then fresh 0
          else maskedWord ((inp.drop (i * 4)).take 4)) ++ out.drop out.length ∧ s.2.length = inp.length ∧
        s.2.drop (out.length * 4) = inp.drop (out.length * 4)) := by
    unfold bytesToElements
    refine forLoop_inv (fun k (s : List U32 × List Byte) =>
      s.1 = (List.range k).map (fun i => if low31 ((inp.drop (i * 4)).take 4) = p then fresh 0
          else maskedWord ((inp.drop (i * 4)).take 4)) ++ out.drop k ∧
      s.2.length = inp.length ∧ s.2.drop (k * 4) = inp.drop (k * 4)) (by simp) ?_
    rintro i ⟨o, b⟩ hi ⟨ho, hb, hd⟩
    simp only at ho hb hd ⊢
    rw [slice_of_le (by omega) (by omega), ok_bind]
    have e4 : (i + 1) * 4 - i * 4 = 4 := by omega
    rw [e4, hd]
    obtain ⟨c', e1, e2⟩ := toElement_any fresh fuel (c := (inp.drop (i * 4)).take 4) (by simp; omega) hf
    rw [e1, ok_bind]
    simp only
    rw [copyAt_of_le (by omega), ok_bind]
    have hol : o.length = out.length := by rw [ho]; simp; omega
    rw [setAt_of_lt (by omega), ok_bind]
    refine ⟨_, rfl, ?_, ?_, ?_⟩
    · simp only
      rw [ho, List.set_append_right _ _ (by simp), List.range_succ, List.map_append,
        List.append_assoc]
      congr 1
      simp only [List.length_map, List.length_range, Nat.sub_self, drop_set_zero hi, List.map_cons,
        List.map_nil, List.cons_append, List.nil_append]
    · simp; omega
    · simp only
      have l1 : (b.take (i * 4) ++ c').length = (i + 1) * 4 := by simp [e2]; omega
      rw [List.drop_append, List.drop_eq_nil_of_le (by omega), l1, Nat.sub_self, List.nil_append,
        List.drop_zero, e2, ← List.drop_drop, hd, List.drop_drop]
      congr 1
      omega
  obtain ⟨s, h1, h2, -, -⟩ := key
  rw [List.drop_length, List.append_nil] at h2
  exact ⟨s.2, by rw [h1, ← h2]⟩

/-- C29: two parties with any system randomness convert the same bytes to the same elements exactly if none of the 4-byte
chunks has its 31 low bits all set. Otherwise every word but the modulus is what some party gets for that chunk. -/
theorem C29_exact (fuel : Nat) (out : List U32) (inp : List Byte) (hlen : out.length * 4 ≤ inp.length) :
    ((∃ v, ∀ fresh, ∃ inp', bytesToElements fresh (fuel + 1) out inp = ok (v, inp')) ↔
      ∀ i, i < out.length → low31 ((inp.drop (i * 4)).take 4) ≠ p) ∧
    ∀ i, i < out.length → low31 ((inp.drop (i * 4)).take 4) = p → ∀ x : U32, x.toNat ≠ p →
      ∃ fresh v inp', bytesToElements fresh (fuel + 1) out inp = ok (v, inp') ∧ v[i]? = some x := by
  have hany : ∀ i, i < out.length → low31 ((inp.drop (i * 4)).take 4) = p → ∀ x : U32, x ≠ modP →
      ∃ v inp', bytesToElements (fun _ => x) (fuel + 1) out inp = ok (v, inp') ∧ v[i]? = some x := by
    intro i hi hh x hx
    obtain ⟨inp', e⟩ := bytesToElements_any (fun _ => x) fuel out inp hlen hx
    refine ⟨_, inp', e, ?_⟩
    rw [List.getElem?_map, List.getElem?_range hi]
    simp only [Option.map_some, hh, if_true]
  refine ⟨⟨?_, ?_⟩, ?_⟩
  · rintro ⟨v, hv⟩ i hi hh
    obtain ⟨v1, i1, e1, g1⟩ := hany i hi hh 0 (by decide)
    obtain ⟨v2, i2, e2, g2⟩ := hany i hi hh 1 (by decide)
    obtain ⟨j1, h1⟩ := hv (fun _ => 0)
    obtain ⟨j2, h2⟩ := hv (fun _ => 1)
    rw [h1] at e1
    rw [h2] at e2
    simp only [ok.injEq, Prod.mk.injEq] at e1 e2
    rw [← e1.1] at g1
    rw [← e2.1, g1] at g2
    exact absurd g2 (by decide)
  · intro hn
    refine ⟨(List.range out.length).map (fun i => maskedWord ((inp.drop (i * 4)).take 4)), fun fresh => ?_⟩
    obtain ⟨inp', e, -⟩ := bytesToElements_nohit fresh (fuel + 1) out inp hlen hn
    exact ⟨inp', e⟩
  · intro i hi hh x hx
    obtain ⟨v, inp', e, g⟩ := hany i hi hh x (by rintro rfl; exact hx (by decide))
    exact ⟨_, v, inp', e, g⟩

/-- A string on each side: in the second, the chunk 0xffffffff is converted differently by different parties. -/
example : (∃ v, ∀ fresh, ∃ inp', bytesToElements fresh 1 [0, 0] [1, 2, 3, 4, 128, 255, 255, 255] = ok (v, inp')) ∧
    ¬ ∃ v, ∀ fresh, ∃ inp', bytesToElements fresh 1 [0, 0] [1, 2, 3, 4, 255, 255, 255, 255] = ok (v, inp') := by
  constructor
  · exact (C29_exact 0 [0, 0] _ (by decide)).1.mpr (by decide)
  · intro h
    exact absurd ((C29_exact 0 [0, 0] _ (by decide)).1.mp h) (by decide)

end Verif.Field
