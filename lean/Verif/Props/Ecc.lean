import Verif.Lemmas.Ecc

/-!
# C34, C35: the repetition code

C34 is false of the code: `Decode` takes `in[0]` as candidate and never replaces it, so a single
error in position 0 makes decoding fail for every radius `t`.
-/

namespace Verif.Ecc
open Res Spec

/-- C34 as a user would state it. -/
def C34_Statement : Prop :=
  ∀ (t : Nat) (v : U32) (w : List U32), Received t v w → decode w = ok v

/-- Whatever the radius, a word whose first symbol is altered is never decoded, even with a single
error. -/
theorem C34_first_symbol_error_never_corrected (t : Nat) (v : U32) (w : List U32)
    (h : Received t v w) (h0 : w.head? ≠ some v) : (decode w).isErr := by
  obtain ⟨hl, he⟩ := h
  match w with
  | [] => simp at hl
  | a :: l =>
    have ha : a ≠ v := by simpa using h0
    have h1 : (a :: l).count a ≤ errors v (a :: l) := by
      unfold errors
      rw [List.count]
      apply List.countP_mono_left
      intro x _ hx
      have : x = a := by simpa using hx
      simp [this, ha]
    rw [decode_eq, if_neg (by omega)]
    trivial

example : Received 1 7 [9, 7, 7] ∧ [9, 7, 7].head? ≠ some (7 : U32) := by decide

/-- C34 fails for every correction radius `t ≥ 1` and every symbol. -/
theorem C34_refuted_for_every_radius (t : Nat) (ht : 1 ≤ t) (v : U32) :
    ∃ w, Received t v w ∧ errors v w = 1 ∧ (decode w).isErr := by
  have hne : v + 1 ≠ v := by
    intro h
    have := congrArg BitVec.toNat h
    simp [BitVec.toNat_add] at this
    omega
  have he : errors v ((v + 1) :: List.replicate (2 * t) v) = 1 := by
    have hz : List.countP (fun x => decide (x ≠ v)) (List.replicate (2 * t) v) = 0 := by
      rw [List.countP_eq_zero]
      intro x hx
      simp [List.eq_of_mem_replicate hx]
    unfold errors
    rw [List.countP_cons_of_pos (by simp), hz]
  have hr : Received t v ((v + 1) :: List.replicate (2 * t) v) := by
    refine ⟨by simp, ?_⟩
    omega
  exact ⟨_, hr, he, C34_first_symbol_error_never_corrected t v _ hr (by simp)⟩

example : (1 : Nat) ≤ 3 := by decide

theorem C34_refuted : ¬ C34_Statement := by
  intro h
  obtain ⟨w, hr, -, he⟩ := C34_refuted_for_every_radius 1 (le_refl 1) 0
  rw [h 1 0 w hr] at he
  simp at he

/-- What does hold of C34: if the first symbol is not altered, up to `t` errors are corrected.
Missing for the full claim: errors in position 0 (refuted above). -/
theorem C34_decode_corrects_partial (t : Nat) (v : U32) (w : List U32) (h : Received t v w)
    (h0 : w.head? = some v) : decode w = ok v := by
  obtain ⟨hl, he⟩ := h
  match w with
  | [] => simp at hl
  | a :: l =>
    have ha : a = v := by simpa using h0
    subst ha
    have h1 : errors a (a :: l) + (a :: l).count a = (a :: l).length := by
      unfold errors
      rw [List.count, List.length_eq_countP_add_countP (fun x => x == a)]
      simp only [decide_not]
      rw [Nat.add_comm]
      congr 1
      apply List.countP_congr
      intro x _
      by_cases hx : x = a <;> simp [hx]
    rw [decode_eq, if_pos (by omega)]

example : Received 2 5 [5, 1, 5, 2, 5] ∧ [5, 1, 5, 2, 5].head? = some (5 : U32) := by decide

/-- Error-free words always decode: `Decode(Encode(v)) = v`. -/
theorem C34_roundtrip (t : Nat) (v : U32) : (encode t v >>= decode) = ok v := by
  rw [encode_eq, ok_bind]
  refine C34_decode_corrects_partial t v _ ⟨by simp, ?_⟩ (by simp [List.replicate_succ])
  have hz : errors v (List.replicate (2 * t + 1) v) = 0 := by
    unfold errors
    rw [List.countP_eq_zero]
    intro x hx
    simp [List.eq_of_mem_replicate hx]
  omega

/-- C35: a value returned without error is the strict majority of the received word. -/
theorem C35_decode_majority (w : List U32) (u : U32) (h : decode w = ok u) : Majority u w := by
  match w with
  | [] => rw [decode_nil] at h; cases h
  | a :: l =>
    rw [decode_eq] at h
    split at h
    · simp only [ok.injEq] at h
      subst h
      unfold Majority
      omega
    · cases h

example : decode [3, 4, 3] = ok 3 := by decide

/-- C35: with at most `t` errors, decoding gives the encoded symbol or an error, never a wrong
symbol and never a crash. -/
theorem C35_never_wrong (t : Nat) (v : U32) (w : List U32) (h : Received t v w) :
    decode w = ok v ∨ (decode w).isErr := by
  by_cases h0 : w.head? = some v
  · exact Or.inl (C34_decode_corrects_partial t v w h h0)
  · exact Or.inr (C34_first_symbol_error_never_corrected t v w h h0)

example : Received 1 7 [9, 7, 7] ∧ Received 1 7 [7, 9, 7] := by decide

/-- C35: conversely a strict majority symbol in first position is always returned. -/
theorem C35_majority_decoded (w : List U32) (u : U32) (h0 : w.head? = some u)
    (h : Majority u w) : decode w = ok u := by
  match w with
  | [] => simp at h0
  | a :: l =>
    have ha : a = u := by simpa using h0
    subst ha
    rw [decode_eq, if_pos (by unfold Majority at h; omega)]

example : [4, 4, 1].head? = some (4 : U32) ∧ Majority 4 [4, 4, 1] := by decide

end Verif.Ecc
