import Verif.Spec.FssPrivacy
import Verif.Lemmas.Privacy

/-! # The hybrid argument for function-secret-sharing keys -/

namespace Verif.Fss
open Res Verif.Field Verif.Field.Spec Verif.Fss.Spec Verif.Privacy Finset

/-- The random bytes of the other party that lead to the correction word and seed read from `v`. -/
def mask (a : Bool) (ub : List Byte) (tb : Byte) (v : Fin 48 → Byte) : Fin 48 → Byte := fun i =>
  let aBit : Byte := if a then 1 else 0
  if hi : i.1 < 16 then
    if a then v i ^^^ (halfU (!a) ub).getD i.1 0
    else v ⟨17 + i.1, by omega⟩ ^^^ (tb ^^^ 1) * v i
  else if i.1 = 16 then v i ^^^ (ctlU false ub % 2 ^^^ aBit ^^^ 1)
  else if hi' : i.1 < 33 then
    if a then v i ^^^ (tb ^^^ 1) * v ⟨i.1 - 17, by omega⟩
    else v ⟨i.1 - 17, by omega⟩ ^^^ (halfU (!a) ub).getD (i.1 - 17) 0
  else if i.1 = 33 then v i ^^^ (ctlU true ub % 2 ^^^ aBit)
  else v i

theorem xor_cancel {x y m : Byte} (h : x ^^^ m = y ^^^ m) : x = y := by
  have := congrArg (· ^^^ m) h
  simpa [BitVec.xor_assoc] using this

theorem mask_injective (a : Bool) (ub : List Byte) (tb : Byte) : Function.Injective (mask a ub tb) := by
  intro v v' h
  have h' : ∀ i, mask a ub tb v i = mask a ub tb v' i := fun i => congrFun h i
  have hlow : ∀ j : Nat, (hj : j < 16) → v ⟨j, by omega⟩ = v' ⟨j, by omega⟩ := by
    intro j hj
    cases a with
    | true =>
      have := h' ⟨j, by omega⟩
      simp only [mask, hj, dif_pos, if_true] at this
      exact xor_cancel this
    | false =>
      have := h' ⟨17 + j, by omega⟩
      simp only [mask, show ¬ (17 + j < 16) by omega, show ¬ (17 + j = 16) by omega, show 17 + j < 33 by omega,
        dif_pos, dif_neg, if_neg, not_false_eq_true, Nat.add_sub_cancel_left, Bool.false_eq_true] at this
      exact xor_cancel this
  have hmid : ∀ j : Nat, (hj : j < 16) → v ⟨17 + j, by omega⟩ = v' ⟨17 + j, by omega⟩ := by
    intro j hj
    cases a with
    | true =>
      have := h' ⟨17 + j, by omega⟩
      simp only [mask, show ¬ (17 + j < 16) by omega, show ¬ (17 + j = 16) by omega, show 17 + j < 33 by omega,
        dif_pos, dif_neg, if_neg, not_false_eq_true, Nat.add_sub_cancel_left, if_true] at this
      rw [hlow j hj] at this
      exact xor_cancel this
    | false =>
      have := h' ⟨j, by omega⟩
      simp only [mask, hj, dif_pos, Bool.false_eq_true, if_neg, not_false_eq_true] at this
      rw [hlow j hj] at this
      exact xor_cancel this
  funext i
  obtain ⟨i, hi⟩ := i
  by_cases h1 : i < 16
  · exact hlow i h1
  by_cases h2 : i = 16
  · subst h2
    have := h' ⟨16, by omega⟩
    simp only [mask, show ¬ (16 < 16) by omega, dif_neg, not_false_eq_true, if_true] at this
    exact xor_cancel this
  by_cases h3 : i < 33
  · have := hmid (i - 17) (by omega)
    simpa [show 17 + (i - 17) = i by omega] using this
  by_cases h4 : i = 33
  · subst h4
    have := h' ⟨33, by omega⟩
    simp only [mask, show ¬ (33 < 16) by omega, show ¬ (33 = 16) by omega, show ¬ (33 < 33) by omega, dif_neg,
      not_false_eq_true, if_true, if_neg] at this
    exact xor_cancel this
  · have := h' ⟨i, hi⟩
    simpa only [mask, h1, h2, h3, h4, dif_neg, not_false_eq_true, if_neg] using this

/-- The seed read from random bytes. -/
def mid (v : Fin 48 → Byte) : Fin 16 → Byte := fun j => v ⟨17 + j.1, by omega⟩

theorem bit_xor_mod {x m : Byte} (hm : Bit m) : (x ^^^ m) % 2 = x % 2 ^^^ m := by
  rcases hm with rfl | rfl
  · simp
  · revert x; decide

theorem halfU_ofFn (x : Bool) (u : Fin 48 → Byte) :
    halfU x (List.ofFn u) = List.ofFn (fun j : Fin 16 => u ⟨(if x then 17 else 0) + j.1, by split <;> omega⟩) := by
  apply List.ext_getElem
  · cases x <;> simp [halfU]
  · intro j h1 h2
    cases x <;> simp [halfU]

theorem getD_ofFn {n j : Nat} (u : Fin n → Byte) (h : j < n) : (List.ofFn u).getD j 0 = u ⟨j, h⟩ := by
  simp [List.getD_eq_getElem?_getD, List.getElem?_eq_getElem (l := List.ofFn u) (i := j) (by simpa using h)]

theorem xor_undo (x y m : Byte) : x ^^^ (y ^^^ (x ^^^ m)) ^^^ m = y := by
  apply BitVec.eq_of_getLsbD_eq
  intro i _
  simp only [BitVec.getLsbD_xor]
  cases x.getLsbD i <;> cases y.getLsbD i <;> cases m.getLsbD i <;> rfl

theorem xor_undo₂ (x y m k : Byte) : x ^^^ (y ^^^ (x ^^^ m ^^^ k)) ^^^ m ^^^ k = y := by
  apply BitVec.eq_of_getLsbD_eq
  intro i _
  simp only [BitVec.getLsbD_xor]
  cases x.getLsbD i <;> cases y.getLsbD i <;> cases m.getLsbD i <;> cases k.getLsbD i <;> rfl

theorem stepU_mask {a : Bool} {ub : List Byte} {tb : Byte} (hub : ub.length = 48) (v : Fin 48 → Byte) :
    (stepU a ub (List.ofFn (mask a ub tb v)) tb).1 = cwOf v ∧
    (stepU a ub (List.ofFn (mask a ub tb v)) tb).2.2 = List.ofFn (mid v) ∧
    (stepU a ub (List.ofFn (mask a ub tb v)) tb).2.1 =
      (corr (halfU a ub) tb (List.ofFn (fun j : Fin 16 => v ⟨j.1, by omega⟩)),
        ctlU a ub % 2 ^^^ (if a then v 33 % 2 else v 16 % 2) * tb) := by
  have hlen : (halfU (!a) ub).length = 16 := by cases a <;> simp [halfU, hub]
  have hcs : List.zipWith (· ^^^ ·) (halfU (!a) ub) (halfU (!a) (List.ofFn (mask a ub tb v)))
      = List.ofFn (fun j : Fin 16 => v ⟨j.1, by omega⟩) := by
    rw [halfU_ofFn]
    apply List.ext_getElem
    · simp [hlen]
    · intro j h1 h2
      have hj : j < 16 := by simpa using h2
      simp only [List.getElem_zipWith, List.getElem_ofFn]
      have hg : (halfU (!a) ub).getD j 0 = (halfU (!a) ub)[j]'(by omega) := by simp [hlen, hj]
      cases a with
      | true =>
        simp only [mask, Bool.not_true, Bool.false_eq_true, if_false, Nat.zero_add, hj, dif_pos, if_true]
        simp only [Bool.not_true] at hg
        rw [hg, BitVec.xor_comm (v _), ← BitVec.xor_assoc, BitVec.xor_self, BitVec.zero_xor]
      | false =>
        simp only [mask, Bool.not_false, if_true, show ¬ (17 + j < 16) by omega, show ¬ (17 + j = 16) by omega,
          show 17 + j < 33 by omega, dif_pos, dif_neg, if_neg, not_false_eq_true, Nat.add_sub_cancel_left,
          Bool.false_eq_true]
        simp only [Bool.not_false] at hg
        rw [hg, BitVec.xor_comm (v _), ← BitVec.xor_assoc, BitVec.xor_self, BitVec.zero_xor]
  have hL : ctlU false (List.ofFn (mask a ub tb v)) = v 16 ^^^ (ctlU false ub % 2 ^^^ (if a then 1 else 0) ^^^ 1) := by
    simp only [ctlU, Bool.false_eq_true, if_false]
    rw [getD_ofFn _ (by omega)]
    simp only [mask, show ¬ (16 < 16) by omega, dif_neg, not_false_eq_true, if_true]
    rfl
  have hR : ctlU true (List.ofFn (mask a ub tb v)) = v 33 ^^^ (ctlU true ub % 2 ^^^ (if a then 1 else 0)) := by
    simp only [ctlU, if_true]
    rw [getD_ofFn _ (by omega)]
    simp only [mask, show ¬ (33 < 16) by omega, show ¬ (33 = 16) by omega, show ¬ (33 < 33) by omega, dif_neg,
      not_false_eq_true, if_true, if_neg]
    rfl
  have hbL : Bit (ctlU false ub % 2 ^^^ (if a then 1 else 0) ^^^ 1) :=
    bit_xor (bit_xor (bit_mod _) (bit_aBit a)) (Or.inr rfl)
  have hbR : Bit (ctlU true ub % 2 ^^^ (if a then 1 else 0)) := bit_xor (bit_mod _) (bit_aBit a)
  have eL : ctlU false ub % 2 ^^^ ctlU false (List.ofFn (mask a ub tb v)) % 2 ^^^ (if a then 1 else 0) ^^^ 1
      = v 16 % 2 := by
    rw [hL, bit_xor_mod hbL]
    exact xor_undo₂ _ _ _ _
  have eR : ctlU true ub % 2 ^^^ ctlU true (List.ofFn (mask a ub tb v)) % 2 ^^^ (if a then 1 else 0)
      = v 33 % 2 := by
    rw [hR, bit_xor_mod hbR]
    exact xor_undo _ _ _
  refine ⟨?_, ?_, ?_⟩
  · simp only [stepU, hcs, eL, eR, cwOf]
    congr 1
  · simp only [stepU, hcs]
    rw [halfU_ofFn]
    apply List.ext_getElem (by simp)
    intro j h1 h2
    have hj : j < 16 := by simpa using h2
    simp only [corr, List.getElem_zipWith, List.getElem_map, List.getElem_ofFn, mid]
    cases a with
    | true =>
      simp only [mask, if_true, show ¬ (17 + j < 16) by omega, show ¬ (17 + j = 16) by omega,
          show 17 + j < 33 by omega, dif_pos, dif_neg, if_neg, not_false_eq_true, Nat.add_sub_cancel_left]
      rw [BitVec.xor_assoc, BitVec.xor_self, BitVec.xor_zero]
    | false =>
      simp only [mask, Bool.false_eq_true, if_false, Nat.zero_add, hj, dif_pos]
      rw [BitVec.xor_assoc, BitVec.xor_self, BitVec.xor_zero]
  · simp only [stepU, hcs, eL, eR]

theorem cwOf_take (v : Fin 48 → Byte) : (cwOf v).take 16 = List.ofFn (fun j : Fin 16 => v ⟨j.1, by omega⟩) := by
  unfold cwOf
  rw [List.take_append_of_le_length (by simp), List.take_take]
  apply List.ext_getElem (by simp)
  intro j h1 h2
  simp

theorem cwOf_length (v : Fin 48 → Byte) : (cwOf v).length = 18 := by simp [cwOf]

theorem cwOf_ctl (a : Bool) (v : Fin 48 → Byte) : cwCtl a (cwOf v) = if a then v 33 % 2 else v 16 % 2 := by
  have h : ((List.ofFn v).take 16).length = 16 := by simp
  unfold cwCtl cwOf
  cases a
  · simp only [Bool.false_eq_true, if_false]
    rw [List.getD_eq_getElem?_getD, List.getElem?_append_right (by omega), h]; rfl
  · simp only [if_true]
    rw [List.getD_eq_getElem?_getD, List.getElem?_append_right (by omega), h]; rfl

theorem stepU_ideal {E : Cipher} (hE : BlockCipher E) (a : Bool) {own : Own} (hs : own.1.length = 16) (ht : Bit own.2)
    (v : Fin 48 → Byte) :
    stepU a (stream E own.1 3) (List.ofFn (mask a (stream E own.1 3) own.2 v)) own.2
      = (cwOf v, evalStepC E a (cwOf v) own.1 own.2, List.ofFn (mid v)) := by
  obtain ⟨h1, h2, h3⟩ := stepU_mask (a := a) (stream_length hE hs 3) (tb := own.2) v
  refine Prod.ext h1 (Prod.ext ?_ h2)
  rw [h3]
  unfold evalStepC
  have hb : Bit (cwCtl a (cwOf v)) := by rw [cwOf_ctl]; split <;> exact bit_mod _
  rw [xor_mul_mod _ _ _ hb ht, cwOf_take, cwOf_ctl]
  rfl

/-- The random bytes with the seed part replaced, and the old seed part. -/
def swapMid (x : (Fin 48 → Byte) × (Fin 16 → Byte)) : (Fin 48 → Byte) × (Fin 16 → Byte) :=
  (fun i => if h : 17 ≤ i.1 ∧ i.1 < 33 then x.2 ⟨i.1 - 17, by omega⟩ else x.1 i, mid x.1)

theorem swapMid_mid (x : (Fin 48 → Byte) × (Fin 16 → Byte)) : mid (swapMid x).1 = x.2 := by
  funext j
  have h1 : 17 ≤ 17 + j.1 ∧ 17 + j.1 < 33 := ⟨by omega, by omega⟩
  simp only [mid, swapMid, h1, and_self, dif_pos, Nat.add_sub_cancel_left]

theorem swapMid_cw (x : (Fin 48 → Byte) × (Fin 16 → Byte)) : cwOf (swapMid x).1 = cwOf x.1 := by
  unfold cwOf
  congr 1

theorem swapMid_involutive : Function.Involutive swapMid := by
  intro x
  refine Prod.ext ?_ ?_
  · funext i
    simp only [swapMid]
    split
    · rename_i h
      simp only [mid]
      exact congrArg x.1 (Fin.ext (by simp only; omega))
    · rfl
  · exact swapMid_mid x

theorem avg_split (G : List Byte → (Fin 16 → Byte) → ℚ) :
    avg (fun v : Fin 48 → Byte => G (cwOf v) (mid v))
      = avg (fun v : Fin 48 → Byte => avg (fun s : Fin 16 → Byte => G (cwOf v) s)) := by
  have h1 : avg (fun v : Fin 48 → Byte => G (cwOf v) (mid v))
      = avg (fun x : (Fin 48 → Byte) × (Fin 16 → Byte) => G (cwOf x.1) (mid x.1)) := by
    rw [avg_prod']
    exact avg_congr (fun v => (avg_const _).symm)
  rw [h1, ← avg_equiv swapMid_involutive.toPerm, avg_prod']
  refine avg_congr (fun v => avg_congr (fun s => ?_))
  simp only [Function.Involutive.coe_toPerm]
  rw [swapMid_cw, swapMid_mid]

theorem avg_mask (a : Bool) (ub : List Byte) (tb : Byte) (Φ : (Fin 48 → Byte) → ℚ) :
    avg Φ = avg (fun v => Φ (mask a ub tb v)) := by
  have hb : Function.Bijective (mask a ub tb) := Finite.injective_iff_bijective.1 (mask_injective a ub tb)
  exact (avg_equiv (Equiv.ofBijective _ hb) Φ).symm

theorem avg_add {Ω : Type} [Fintype Ω] (f g : Ω → ℚ) : avg f + avg g = avg (fun x => f x + g x) := by
  unfold avg
  rw [Finset.sum_add_distrib, add_div]

theorem avg_sum {Ω : Type} [Fintype Ω] (n : Nat) (f : Nat → Ω → ℚ) :
    avg (fun x => ∑ k ∈ range n, f k x) = ∑ k ∈ range n, avg (f k) := by
  induction n with
  | zero => simp [avg]
  | succ n ih =>
    rw [Finset.sum_range_succ, ← ih, avg_add]
    exact avg_congr (fun x => Finset.sum_range_succ _ _)

theorem avg_comm {Ω T : Type} [Fintype Ω] [Fintype T] (f : Ω → T → ℚ) :
    avg (fun x => avg (fun y => f x y)) = avg (fun y => avg (fun x => f x y)) := by
  rw [← avg_prod' (fun z : Ω × T => f z.1 z.2), avg_prod]

theorem prgGap_avg (E : Cipher) {Ω : Type} [Fintype Ω] (B : Ω → List Byte → ℚ) :
    prgGap E (fun u => avg (fun v => B v u)) = avg (fun v => prgGap E (B v)) := by
  unfold prgGap
  rw [avg_comm, avg_comm (fun u v => B v (List.ofFn u)), avg_sub]

theorem evalStepC_inv {E : Cipher} (hE : BlockCipher E) (a : Bool) {own : Own} (hs : own.1.length = 16)
    {cw : List Byte} (hc : cw.length = 18) :
    (evalStepC E a cw own.1 own.2).1.length = 16 ∧ Bit (evalStepC E a cw own.1 own.2).2 := by
  have := half_length hE hs a
  refine ⟨?_, bit_mod _⟩
  simp [evalStepC, this, hc]

/-- The hybrid argument: replacing the expansions of the other party's seeds by random bytes, level by level. -/
theorem hybrid {E : Cipher} (hE : BlockCipher E) : ∀ (a : List Bool) {own : Own} (F : Cont),
    own.1.length = 16 → Bit own.2 →
    avg (fun so : Fin 16 → Byte =>
        let r := runReal E a own (List.ofFn so)
        F r.1 r.2.1 r.2.2)
      = idealMean E a own F + ∑ k ∈ range a.length, prgGap E (levelTest E a k own F) := by
  intro a
  induction a with
  | nil =>
    intro own F _ _
    simp [runReal, idealMean]
  | cons a as ih =>
    intro own F hs ht
    have e0 : avg (fun so : Fin 16 → Byte =>
        let r := runReal E (a :: as) own (List.ofFn so)
        F r.1 r.2.1 r.2.2)
        = prgGap E (levelTest E (a :: as) 0 own F)
          + avg (fun u : Fin 48 → Byte => levelTest E (a :: as) 0 own F (List.ofFn u)) := by
      unfold prgGap
      rw [sub_add_cancel]
      rfl
    have e1 : avg (fun u : Fin 48 → Byte => levelTest E (a :: as) 0 own F (List.ofFn u))
        = avg (fun v : Fin 48 → Byte => avg (fun s : Fin 16 → Byte =>
          let r := runReal E as (evalStepC E a (cwOf v) own.1 own.2) (List.ofFn s)
          F (cwOf v :: r.1) r.2.1 r.2.2)) := by
      rw [avg_mask a (stream E own.1 3) own.2, ← avg_split (fun cw s =>
        let r := runReal E as (evalStepC E a cw own.1 own.2) (List.ofFn s)
        F (cw :: r.1) r.2.1 r.2.2)]
      refine avg_congr (fun v => ?_)
      unfold levelTest
      rw [stepU_ideal hE a hs ht v]
    have e2 : ∀ v : Fin 48 → Byte, avg (fun s : Fin 16 → Byte =>
          let r := runReal E as (evalStepC E a (cwOf v) own.1 own.2) (List.ofFn s)
          F (cwOf v :: r.1) r.2.1 r.2.2)
        = idealMean E as (evalStepC E a (cwOf v) own.1 own.2) (fun cws => F (cwOf v :: cws))
          + ∑ k ∈ range as.length, prgGap E
            (levelTest E as k (evalStepC E a (cwOf v) own.1 own.2) (fun cws => F (cwOf v :: cws))) := by
      intro v
      have hi := evalStepC_inv hE a hs (cwOf_length v) (own := own)
      exact ih (fun cws => F (cwOf v :: cws)) hi.1 hi.2
    rw [e0, e1, avg_congr e2, ← avg_add, avg_sum, List.length_cons, Finset.sum_range_succ']
    have e3 : ∀ k, prgGap E (levelTest E (a :: as) (k + 1) own F) = avg (fun v : Fin 48 → Byte => prgGap E
            (levelTest E as k (evalStepC E a (cwOf v) own.1 own.2) (fun cws => F (cwOf v :: cws)))) := by
      intro k
      rw [← prgGap_avg]
      rfl
    simp only [e3]
    have e4 : idealMean E (a :: as) own F = avg (fun v : Fin 48 → Byte =>
      idealMean E as (evalStepC E a (cwOf v) own.1 own.2) (fun cws => F (cwOf v :: cws))) := rfl
    rw [e4]
    ring

end Verif.Fss
