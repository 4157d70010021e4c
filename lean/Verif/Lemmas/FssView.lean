import Verif.Lemmas.FssStat

/-! # The view of one party of a shared point function -/

namespace Verif.Fss
open Res Verif.Field Verif.Field.Spec Verif.Fss.Spec Verif.Privacy Finset
set_option linter.unusedSimpArgs false

theorem ownOf_ok (second : Bool) (s : Fin 16 → Byte) (tb : Byte) :
    (ownOf second s tb).1.length = 16 ∧ Bit (ownOf second s tb).2 := by
  refine ⟨by simp [ownOf], ?_⟩
  obtain ⟨c0, c1, -⟩ := init_bits tb
  cases second
  · exact c0
  · exact c1

theorem received_eq {env : Env} (hE : BlockCipher env.E) {e : U32} (he : resample env.fresh env.fuel 0 modP = ok e)
    (second : Bool) (a : List Bool) (β : Fin 4 → U32) (s so : Fin 16 → Byte) (tb : Byte) (α : Fin p) :
    received env second a β (if second then so else s) (if second then s else so) tb α =
      (let r := runReal env.E a (ownOf second s tb) (List.ofFn so)
       ok ⟨(ownOf second s tb).1, (ownOf second s tb).2, r.1, fcwOf env.E e second (vals β α) r.2.1 (words env.E r.2.2)⟩) := by
  obtain ⟨c0, c1, cne⟩ := init_bits tb
  have key : ∀ s0 s1 : Fin 16 → Byte, ∃ o, generateTreePF env (initFss 5) (List.ofFn s0 ++ [tb]) (List.ofFn s1) a (vals β α)
      = (let g := genRec env.E a (List.ofFn s0) (List.ofFn s1) (tb % 2) (tb % 2 ^^^ 1)
         ok (⟨List.ofFn s0, tb % 2, g.1,
            fcwC (vals β α) (elems e (words env.E g.2.1)) (elems e (words env.E g.2.2.1)) g.2.2.2.2⟩,
          ⟨List.ofFn s1, tb % 2 ^^^ 1, g.1,
            fcwC (vals β α) (elems e (words env.E g.2.1)) (elems e (words env.E g.2.2.1)) g.2.2.2.2⟩, o)) := by
    intro s0 s1
    have ht : (List.ofFn s0 ++ [tb]).take 16 = List.ofFn s0 := by
      rw [List.take_append_of_le_length (by simp), List.take_of_length_le (by simp)]
    have hg : (List.ofFn s0 ++ [tb]).getD 16 0 = tb := by
      rw [List.getD_eq_getElem?_getD, List.getElem?_append_right (by simp)]
      simp
    have hl := genLoop_eq hE a (s0 := List.ofFn s0) (s1 := List.ofFn s1) (by simp) (by simp) c0 c1 cne
    obtain ⟨o, ho⟩ := generate_five hE he (ocb := initFss 5) (r1 := List.ofFn s0 ++ [tb]) (r2 := List.ofFn s1) (a := a)
      (b := vals β α) (initFss_ok 5) (by simp) (by simp) rfl _ (by rw [ht, hg]; exact hl)
    rw [ht, hg] at ho
    exact ⟨o, ho⟩
  cases second with
  | false =>
    simp only [Bool.false_eq_true, if_false]
    obtain ⟨o, ho⟩ := key s so
    have hr := genRec_first hE a (s0 := List.ofFn s) (s1 := List.ofFn so) (by simp) (by simp) c0 c1 cne
    have hb := genRec_bits hE a (s0 := List.ofFn s) (s1 := List.ofFn so) (by simp) (by simp) c0 c1 cne
    unfold received
    rw [ho]
    simp only at hr hb
    simp only [ownOf, Bool.false_eq_true, if_false, hr, fcwOf, Res.bind]
    rw [← (bit_other hb.2.2.1 hb.2.2.2.1 hb.2.2.2.2).1]
  | true =>
    simp only [if_true]
    obtain ⟨o, ho⟩ := key so s
    have hr := genRec_second hE a (s0 := List.ofFn so) (s1 := List.ofFn s) (by simp) (by simp) c0 c1 cne
    unfold received
    rw [ho]
    simp only at hr
    simp only [ownOf, if_true, hr, fcwOf, Res.bind]

theorem ideal_words (E : Cipher) : ∀ (a : List Bool) (own : Own) (F : List (List Byte) → Own → (Fin 4 → Fin (2 ^ 31)) → ℚ),
    idealMean E a own (fun cws o so => F cws o (words E so))
      = avg (wordTest E a own F) + convGap E (wordTest E a own F) := by
  have h : ∀ (a : List Bool) (own : Own) (F : List (List Byte) → Own → (Fin 4 → Fin (2 ^ 31)) → ℚ),
    idealMean E a own (fun cws o so => F cws o (words E so))
      = avg (fun s : Fin 16 → Byte => wordTest E a own F (words E (List.ofFn s))) := by
    intro a
    induction a with
    | nil => intro own F; rfl
    | cons a as ih =>
      intro own F
      have e1 : idealMean E (a :: as) own (fun cws o so => F cws o (words E so)) = avg (fun v : Fin 48 → Byte =>
        idealMean E as (evalStepC E a (cwOf v) own.1 own.2) (fun cws o so => F (cwOf v :: cws) o (words E so))) := rfl
      rw [e1, avg_congr (fun v => ih (evalStepC E a (cwOf v) own.1 own.2) (fun cws => F (cwOf v :: cws))), avg_comm]
      rfl
  intro a own F
  rw [h]
  unfold convGap
  ring

theorem words_close (E : Cipher) (ε : ℚ) : ∀ (a : List Bool) (own : Own)
    (F : List (List Byte) → Own → (Fin 4 → Fin (2 ^ 31)) → ℚ) (H : List (List Byte) → ℚ),
    (∀ cws o, |avg (F cws o) - H cws| ≤ ε) →
    |avg (wordTest E a own F) - wordsMean a.length H| ≤ ε := by
  intro a
  induction a with
  | nil => intro own F H h; exact h [] own
  | cons a as ih =>
    intro own F H h
    have e1 : avg (wordTest E (a :: as) own F) = avg (fun v : Fin 48 → Byte =>
        avg (wordTest E as (evalStepC E a (cwOf v) own.1 own.2) (fun cws => F (cwOf v :: cws)))) := by
      rw [avg_comm]
      rfl
    have e2 : wordsMean (a :: as).length H
      = avg (fun v : Fin 48 → Byte => wordsMean as.length (fun cws => H (cwOf v :: cws))) := rfl
    rw [e1, e2, avg_sub]
    exact abs_avg_le (fun v => ih _ _ _ (fun cws o => h _ o))

theorem convGap_avg (E : Cipher) {Ω : Type} [Fintype Ω] (C : Ω → (Fin 4 → Fin (2 ^ 31)) → ℚ) :
    convGap E (fun z => avg (fun v => C v z)) = avg (fun v => convGap E (C v)) := by
  unfold convGap
  rw [avg_comm, avg_comm (fun z v => C v z), avg_sub]

/-- The mean of a test on the key a party receives, up to the gaps of explicit tests, does not depend on the point. -/
theorem view_close {env : Env} (hE : BlockCipher env.E) {e : U32} (he : resample env.fresh env.fuel 0 modP = ok e)
    (hc : Canonical e) (second : Bool) (a : List Bool) {β : Fin 4 → U32} (hβ : ∀ i, Canonical (β i))
    (T : Res Key → ℚ) (h0 : ∀ k, 0 ≤ T k) (h1 : ∀ k, T k ≤ 1) :
    |viewMean env second a β T - randomKeyMean second a.length T|
      ≤ ∑ k ∈ range a.length, |prgGap env.E (keyLevelTest env.E e second a β T k)|
        + |convGap env.E (keyWordTest env.E e second a β T)| + 5 / 2 ^ 31 := by
  have e0 : viewMean env second a β T = avg (fun s : Fin 16 → Byte => avg (fun tb : Byte =>
      avg (fun so : Fin 16 → Byte => avg (fun α : Fin p =>
        T (received env second a β (if second then so else s) (if second then s else so) tb α))))) := by
    unfold viewMean
    cases second
    · exact avg_congr (fun s => avg_comm _)
    · rw [avg_comm]
      exact avg_congr (fun s => avg_comm _)
  have e1 : ∀ (s : Fin 16 → Byte) (tb : Byte), avg (fun so : Fin 16 → Byte => avg (fun α : Fin p =>
        T (received env second a β (if second then so else s) (if second then s else so) tb α)))
      = avg (wordTest env.E a (ownOf second s tb) (keyCont env.E e second β T (ownOf second s tb)))
        + convGap env.E (wordTest env.E a (ownOf second s tb) (keyCont env.E e second β T (ownOf second s tb)))
        + ∑ k ∈ range a.length, prgGap env.E (levelTest env.E a k (ownOf second s tb)
          (fun cws own so => keyCont env.E e second β T (ownOf second s tb) cws own (words env.E so))) := by
    intro s tb
    rw [← ideal_words, ← hybrid hE a _ (ownOf_ok second s tb).1 (ownOf_ok second s tb).2]
    refine avg_congr (fun so => avg_congr (fun α => ?_))
    rw [received_eq hE he]
  have e2 : viewMean env second a β T
      = avg (fun s : Fin 16 → Byte => avg (fun tb : Byte =>
          avg (wordTest env.E a (ownOf second s tb) (keyCont env.E e second β T (ownOf second s tb)))))
        + convGap env.E (keyWordTest env.E e second a β T)
        + ∑ k ∈ range a.length, prgGap env.E (keyLevelTest env.E e second a β T k) := by
    have hcv : convGap env.E (keyWordTest env.E e second a β T) = avg (fun s : Fin 16 → Byte => avg (fun tb : Byte =>
        convGap env.E (wordTest env.E a (ownOf second s tb) (keyCont env.E e second β T (ownOf second s tb))))) := by
      unfold keyWordTest
      rw [convGap_avg]
      exact avg_congr (fun s => convGap_avg _ _)
    have hpg : ∀ k, prgGap env.E (keyLevelTest env.E e second a β T k) = avg (fun s : Fin 16 → Byte => avg (fun tb : Byte =>
        prgGap env.E (levelTest env.E a k (ownOf second s tb)
          (fun cws own so => keyCont env.E e second β T (ownOf second s tb) cws own (words env.E so))))) := by
      intro k
      unfold keyLevelTest
      rw [prgGap_avg]
      exact avg_congr (fun s => prgGap_avg _ _)
    rw [e0, avg_congr (fun s => avg_congr (fun tb => e1 s tb)), hcv]
    simp only [hpg]
    rw [← avg_sum, avg_add, avg_add]
    refine avg_congr (fun s => ?_)
    rw [← avg_sum, avg_add, avg_add]
  have e3 : |avg (fun s : Fin 16 → Byte => avg (fun tb : Byte =>
          avg (wordTest env.E a (ownOf second s tb) (keyCont env.E e second β T (ownOf second s tb)))))
        - randomKeyMean second a.length T| ≤ 5 / 2 ^ 31 := by
    unfold randomKeyMean
    rw [avg_sub]
    refine abs_avg_le (fun s => ?_)
    rw [avg_sub]
    refine abs_avg_le (fun tb => ?_)
    refine words_close env.E _ a _ _ _ (fun cws o => ?_)
    exact final_close env.E hc second hβ o
      (fun l => T (ok ⟨List.ofFn s, (ownOf second s tb).2, cws, l⟩)) (fun _ => h0 _) (fun _ => h1 _)
  rw [e2]
  have e4 : |∑ k ∈ range a.length, prgGap env.E (keyLevelTest env.E e second a β T k)|
      ≤ ∑ k ∈ range a.length, |prgGap env.E (keyLevelTest env.E e second a β T k)| := Finset.abs_sum_le_sum_abs _ _
  rw [abs_le] at e3 e4 ⊢
  have := abs_le.1 (le_refl |convGap env.E (keyWordTest env.E e second a β T)|)
  constructor <;> linarith [e3.1, e3.2, e4.1, e4.2, this.1, this.2]

end Verif.Fss
