import Verif.Spec.ReactionAverageLength
import Verif.Lemmas.ReactionLength
import Verif.Lemmas.ReactionAverage

/-! # The client's reaction to answers of any length to an average query -/

namespace Verif.Forge
open Res Verif.Field Verif.Field.Spec Verif.Fss Verif.Fss.Spec Verif.Privacy Verif.Predicate Verif.Predicate.Spec
  Verif.Reaction Verif.Forge.Spec Finset
set_option linter.constructorNameAsVariable false

/-! ### The client -/

theorem ite_same {c c' : Prop} {i : Decidable c} {i' : Decidable c'} {x x' y y' : Res Unit} (h : c ↔ c') (hx : x = x') (hy : y = y') :
    @ite _ c i x y = @ite _ c' i' x' y' := by
  subst hx hy
  by_cases hc : c
  · rw [if_pos hc, if_pos (h.1 hc)]
  · rw [if_neg hc, if_neg (fun h' => hc (h.2 h'))]

open Classical in
/-- A loop that compares two things in turn, as long as there are words for the second one. -/
theorem outcome_loop {n m : Nat} (h : m ≤ n) {body : Nat → Unit → Res Unit} {c d : Nat → Prop}
    (hi : ∀ i, i < m → (¬ c i ∧ ¬ d i → body i () = ok ()) ∧ (c i ∨ d i → ∃ t, body i () = err t))
    (ho : m < n → (c m → ∃ t, body m () = err t) ∧ (¬ c m → ∃ t, body m () = crash t)) (rest : Unit → Res U32) :
    outcome (forLoop n body () >>= rest) = if ∃ i, i < n ∧ ((i ≤ m ∧ c i) ∨ (i < m ∧ d i)) then err ""
      else if m < n then crash "" else outcome (rest ()) := by
  by_cases hbad : ∃ i, i < m ∧ (c i ∨ d i)
  · obtain ⟨i, him, hcd⟩ := hbad
    obtain ⟨t, ht⟩ := check_loop_err m body (fun j hj => by
      by_cases hj' : c j ∨ d j
      · exact Or.inr ((hi j hj).2 hj')
      · push Not at hj'
        exact Or.inl ((hi j hj).1 hj')) (fun hall => by
      obtain ⟨t, ht⟩ := (hi i him).2 hcd
      have := hall i him
      rw [ht] at this
      cases this)
    obtain ⟨m', rfl⟩ : ∃ m', m = m' + 1 := ⟨m - 1, by omega⟩
    rw [loop_stop (n := n) (m := m') (by omega) (r := err t) (by simp) ht, if_pos]
    · rfl
    · rcases hcd with hc | hd
      · exact ⟨i, by omega, Or.inl ⟨by omega, hc⟩⟩
      · exact ⟨i, by omega, Or.inr ⟨him, hd⟩⟩
  · have hok : forLoop m body () = ok () := check_loop m body (fun i him => (hi i him).1 (by
      push Not at hbad
      exact hbad i him))
    by_cases hlt : m < n
    · by_cases hc : c m
      · obtain ⟨t, ht⟩ := (ho hlt).1 hc
        rw [loop_stop (n := n) (m := m) hlt (r := err t) (by simp) (by rw [forLoop_succ, hok, ok_bind, ht]), if_pos]
        · rfl
        · exact ⟨m, hlt, Or.inl ⟨le_refl _, hc⟩⟩
      · obtain ⟨t, ht⟩ := (ho hlt).2 hc
        rw [loop_stop (n := n) (m := m) hlt (r := crash t) (by simp) (by rw [forLoop_succ, hok, ok_bind, ht]), if_neg,
          if_pos hlt]
        · rfl
        · rintro ⟨i, -, ⟨h1, h2⟩ | ⟨h1, h2⟩⟩
          · rcases Nat.lt_or_eq_of_le h1 with h1 | rfl
            · exact hbad ⟨i, h1, Or.inl h2⟩
            · exact hc h2
          · exact hbad ⟨i, h1, Or.inr h2⟩
    · have : m = n := by omega
      subst this
      rw [hok, ok_bind, if_neg, if_neg hlt]
      rintro ⟨i, hi', ⟨h1, h2⟩ | ⟨h1, h2⟩⟩
      · exact hbad ⟨i, hi', Or.inl h2⟩
      · exact hbad ⟨i, hi', Or.inr h2⟩

/-- The tag number `i` does not fit. -/
abbrev Misfit (β : Fin 3 → Fin p) (α : Fin p) (A H : List U32) (i : Nat) : Prop :=
  tagOf ((A.getD 0 0 + H.getD 0 0) % modP) ((clientState β α).alphas.getD i 0) ≠ (A.getD (i + 1) 0 + H.getD (i + 1) 0) % modP

theorem misfit_comm {β : Fin 3 → Fin p} {α : Fin p} {A H : List U32} {i : Nat} : Misfit β α H A i ↔ Misfit β α A H i := by
  unfold Misfit
  simp only [BitVec.add_comm]

open Classical in
/-- How the client ends when the first answer has ten words. -/
theorem outcome_ten (β : Fin 3 → Fin p) (α : Fin p) {a0 a1 : List U32} (h0 : a0.length = 10) :
    outcome (reconstruct 5 (clientState β α) [a0, a1]) =
      if ∃ i, i < 4 ∧ ((i + 6 ≤ a1.length ∧ Misfit β α a0 a1 i) ∨ (i + 7 ≤ a1.length ∧ Misfit β α (a0.drop 5) (a1.drop 5) i))
      then err "" else if a1.length < 10 then crash "" else if dataOf a0 a1 = 0 then crash "" else ok () := by
  by_cases h5 : a1.length < 6
  · rw [if_neg (by rintro ⟨i, -, ⟨h, -⟩ | ⟨h, -⟩⟩ <;> omega), if_pos (by omega)]
    unfold reconstruct
    rw [idx_of_lt (l := [a0, a1]) (i := 0) (by simp), idx_of_lt (l := [a0, a1]) (i := 1) (by simp)]
    simp only [ok_bind, List.getElem_cons_zero, List.getElem_cons_succ]
    rw [if_pos (by omega), slice_of_le (by omega) (by omega)]
    simp only [ok_bind]
    by_cases h4 : a1.length < 5
    · unfold slice
      rw [if_neg (by omega)]
      rfl
    · rw [slice_of_le (by omega) (by omega), slice_of_le (by omega) (by omega), slice_of_le (by omega) (by omega)]
      simp only [ok_bind]
      rw [idx_of_lt (by simp; omega), idx_of_lt (by simp; omega), idx_of_lt (by simp; omega), idx_of_ge (by simp; omega)]
      rfl
  · have e0 : ∀ (l : List U32) i, i < 5 → ((l.drop 0).take (5 - 0)).getD i 0 = l.getD i 0 := by
      intro l i hi
      simp only [List.getD_eq_getElem?_getD, List.drop_zero, List.getElem?_take]
      rw [if_pos (by omega)]
    have e1 : ∀ (l : List U32) i, ((l.drop 5).take (l.length - 5)).getD i 0 = (l.drop 5).getD i 0 := by
      intro l i
      rw [List.take_of_length_le (by simp)]
    unfold reconstruct
    rw [idx_of_lt (l := [a0, a1]) (i := 0) (by simp), idx_of_lt (l := [a0, a1]) (i := 1) (by simp)]
    simp only [ok_bind, List.getElem_cons_zero, List.getElem_cons_succ]
    rw [if_pos (by omega), slice_of_le (by omega) (by omega), slice_of_le (by omega) (by omega),
      slice_of_le (by omega) (by omega), slice_of_le (by omega) (by omega)]
    simp only [ok_bind]
    rw [idx_getD 0 (by simp; omega), idx_getD 0 (by simp; omega), idx_getD 0 (by simp; omega), idx_getD 0 (by simp; omega)]
    simp only [ok_bind]
    rw [e0 _ _ (by omega), e0 _ _ (by omega), e1, e1]
    rw [outcome_loop (n := 5 - 1) (m := min 4 (a1.length - 6)) (by omega) (c := Misfit β α a0 a1)
      (d := Misfit β α (a0.drop 5) (a1.drop 5))]
    · have hex : (∃ i, i < 5 - 1 ∧ ((i ≤ min 4 (a1.length - 6) ∧ Misfit β α a0 a1 i) ∨
          (i < min 4 (a1.length - 6) ∧ Misfit β α (a0.drop 5) (a1.drop 5) i))) ↔
          ∃ i, i < 4 ∧ ((i + 6 ≤ a1.length ∧ Misfit β α a0 a1 i) ∨
            (i + 7 ≤ a1.length ∧ Misfit β α (a0.drop 5) (a1.drop 5) i)) := by
        refine exists_congr fun i => ⟨?_, ?_⟩
        · rintro ⟨hi, ⟨h, h'⟩ | ⟨h, h'⟩⟩
          · exact ⟨hi, Or.inl ⟨by omega, h'⟩⟩
          · exact ⟨hi, Or.inr ⟨by omega, h'⟩⟩
        · rintro ⟨hi, ⟨h, h'⟩ | ⟨h, h'⟩⟩
          · exact ⟨hi, Or.inl ⟨by omega, h'⟩⟩
          · exact ⟨hi, Or.inr ⟨by omega, h'⟩⟩
      refine ite_same hex rfl (ite_same (by omega) rfl ?_)
      unfold divU32 dataOf
      by_cases hz : (a0.getD 0 0 + a1.getD 0 0) % modP = 0
      · rw [if_pos hz, hz]
        rfl
      · rw [if_neg hz, if_neg (fun hn => hz (BitVec.eq_of_toNat_eq (by rw [hn]; rfl)))]
        rfl
    · intro i hi
      rw [idx_getD 0 (show i < (clientState β α).alphas.length by
          rw [show (clientState β α).alphas.length = 5 from rfl]; omega),
        idx_getD 0 (by simp; omega), idx_getD 0 (by simp; omega)]
      simp only [ok_bind]
      rw [idx_getD 0 (by simp; omega), idx_getD 0 (by simp; omega)]
      simp only [ok_bind]
      rw [e0 _ _ (by omega), e0 _ _ (by omega), e1, e1]
      constructor
      · rintro ⟨h1, h2⟩
        rw [if_neg h1, if_neg h2]
      · rintro (h1 | h2)
        · rw [if_pos h1]
          exact ⟨_, rfl⟩
        · by_cases h1 : Misfit β α a0 a1 i
          · rw [if_pos h1]
            exact ⟨_, rfl⟩
          · rw [if_neg h1, if_pos h2]
            exact ⟨_, rfl⟩
    · intro hlt
      rw [idx_getD 0 (show min 4 (a1.length - 6) < (clientState β α).alphas.length by
          rw [show (clientState β α).alphas.length = 5 from rfl]; omega),
        idx_getD 0 (by simp; omega), idx_getD 0 (by simp; omega)]
      simp only [ok_bind]
      rw [e0 _ _ (by omega), e0 _ _ (by omega)]
      constructor
      · intro h1
        rw [if_pos h1]
        exact ⟨_, rfl⟩
      · intro h1
        rw [if_neg h1, idx_getD 0 (by simp; omega), idx_of_ge (by simp; omega)]
        exact ⟨_, rfl⟩

/-- The client compares the tag number `i` of the number of keys. -/
def SeesCount (first : Bool) (len i : Nat) : Prop := (Counted first len ∧ i + 2 ≤ len) ∨ (¬ Counted first len ∧ i + 6 ≤ len)

/-- The client compares the tag number `i` of the sum. -/
def SeesSum (first : Bool) (len i : Nat) : Prop := ¬ Counted first len ∧ i + 7 ≤ len

open Classical in
/-- How the client ends when the other answer has ten words. -/
theorem outcome_any (β : Fin 3 → Fin p) (α : Fin p) (first : Bool) {A H : List U32} (hH : H.length = 10) :
    outcome (reconstruct 5 (clientState β α) (if first then [A, H] else [H, A])) =
      if ∃ i, i < 4 ∧ ((SeesCount first A.length i ∧ Misfit β α A H i) ∨
        (SeesSum first A.length i ∧ Misfit β α (A.drop 5) (H.drop 5) i)) then err ""
      else if ¬ Enough first A.length then crash ""
      else if ¬ Counted first A.length ∧ dataOf A H = 0 then crash "" else ok () := by
  have hst : (clientState β α).alphas.length = 5 := rfl
  by_cases hc : Counted first A.length
  · obtain ⟨rfl, h10⟩ := hc
    have hC : Counted true A.length := ⟨rfl, h10⟩
    simp only [SeesCount, SeesSum, Enough, hC, true_and, not_true_eq_false, false_and, or_false, if_true]
    rw [reconstruct_length hst h10 (L := A.length) (Or.inr ⟨by omega, rfl⟩)]
    by_cases h0 : A.length = 0
    · rw [if_pos h0, if_neg (by rintro ⟨i, -, h, -⟩; omega), if_pos (by omega)]
      rfl
    · rw [if_neg h0]
      by_cases hm : ∃ i, i < 4 ∧ i + 2 ≤ A.length ∧ Misfit β α A H i
      · rw [if_pos hm, if_neg (c := ∀ i, _)]
        · rfl
        · intro hall
          obtain ⟨i, h1, h2, h3⟩ := hm
          exact hall i (by omega) h3
      · rw [if_neg hm, if_pos (c := ∀ i, _)]
        · by_cases h5 : A.length < 5
          · rw [if_pos h5, if_pos (by omega)]
            rfl
          · rw [if_neg h5, if_neg (by omega)]
            rfl
        · intro i hi hne
          exact hm ⟨i, by omega, by omega, hne⟩
  · simp only [SeesCount, SeesSum, Enough, hc, not_false_eq_true, true_and, false_and, false_or]
    cases first
    · simp only [Bool.false_eq_true, if_false]
      rw [outcome_ten β α hH, dataOf_comm]
      simp only [misfit_comm (A := A) (H := H), misfit_comm (A := A.drop 5) (H := H.drop 5)]
      exact ite_same Iff.rfl rfl (ite_same (by omega) rfl (ite_same Iff.rfl rfl rfl))
    · have h10 : A.length = 10 := by
        by_contra h
        exact hc ⟨rfl, h⟩
      simp only [if_true]
      rw [outcome_ten β α h10, h10, hH]
      exact ite_same Iff.rfl rfl (ite_same (by omega) rfl (ite_same Iff.rfl rfl rfl))

open Classical in
/-- The client ends as if it compared the words it reads with the honest ones, provided it accepts the honest ones and neither first
tag fits a wrong value. -/
theorem ends_compare_avg {β : Fin 3 → Fin p} {α : Fin p} {A O H : List U32} (first : Bool) (hH : H.length = 10)
    (sA : ∀ j, j < 10 → (A.getD j 0).toNat ≤ 2 ^ 32 - p) (sO : ∀ j, j < 10 → (O.getD j 0).toNat < p)
    (sH : ∀ j, j < 10 → (H.getD j 0).toNat < p) (t1 : TagsMatch β α O H) (t2 : TagsMatch β α (O.drop 5) (H.drop 5))
    (n1 : ¬ Misfit β α A H 0 → dataOf A H = dataOf O H)
    (n2 : ¬ Misfit β α (A.drop 5) (H.drop 5) 0 → dataOf (A.drop 5) (H.drop 5) = dataOf (O.drop 5) (H.drop 5)) :
    outcome (reconstruct 5 (clientState β α) (if first then [A, H] else [H, A]))
      = endsAvg first O A (dataOf O H = 0) := by
  rw [outcome_any β α first hH]
  unfold endsAvg
  have addA : ∀ j, j < 10 → ((A.getD j 0 + H.getD j 0) % modP).toNat = ((A.getD j 0).toNat + (H.getD j 0).toNat) % p :=
    fun j hj => sum_small (sA j hj) (sH j hj)
  have addO : ∀ j, j < 10 → ((O.getD j 0 + H.getD j 0) % modP).toNat = ((O.getD j 0).toNat + (H.getD j 0).toNat) % p := by
    intro j hj
    refine sum_small ?_ (sH j hj)
    have := sO j hj
    rw [p_val] at *
    omega
  have hiff : ∀ j, j < 10 → ((O.getD j 0).toNat % p = (A.getD j 0).toNat % p ↔
      (A.getD j 0 + H.getD j 0) % modP = (O.getD j 0 + H.getD j 0) % modP) := by
    intro j hj
    constructor
    · intro h
      apply BitVec.eq_of_toNat_eq
      rw [addA j hj, addO j hj, Nat.add_mod, ← h, ← Nat.add_mod]
    · intro h
      have := congrArg BitVec.toNat h
      rw [addA j hj, addO j hj] at this
      exact (Nat.ModEq.add_right_cancel' _ this).symm
  have hdata : dataOf A H = dataOf O H → (A.getD 0 0 + H.getD 0 0) % modP = (O.getD 0 0 + H.getD 0 0) % modP :=
    fun h => BitVec.eq_of_toNat_eq h
  have hdata' : dataOf (A.drop 5) (H.drop 5) = dataOf (O.drop 5) (H.drop 5) →
      (A.getD 5 0 + H.getD 5 0) % modP = (O.getD 5 0 + H.getD 5 0) % modP := by
    intro h
    have := BitVec.eq_of_toNat_eq h
    simpa only [getD_drop5] using this
  have same : (∃ i, i < 4 ∧ ((SeesCount first A.length i ∧ Misfit β α A H i) ∨
        (SeesSum first A.length i ∧ Misfit β α (A.drop 5) (H.drop 5) i))) ↔
      ∃ j, Compared first A.length j ∧ (O.getD j 0).toNat % p ≠ (A.getD j 0).toNat % p := by
    constructor
    · rintro ⟨i, hi, ⟨hs, hm⟩ | ⟨hs, hm⟩⟩ <;> by_contra hno <;> push Not at hno
      · apply hm
        have c0 := (hiff 0 (by omega)).1 (hno 0 (by
          rcases hs with ⟨hc, hs⟩ | ⟨hc, hs⟩
          · exact Or.inl ⟨hc, by omega, by omega, by omega⟩
          · exact Or.inr ⟨hc, Or.inl ⟨by omega, by omega, by omega⟩⟩))
        have c1 := (hiff (i + 1) (by omega)).1 (hno (i + 1) (by
          rcases hs with ⟨hc, hs⟩ | ⟨hc, hs⟩
          · exact Or.inl ⟨hc, by omega, by omega, by omega⟩
          · exact Or.inr ⟨hc, Or.inl ⟨by omega, by omega, by omega⟩⟩))
        rw [c0, c1]
        exact t1 i hi
      · apply hm
        obtain ⟨hc, hs⟩ := hs
        have c0 := (hiff 5 (by omega)).1 (hno 5 (Or.inr ⟨hc, Or.inr ⟨by omega, by omega, by omega, by omega⟩⟩))
        have c1 := (hiff (5 + (i + 1)) (by omega)).1 (hno (5 + (i + 1))
          (Or.inr ⟨hc, Or.inr ⟨by omega, by omega, by omega, by omega⟩⟩))
        have := t2 i hi
        simp only [getD_drop5] at this ⊢
        rw [show 5 + 0 = 5 from rfl] at this ⊢
        rw [c0, c1]
        exact this
    · rintro ⟨j, hj, hne⟩
      by_contra hno
      push Not at hno
      have hall1 : ∀ i, i < 4 → SeesCount first A.length i → ¬ Misfit β α A H i := fun i hi hs h => h ((hno i hi).1 hs)
      have hall2 : ∀ i, i < 4 → SeesSum first A.length i → ¬ Misfit β α (A.drop 5) (H.drop 5) i :=
        fun i hi hs h => h ((hno i hi).2 hs)
      apply hne
      have count : ∀ j, j < 5 → SeesCount first A.length 0 → (0 < j → SeesCount first A.length (j - 1)) →
          (O.getD j 0).toNat % p = (A.getD j 0).toNat % p := by
        intro j hj h0 h1
        have c0 := hdata (n1 (hall1 0 (by omega) h0))
        refine (hiff j (by omega)).2 ?_
        cases j with
        | zero => exact c0
        | succ i =>
          have hm := not_not.1 (hall1 i (by omega) (h1 (by omega)))
          rw [← hm, c0]
          exact t1 i (by omega)
      have sum : ∀ j, j < 5 → SeesSum first A.length 0 → (0 < j → SeesSum first A.length (j - 1)) →
          (O.getD (5 + j) 0).toNat % p = (A.getD (5 + j) 0).toNat % p := by
        intro j hj h0 h1
        have c0 := hdata' (n2 (hall2 0 (by omega) h0))
        refine (hiff (5 + j) (by omega)).2 ?_
        cases j with
        | zero => exact c0
        | succ i =>
          have hm := not_not.1 (hall2 i (by omega) (h1 (by omega)))
          have := t2 i (by omega)
          simp only [getD_drop5] at hm this
          rw [show 5 + 0 = 5 from rfl] at hm this
          rw [← hm, c0]
          exact this
      rcases hj with ⟨hc, h2, h5, hl⟩ | ⟨hc, ⟨h6, h5, hl⟩ | ⟨h7, h5, h10, hl⟩⟩
      · exact count j h5 (Or.inl ⟨hc, by omega⟩) (fun h => Or.inl ⟨hc, by omega⟩)
      · exact count j h5 (Or.inr ⟨hc, by omega⟩) (fun h => Or.inr ⟨hc, by omega⟩)
      · have := sum (j - 5) (by omega) ⟨hc, by omega⟩ (fun h => ⟨hc, by omega⟩)
        rwa [show 5 + (j - 5) = j by omega] at this
  by_cases hb : ∃ j, Compared first A.length j ∧ (O.getD j 0).toNat % p ≠ (A.getD j 0).toNat % p
  · rw [if_pos hb, if_pos (same.2 hb)]
  rw [if_neg hb, if_neg (fun h => hb (same.1 h))]
  by_cases he : Enough first A.length
  · rw [if_neg (not_not.2 he), if_neg (not_not.2 he)]
    refine ite_same ?_ rfl rfl
    apply and_congr_right
    intro hc
    rw [n1 ?_]
    intro hm
    apply hb
    refine same.1 ⟨0, by omega, Or.inl ⟨Or.inr ⟨hc, ?_⟩, hm⟩⟩
    rcases he with ⟨hc', -⟩ | ⟨-, he⟩
    · exact absurd hc' hc
    · omega
  · rw [if_pos he, if_pos he]

theorem outcome_endsAvg (first : Bool) (own b : List U32) (nobody : Prop) :
    outcome (endsAvg first own b nobody) = endsAvg first own b nobody := by
  unfold endsAvg
  split
  · rfl
  · split
    · rfl
    · split <;> rfl

/-! ### The tests -/

theorem firstEither_nonneg (S1 S2 : Setting) (A : Key → List U32) (k : Res Key) (β : Fin 3 → Fin p) (α : Fin p) :
    0 ≤ firstEither S1 S2 A k β α :=
  add_nonneg (firstTest_nonneg _ _ _ _ _) (firstTest_nonneg _ _ _ _ _)

theorem firstEither_avg (S1 S2 : Setting) (A : Key → List U32) (k : Key) (α : Fin p) :
    avg (fun β => firstEither S1 S2 A (ok k) β α) ≤ 12 / (p : ℚ) := by
  have h := add_le_add (firstTest_avg S1 A k α) (firstTest_avg S2 (fun k => (A k).drop 5) k α)
  rw [Fss.avg_add] at h
  exact le_trans h (le_of_eq (by ring))

/-- When the first tag of the number or of the sum fits a wrong value, key and MAC keys are such that this is possible. -/
theorem firstEither_wrong {W : World} {mal : Bool} {e : U32} {fr : Nat → U32} {db : KeyDB} {q : Query.ClientFSS} {inOrder : Bool}
    {β : Fin 3 → Fin p} {α : Fin p} {km kh : Key}
    (hT : Twins W.env.E e (mal == inOrder) q.input (vals (shared β) α) km kh)
    (hlen : ∀ ki ∈ db.keys, ∀ id, selOf W.hash q.info ki = some id → id.length = q.input.length) {H : List U32}
    (h3 : H.length = 10)
    (h4 : ∀ j, j < 5 → (H.getD j 0).toNat = realSum W.env.E (if mal then 0 else 1) kh
          (recsTo db.keys (selOf W.hash q.info) fr (isAged (honestNow W mal)) db.numColumns) j ∧
        (H.getD (5 + j) 0).toNat = realSum W.env.E (if mal then 0 else 1) kh
          (recsTo db.keys (selOf W.hash q.info) fr (ageOf (honestNow W mal)) db.numColumns) j)
    {A : Key → List U32}
    (hor : (¬ Misfit β α (A km) H 0 ∧
        dataOf (A km) H ≠ due inOrder (settingOf W db q inOrder mal e fr (isAged (honestNow W mal))).total) ∨
      (¬ Misfit β α ((A km).drop 5) (H.drop 5) 0 ∧
        dataOf ((A km).drop 5) (H.drop 5) ≠ due inOrder (settingOf W db q inOrder mal e fr (ageOf (honestNow W mal))).total)) :
    1 ≤ firstEither (settingOf W db q inOrder mal e fr (isAged (honestNow W mal)))
      (settingOf W db q inOrder mal e fr (ageOf (honestNow W mal))) A (ok km) β α := by
  have n1 := firstTest_nonneg (settingOf W db q inOrder mal e fr (isAged (honestNow W mal))) A (ok km) β α
  have n2 := firstTest_nonneg (settingOf W db q inOrder mal e fr (ageOf (honestNow W mal)))
    (fun k => (A k).drop 5) (ok km) β α
  unfold firstEither
  rcases hor with ⟨hm, hbad⟩ | ⟨hm, hbad⟩
  · have e1 : firstTest (settingOf W db q inOrder mal e fr (isAged (honestNow W mal))) A (ok km) β α = 1 := by
      unfold firstTest
      simp only
      rw [if_pos]
      refine firstForgeable_of (S := settingOf W db q inOrder mal e fr (isAged (honestNow W mal))) (H := H.take 5) hT
        (recsTo_length hlen) (by simp [h3]) ?_ ?_ (wrong_of (dataOf_lt _ _) ?_)
      · intro j hj
        rw [getD_take5 _ hj]
        exact (h4 j hj).1
      · rw [getD_take5 _ (by omega), getD_take5 _ (by omega)]
        exact not_not.1 hm
      · unfold dataOf
        rw [getD_take5 _ (by omega)]
        exact hbad
    rw [e1]
    linarith
  · have e1 : firstTest (settingOf W db q inOrder mal e fr (ageOf (honestNow W mal))) (fun k => (A k).drop 5)
        (ok km) β α = 1 := by
      unfold firstTest
      simp only
      rw [if_pos]
      refine firstForgeable_of (S := settingOf W db q inOrder mal e fr (ageOf (honestNow W mal))) (H := H.drop 5) hT
        (recsTo_length hlen) (by simp [h3]) ?_ (not_not.1 hm) (wrong_of (dataOf_lt _ _) hbad)
      intro j hj
      rw [getD_drop5]
      exact (h4 j hj).2
    rw [e1]
    linarith

theorem foreseeAvg_unit (W : World) (db : KeyDB) (i : Query.Info) (mal : Bool) (F : Msg → Res (List Byte)) (nobody : Prop)
    {D : Res Msg × Res Unit → ℚ} (hD : IsTest D) (k : Res Key) :
    0 ≤ foreseeAvg W db i mal F nobody D k ∧ foreseeAvg W db i mal F nobody D k ≤ 1 := by
  cases k with
  | ok k => exact hD _
  | err m => exact ⟨le_refl _, zero_le_one⟩
  | crash m => exact ⟨le_refl _, zero_le_one⟩

theorem words_same {b : List Byte} {a : List U32} (h : Utils.byteSliceToUint32Slice b = ok a) : a = Panic.Spec.wordsOf b := by
  rw [Panic.words_eq] at h
  cases h
  rfl

theorem wordsOf_ok {q : Query.ClientFSS} {F : Msg → Res (List Byte)} {k : Key} {b : List Byte} (h : F ⟨q.info, k⟩ = ok b) :
    wordsOf q F k = Panic.Spec.wordsOf b := by
  unfold wordsOf
  rw [h]
  simp only [Panic.words_eq]

/-- What the server sees in a run without coincidences, as long as neither first tag fits a wrong value. -/
theorem viewAvg_foreseen {W : World} {mal : Bool} {e e' : U32} {fr fr' : Nat → U32} (hS : Setup W mal e fr)
    (hS' : Setup W (!mal) e' fr') {db : KeyDB} (hdb : Loaded db) {q : Query.ClientFSS} (ha : q.info.avg = true)
    (hs : q.info.sum = false) (ht : q.info.and = true) {now : Int} (hnow : ∀ m j, honestNow W m j = now)
    (hage : ∀ ki ∈ db.keys, now - ki.creation.year < 2 ^ 32)
    (hsel : ∀ ki ∈ db.keys, keyId W.hash q.info ki = ok (selOf W.hash q.info ki))
    (hlen : ∀ ki ∈ db.keys, ∀ id, selOf W.hash q.info ki = some id → id.length = q.input.length) (inOrder : Bool)
    (F : Msg → Res (List Byte)) (hF : ∀ m b, F m = ok b → SmallTen b) {D : Res Msg × Res Unit → ℚ} (hD : IsTest D)
    (β : Fin 3 → Fin p) (α : Fin p) (s0 s1 : Fin 16 → Byte) (tb : Byte)
    (hno : NoHits (drawn W β α s0 s1 tb) 5 db q) :
    |D (viewAvg (drawn W β α s0 s1 tb) db q inOrder mal F)
      - foreseeAvg W db q.info mal F ((settingOf W db q inOrder mal e fr (isAged (honestNow W mal))).total % p = 0) D
          (received W.env (mal == inOrder) q.input (shared β) s0 s1 tb α)|
      ≤ firstEither (settingOf W db q inOrder mal e fr (isAged (honestNow W mal)))
          (settingOf W db q inOrder mal e fr (ageOf (honestNow W mal))) (wordsOf q F)
          (received W.env (mal == inOrder) q.input (shared β) s0 s1 tb α) β α := by
  classical
  obtain ⟨km, kh, hkm, hT, ⟨ms, rnd', o, hms, mm, mh⟩, hform⟩ := forgedRun_form hS db q inOrder β α s0 s1 tb
  have hnf : ∀ m, honestNow W m = fun _ => now := fun m => funext (hnow m)
  obtain ⟨bh, H, h1, h2, h3, h4⟩ := honest_avg hS hdb ha hs ht hsel (fun j ki hki => by rw [hnow]; exact hage ki hki) hlen hT.okh
  obtain ⟨bo, O, o1, o2, o3, o4⟩ := honest_avg hS' hdb ha hs ht hsel (fun j ki hki => by rw [hnow]; exact hage ki hki) hlen hT.okm
  have hli : W.serve (liar mal) 5 db ⟨q.info, km⟩ = ok bo := by
    rw [← o1]
    cases mal <;> rfl
  have hkey : ∀ ki ∈ db.keys, ∀ id, selOf W.hash q.info ki = some id → keyId W.hash q.info ki = ok (some id) :=
    fun ki hki id hid => by rw [hsel ki hki, hid]
  have cm : ∀ ki ∈ db.keys, ∀ id, selOf W.hash q.info ki = some id → Clear W.env.E km id := fun ki hki id hid =>
    evalNoHit_clear hS.cipher (by rw [hlen ki hki id hid]; exact hT.okm)
      (hno.2 ms _ _ _ hms _ mm ki hki id (hkey ki hki id hid))
  have ch : ∀ ki ∈ db.keys, ∀ id, selOf W.hash q.info ki = some id → Clear W.env.E kh id := fun ki hki id hid =>
    evalNoHit_clear hS.cipher (by rw [hlen ki hki id hid]; exact hT.okh)
      (hno.2 ms _ _ _ hms _ mh ki hki id (hkey ki hki id hid))
  have sH : ∀ j, j < 10 → (H.getD j 0).toNat < p := by
    intro j hj
    by_cases h5 : j < 5
    · rw [(h4 j h5).1]; exact Nat.mod_lt _ p_pos
    · rw [show j = 5 + (j - 5) by omega, (h4 (j - 5) (by omega)).2]; exact Nat.mod_lt _ p_pos
  have sO : ∀ j, j < 10 → (O.getD j 0).toNat < p := by
    intro j hj
    by_cases h5 : j < 5
    · rw [(o4 j h5).1]; exact Nat.mod_lt _ p_pos
    · rw [show j = 5 + (j - 5) by omega, (o4 (j - 5) (by omega)).2]; exact Nat.mod_lt _ p_pos
  have hsgn : sgn (if (!mal) then 0 else 1) = - sgn (if mal then 0 else 1) := by
    cases mal <;> simp [sgn]
  have tot : ∀ (wt : Nat → KeyInfo → Nat) (A B : List U32),
      (∀ j, j < 5 → (A.getD j 0).toNat = realSum W.env.E (if (!mal) then 0 else 1) km
        (recsTo db.keys (selOf W.hash q.info) fr' wt db.numColumns) j) →
      (∀ j, j < 5 → (B.getD j 0).toNat = realSum W.env.E (if mal then 0 else 1) kh
        (recsTo db.keys (selOf W.hash q.info) fr wt db.numColumns) j) →
      TagsMatch β α A B ∧ dataOf A B = due inOrder (settingOf W db q inOrder mal e fr wt).total := by
    intro wt A B hA hB
    have h := tags_of_sums (S := settingOf W db q inOrder mal e fr wt) (β := β) (α := α) (O := A) (H := B)
      (fun j hj => by rw [hA j hj]; exact Nat.mod_lt _ p_pos) (fun j hj => by rw [hB j hj]; exact Nat.mod_lt _ p_pos) (by
        intro j hj
        rw [hA j hj, hB j hj, sums_total hS.cipher hT hlen cm ch hsgn hj db.numColumns (le_of_eq hdb)]
        unfold Setting.sign Setting.total settingOf sgn
        cases mal <;> simp only [Bool.false_eq_true, if_false, if_true] <;> ring)
    exact ⟨h.1, by_contra fun hne => h.2 (wrong_of (dataOf_lt _ _) hne)⟩
  have hO1 := tot (isAged (honestNow W mal)) O H (fun j hj => by rw [(o4 j hj).1, hnf, hnf]) (fun j hj => (h4 j hj).1)
  have hO2 := tot (ageOf (honestNow W mal)) (O.drop 5) (H.drop 5)
    (fun j hj => by rw [getD_drop5, (o4 j hj).2, hnf, hnf]) (fun j hj => by rw [getD_drop5]; exact (h4 j hj).2)
  have hrun := (hform bh h1 F).1
  have hmsg := (hform bh h1 F).2
  rw [hkm]
  have hv : viewAvg (drawn W β α s0 s1 tb) db q inOrder mal F = (ok ⟨q.info, km⟩, outcome (do
      let b ← F ⟨q.info, km⟩
      reconstructBytes 5 (clientState β α) (if mal then [bh, b] else [b, bh]))) := by
    unfold viewAvg
    rw [hmsg, hrun]
  rw [hv]
  have n0 := firstEither_nonneg (settingOf W db q inOrder mal e fr (isAged (honestNow W mal)))
    (settingOf W db q inOrder mal e fr (ageOf (honestNow W mal))) (wordsOf q F) (ok km) β α
  have same : outcome (do
      let b ← F ⟨q.info, km⟩
      reconstructBytes 5 (clientState β α) (if mal then [bh, b] else [b, bh]))
      = outcome (foreseenAvg W db mal F ((settingOf W db q inOrder mal e fr (isAged (honestNow W mal))).total % p = 0)
        ⟨q.info, km⟩) ∨
      1 ≤ firstEither (settingOf W db q inOrder mal e fr (isAged (honestNow W mal)))
          (settingOf W db q inOrder mal e fr (ageOf (honestNow W mal))) (wordsOf q F) (ok km) β α := by
    unfold foreseenAvg
    cases hFm : F ⟨q.info, km⟩ with
    | err m => exact Or.inl rfl
    | crash m => exact Or.inl rfl
    | ok b =>
      simp only [ok_bind, hli]
      have hrec : reconstructBytes 5 (clientState β α) (if mal then [bh, b] else [b, bh])
          = reconstruct 5 (clientState β α) (if !mal then [Panic.Spec.wordsOf b, H] else [H, Panic.Spec.wordsOf b]) := by
        cases mal
        · exact reconstructBytes_words 5 _ _ _ _ _ (Panic.words_eq b) h2
        · exact reconstructBytes_words 5 _ _ _ _ _ h2 (Panic.words_eq b)
      rw [hrec, ← words_same o2]
      by_cases hor : (¬ Misfit β α (wordsOf q F km) H 0 ∧
          dataOf (wordsOf q F km) H ≠ due inOrder (settingOf W db q inOrder mal e fr (isAged (honestNow W mal))).total) ∨
        (¬ Misfit β α ((wordsOf q F km).drop 5) (H.drop 5) 0 ∧ dataOf ((wordsOf q F km).drop 5) (H.drop 5)
          ≠ due inOrder (settingOf W db q inOrder mal e fr (ageOf (honestNow W mal))).total)
      · exact Or.inr (firstEither_wrong hT hlen h3 h4 hor)
      · left
        rw [wordsOf_ok hFm, not_or, not_and_or, not_and_or, not_not, not_not, not_not, not_not] at hor
        rw [ends_compare_avg (!mal) h3 (hF _ _ hFm) sO sH hO1.1 hO2.1
          (fun hm => (hor.1.resolve_left hm).trans hO1.2.symm) (fun hm => (hor.2.resolve_left hm).trans hO2.2.symm),
          hO1.2, outcome_endsAvg]
        simp only [due_zero]
  rcases same with h | h
  · show |D (_, _) - D (_, _)| ≤ _
    rw [h, sub_self, abs_zero]
    exact n0
  · exact abs_unit (hD _) (hD _) h

end Verif.Forge
