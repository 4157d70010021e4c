import Verif.Spec.ReactionLength
import Verif.Lemmas.ReactionPredicate
import Verif.Lemmas.Panic

/-! # The client's reaction to answers of any length to a count query -/

namespace Verif.Forge
open Res Verif.Field Verif.Field.Spec Verif.Fss Verif.Fss.Spec Verif.Privacy Verif.Predicate Verif.Predicate.Spec
  Verif.Reaction Verif.Forge.Spec Finset
set_option linter.constructorNameAsVariable false

/-! ### The client -/

theorem loop_stop {n m : Nat} (h : m < n) {body : Nat → Unit → Res Unit} {r : Res Unit} (hr : ∀ u, r ≠ ok u)
    (hm : forLoop (m + 1) body () = r) : forLoop n body () = r := by
  obtain ⟨d, rfl⟩ : ∃ d, n = m + 1 + d := ⟨n - (m + 1), by omega⟩
  clear h
  induction d with
  | zero => exact hm
  | succ d ih =>
    rw [show m + 1 + (d + 1) = m + 1 + d + 1 from rfl, forLoop_succ, ih]
    cases r with
    | ok u => exact absurd rfl (hr u)
    | err _ => rfl
    | crash _ => rfl

/-- A loop that compares as long as there are words. -/
theorem loop_until {n m : Nat} (h : m ≤ n) {body : Nat → Unit → Res Unit} {c : Nat → Prop} [DecidablePred c] {t k : String}
    (hi : ∀ i, i < m → body i () = if c i then err t else ok ()) (ho : m < n → body m () = crash k) :
    forLoop n body () = if ∀ i, i < m → ¬ c i then (if m < n then crash k else ok ()) else err t := by
  have h1 : forLoop m body () = if ∀ i, i < m → ¬ c i then ok () else err t := by
    rw [← check_loop_if m c t]
    exact forLoop_congr (fun i _ hlt => hi i hlt)
  rcases Nat.lt_or_eq_of_le h with hlt | rfl
  · have h2 : forLoop (m + 1) body () = if ∀ i, i < m → ¬ c i then crash k else err t := by
      rw [forLoop_succ, h1]
      split
      · rw [ok_bind, ho hlt]
      · rfl
    rw [loop_stop hlt (r := if ∀ i, i < m → ¬ c i then crash k else err t) (by intro u; split <;> simp) h2]
    simp only [if_pos hlt]
  · rw [h1]
    simp

/-- The client's comparison of a count, when one answer has at least five words and the two are not taken for an average. -/
theorem reconstruct_length {st : State} (hst : st.alphas.length = 5) {a0 a1 : List U32} (h10 : a0.length ≠ 10) {L : Nat}
    (hL : (5 ≤ a0.length ∧ a1.length = L) ∨ (5 ≤ a1.length ∧ a0.length = L)) :
    reconstruct 5 st [a0, a1] = if L = 0 then crash "index out of range"
      else if ∀ i, i < min 4 (L - 1) → ¬ tagOf ((a0.getD 0 0 + a1.getD 0 0) % modP) (st.alphas.getD i 0)
          ≠ (a0.getD (i + 1) 0 + a1.getD (i + 1) 0) % modP
      then (if L < 5 then crash "index out of range" else ok ((a0.getD 0 0 + a1.getD 0 0) % modP)) else err "REJECT" := by
  unfold reconstruct
  rw [idx_of_lt (l := [a0, a1]) (i := 0) (by simp), idx_of_lt (l := [a0, a1]) (i := 1) (by simp)]
  simp only [ok_bind, List.getElem_cons_zero, List.getElem_cons_succ]
  rw [if_neg h10]
  by_cases h0 : L = 0
  · rw [if_pos h0]
    rcases hL with ⟨e0, e1⟩ | ⟨e1, e0⟩
    · rw [idx_getD 0 (by omega : 0 < a0.length), idx_of_ge (by omega : a1.length ≤ 0)]
      rfl
    · rw [idx_of_ge (by omega : a0.length ≤ 0)]
      rfl
  · rw [if_neg h0, idx_getD 0 (by omega : 0 < a0.length), idx_getD 0 (by omega : 0 < a1.length)]
    simp only [ok_bind]
    rw [loop_until (n := 5 - 1) (m := min 4 (L - 1)) (by omega) (k := "index out of range") (t := "REJECT")
      (c := fun i => tagOf ((a0.getD 0 0 + a1.getD 0 0) % modP) (st.alphas.getD i 0)
          ≠ (a0.getD (i + 1) 0 + a1.getD (i + 1) 0) % modP)]
    · by_cases hc : ∀ i, i < min 4 (L - 1) → ¬ tagOf ((a0.getD 0 0 + a1.getD 0 0) % modP) (st.alphas.getD i 0)
          ≠ (a0.getD (i + 1) 0 + a1.getD (i + 1) 0) % modP
      · rw [if_pos hc, if_pos hc]
        by_cases h5 : L < 5
        · rw [if_pos h5, if_pos (by omega)]
          rfl
        · rw [if_neg h5, if_neg (by omega)]
          rfl
      · rw [if_neg hc, if_neg hc]
        rfl
    · intro i hi
      rw [idx_getD 0 (by omega : i < st.alphas.length), idx_getD 0 (by omega : i + 1 < a0.length),
        idx_getD 0 (by omega : i + 1 < a1.length)]
      rfl
    · intro hlt
      rw [idx_getD 0 (by omega : min 4 (L - 1) < st.alphas.length)]
      rcases hL with ⟨e0, e1⟩ | ⟨e1, e0⟩
      · rw [idx_getD 0 (by omega : min 4 (L - 1) + 1 < a0.length), idx_of_ge (by omega : a1.length ≤ min 4 (L - 1) + 1)]
        rfl
      · rw [idx_of_ge (by omega : a0.length ≤ min 4 (L - 1) + 1)]
        rfl

/-- Ten words that come first are taken for an average. -/
theorem reconstruct_ten {st : State} {A H : List U32} (hA : A.length = 10) (hH : H.length = 5) :
    reconstruct 5 st [A, H] = crash "index out of range" := by
  unfold reconstruct
  rw [idx_of_lt (l := [A, H]) (i := 0) (by simp), idx_of_lt (l := [A, H]) (i := 1) (by simp)]
  simp only [ok_bind, List.getElem_cons_zero, List.getElem_cons_succ]
  rw [if_pos hA, slice_of_le (by omega) (by omega), slice_of_le (by omega) (by omega), slice_of_le (by omega) (by omega),
    slice_of_le (by omega) (by omega)]
  simp only [ok_bind]
  rw [idx_of_lt (by simp; omega), idx_of_lt (by simp; omega), idx_of_lt (by simp; omega), idx_of_ge (by simp; omega)]
  rfl

/-- The client ends as if it compared the words it reads with the honest ones, provided it accepts the honest ones and the first
tag does not fit a wrong number. -/
theorem ends_compare {st : State} (hst : st.alphas.length = 5) {A O H : List U32} (first : Bool) (hO : O.length = 5)
    (hH : H.length = 5) (sA : ∀ j, j < 5 → (A.getD j 0).toNat ≤ 2 ^ 32 - p) (sO : ∀ j, j < 5 → (O.getD j 0).toNat < p)
    (sH : ∀ j, j < 5 → (H.getD j 0).toNat < p) {r : U32} (hon : reconstruct 5 st [O, H] = ok r)
    (hno : tagOf ((A.getD 0 0 + H.getD 0 0) % modP) (st.alphas.getD 0 0) = (A.getD 1 0 + H.getD 1 0) % modP →
      (A.getD 0 0 + H.getD 0 0) % modP = r) :
    ending (reconstruct 5 st (if first then [A, H] else [H, A])) = endsBy first O A := by
  unfold endsBy
  by_cases h10 : first = true ∧ A.length = 10
  · rw [if_pos (Or.inl h10), h10.1, if_pos rfl, reconstruct_ten h10.2 hH]
    rfl
  have hrec : reconstruct 5 st (if first then [A, H] else [H, A]) = if A.length = 0 then crash "index out of range"
      else if ∀ i, i < min 4 (A.length - 1) → ¬ tagOf ((A.getD 0 0 + H.getD 0 0) % modP) (st.alphas.getD i 0)
          ≠ (A.getD (i + 1) 0 + H.getD (i + 1) 0) % modP
      then (if A.length < 5 then crash "index out of range" else ok ((A.getD 0 0 + H.getD 0 0) % modP)) else err "REJECT" := by
    cases first with
    | true => exact reconstruct_length hst (fun h => h10 ⟨rfl, h⟩) (Or.inr ⟨hH.ge, rfl⟩)
    | false =>
      have := reconstruct_length hst (a0 := H) (a1 := A) (by omega) (Or.inl ⟨hH.ge, rfl⟩)
      simp only [BitVec.add_comm (H.getD _ _)] at this
      exact this
  rw [hrec]
  by_cases h1 : A.length ≤ 1
  · rw [if_pos (Or.inr h1)]
    by_cases h0 : A.length = 0
    · rw [if_pos h0]
      rfl
    · rw [if_neg h0, if_pos (fun i hi => by omega), if_pos (by omega)]
      rfl
  have hn : ¬ ((first = true ∧ A.length = 10) ∨ A.length ≤ 1) := fun h => h.elim h10 h1
  rw [if_neg hn, if_neg (by omega : ¬ A.length = 0)]
  obtain ⟨o1, o2⟩ := reconstruct_count_ok (Or.inl hO) hon
  have sO' : ∀ j, j < 5 → (O.getD j 0).toNat ≤ 2 ^ 32 - p := by
    intro j hj
    have := sO j hj
    rw [p_val] at *
    omega
  by_cases hl : StartsLike O A
  · rw [if_neg (not_not.2 hl)]
    have hs : ∀ j, j < 5 → j < A.length → (A.getD j 0 + H.getD j 0) % modP = (O.getD j 0 + H.getD j 0) % modP := by
      intro j hj hj'
      apply BitVec.eq_of_toNat_eq
      rw [sum_small (sA j hj) (sH j hj), sum_small (sO' j hj) (sH j hj), Nat.add_mod, ← hl j hj hj', ← Nat.add_mod]
    rw [if_pos (c := ∀ i, _)]
    · split <;> rfl
    · intro i hi
      rw [not_not, hs 0 (by omega) (by omega), hs (i + 1) (by omega) (by omega), ← o1]
      exact o2 i (by omega)
  · rw [if_pos hl, if_neg (c := ∀ i, _)]
    · rfl
    · intro hc
      apply hl
      have e0 : (A.getD 0 0 + H.getD 0 0) % modP = r := hno (not_not.1 (hc 0 (by omega)))
      intro j hj hj'
      have hs : (A.getD j 0 + H.getD j 0) % modP = (O.getD j 0 + H.getD j 0) % modP := by
        cases j with
        | zero => rw [e0, o1]
        | succ i => rw [← o2 i (by omega), ← not_not.1 (hc i (by omega)), e0]
      have := congrArg BitVec.toNat hs
      rw [sum_small (sA j hj) (sH j hj), sum_small (sO' j hj) (sH j hj)] at this
      exact (Nat.ModEq.add_right_cancel' _ this).symm

/-! ### How many MAC keys allow a forgery of the first tag -/

theorem first_cast {β : Fin 3 → Fin p} {α : Fin p} {A H : List U32}
    (h : tagOf ((A.getD 0 0 + H.getD 0 0) % modP) ((clientState β α).alphas.getD 0 0) = (A.getD 1 0 + H.getD 1 0) % modP) :
    (dataOf A H : ZMod p) * (β 0).1 = (((A.getD 1 0 + H.getD 1 0) % modP).toNat : ZMod p) := by
  have e := congrArg BitVec.toNat h
  have h1 := sum_lt (A.getD 0 0) (H.getD 0 0)
  have h2 := p_lt
  have h3 := (β 0).2
  have ha : (clientState β α).alphas.getD 0 0 = BitVec.ofNat 32 (β 0).1 := alphas_mac β α 0
  rw [ha, tagOf_toNat (by omega) (by rw [mac_toNat]; omega), mac_toNat] at e
  rw [← e, cast_mod]
  unfold dataOf
  push_cast
  rfl

/-- The part of a forgery that determines the first MAC key. -/
def firstCode (S : Setting) (A : List U32) (k : Key) (β : Fin 3 → Fin p) (α : Fin p) (pat : Fin 4 → Bool) : Bool × Option Bool :=
  (pat 0, if pat 1 then none
    else some (decide (2 ^ 32 ≤ (A.getD 1 0).toNat + ((simAnswer S k β α pat).getD 1 0).toNat)))

theorem firstCode_inj {S : Setting} {A : List U32} {k : Key} {α : Fin p} {β β' : Fin 3 → Fin p} {pat pat' : Fin 4 → Bool}
    (hk : ∀ j, (k.finalCW.getD j 0).toNat ≤ p) (ht : Bit (endOf S.E k S.a).2)
    (h1 : ∀ j : Fin 4, pat j → otherVal S k ((vals (shared β) α).getD j.1 0) j.1 = S.e.toNat)
    (h1' : ∀ j : Fin 4, pat' j → otherVal S k ((vals (shared β') α).getD j.1 0) j.1 = S.e.toNat)
    (h2 : tagOf ((A.getD 0 0 + (simAnswer S k β α pat).getD 0 0) % modP) ((clientState β α).alphas.getD 0 0)
      = (A.getD 1 0 + (simAnswer S k β α pat).getD 1 0) % modP)
    (h2' : tagOf ((A.getD 0 0 + (simAnswer S k β' α pat').getD 0 0) % modP) ((clientState β' α).alphas.getD 0 0)
      = (A.getD 1 0 + (simAnswer S k β' α pat').getD 1 0) % modP)
    (h3 : Wrong S (dataOf A (simAnswer S k β α pat)))
    (hc : firstCode S A k β α pat = firstCode S A k β' α pat') : β 0 = β' 0 := by
  have hp0 : pat 0 = pat' 0 := congrArg Prod.fst hc
  have hcode := congrArg Prod.snd hc
  have hd : dataOf A (simAnswer S k β α pat) = dataOf A (simAnswer S k β' α pat') := by
    unfold dataOf
    rw [simAnswer_getD _ _ _ _ _ (by norm_num), simAnswer_getD _ _ _ _ _ (by norm_num), vals_first, vals_first,
      simWord_congr (b := 1) (b' := 1) (pat := pat) (pat' := pat') (by norm_num) hp0 (Or.inl rfl)]
  have t1 := first_cast h2
  have t2 := first_cast h2'
  apply Fin.ext
  apply eq_of_cast (β 0).2 (β' 0).2
  simp only [firstCode] at hcode
  have vm : ∀ b : Fin 3 → Fin p, (vals (shared b) α).getD 1 0 = BitVec.ofNat 32 (b 0).1 := fun b => vals_mac b α 0
  by_cases hp : pat 1 = true
  · rw [if_pos hp] at hcode
    have hp' : pat' 1 = true := by
      by_contra hn
      rw [if_neg hn] at hcode
      cases hcode
    have v1 := h1 1 hp
    have v2 := h1' 1 hp'
    rw [← v2] at v1
    rw [show (1 : Fin 4).1 = 1 from rfl, vm, vm] at v1
    unfold otherVal at v1
    rw [mac_toNat, mac_toNat] at v1
    cases hS : S.second
    · simp only [hS, Bool.false_eq_true, if_false] at v1
      linear_combination -v1
    · simp only [hS, if_true] at v1
      linear_combination v1
  · rw [if_neg hp] at hcode
    have hp' : ¬ pat' 1 = true := by
      intro hn
      rw [if_pos hn] at hcode
      cases hcode
    rw [if_neg hp'] at hcode
    have hw := Option.some.inj hcode
    rw [sum_cast] at t1 t2
    have hw' : (2 ^ 32 ≤ (A.getD 1 0).toNat + ((simAnswer S k β α pat).getD 1 0).toNat)
        ↔ (2 ^ 32 ≤ (A.getD 1 0).toNat + ((simAnswer S k β' α pat').getD 1 0).toNat) := by
      rwa [decide_eq_decide] at hw
    have f1 := simWord_affine hk ht (BitVec.ofNat 32 (β 0).1) (pat := pat) (j := 1)
      (fun h => by have : pat 1 = false := by simpa using hp
                   exact this)
    have f2 := simWord_affine hk ht (BitVec.ofNat 32 (β' 0).1) (pat := pat') (j := 1)
      (fun h => by have : pat' 1 = false := by simpa using hp'
                   exact this)
    rw [← vm β, ← simAnswer_getD _ _ _ _ _ (by norm_num), vm, mac_toNat] at f1
    rw [← vm β', ← simAnswer_getD _ _ _ _ _ (by norm_num), vm, mac_toNat] at f2
    rw [f1] at t1
    rw [f2, ← hd] at t2
    simp only [hw'] at t1
    have hne : ((dataOf A (simAnswer S k β α pat) : ZMod p) - S.sign * S.total) ≠ 0 := sub_ne_zero.2 h3
    apply mul_left_cancel₀ hne
    linear_combination t1 - t2

theorem first_card (S : Setting) (A : List U32) (k : Key) (α : Fin p) (s : Finset (Fin 3 → Fin p))
    (hs : ∀ β ∈ s, FirstForgeable S A k β α) : s.card ≤ 6 * p ^ 2 := by
  have hex : ∀ β : s, ∃ pat : Fin 4 → Bool,
      (∀ j : Fin 4, pat j → otherVal S k ((vals (shared β.1) α).getD j.1 0) j.1 = S.e.toNat) ∧
      tagOf ((A.getD 0 0 + (simAnswer S k β.1 α pat).getD 0 0) % modP) ((clientState β.1 α).alphas.getD 0 0)
        = (A.getD 1 0 + (simAnswer S k β.1 α pat).getD 1 0) % modP ∧
      Wrong S (dataOf A (simAnswer S k β.1 α pat)) :=
    fun β => (hs β.1 β.2).2.2
  choose pat hpat using hex
  have hinj : Function.Injective (fun β : s => (firstCode S A k β.1 α (pat β), β.1 1, β.1 2)) := by
    intro β β' h
    have hf := hs β.1 β.2
    simp only [Prod.mk.injEq] at h
    obtain ⟨hc, e1, e2⟩ := h
    have e0 := firstCode_inj hf.1 hf.2.1 (hpat β).1 (hpat β').1 (hpat β).2.1 (hpat β').2.1 (hpat β).2.2 hc
    apply Subtype.ext
    funext i
    fin_cases i
    exacts [e0, e1, e2]
  have := Fintype.card_le_of_injective _ hinj
  rw [Fintype.card_coe] at this
  refine this.trans (le_of_eq ?_)
  simp only [Fintype.card_prod, Fintype.card_bool, Fintype.card_option, Fintype.card_fin]
  ring

theorem firstTest_nonneg (S : Setting) (A : Key → List U32) (k : Res Key) (β : Fin 3 → Fin p) (α : Fin p) :
    0 ≤ firstTest S A k β α := by
  unfold firstTest
  split
  · split <;> norm_num
  · norm_num

theorem firstTest_avg (S : Setting) (A : Key → List U32) (k : Key) (α : Fin p) :
    avg (fun β => firstTest S A (ok k) β α) ≤ 6 / (p : ℚ) := by
  classical
  have h := first_card S (A k) k α (Finset.univ.filter (fun β => FirstForgeable S (A k) k β α))
    (fun β hβ => (Finset.mem_filter.1 hβ).2)
  have hp : (0 : ℚ) < p := by exact_mod_cast p_pos
  unfold avg firstTest
  simp only [Fintype.card_fun, Fintype.card_fin]
  rw [Nat.cast_pow, div_le_div_iff₀ (by positivity) hp]
  rw [Finset.sum_ite, Finset.sum_const_zero, add_zero, Finset.sum_const, nsmul_eq_mul, mul_one]
  have h' : ((Finset.univ.filter (fun β => FirstForgeable S (A k) k β α)).card : ℚ) ≤ 6 * (p : ℚ) ^ 2 := by exact_mod_cast h
  calc _ ≤ 6 * (p : ℚ) ^ 2 * p := by
        refine mul_le_mul_of_nonneg_right (le_trans (le_of_eq ?_) h') hp.le
        congr
    _ = _ := by ring

/-- When the first tag fits a wrong number, key and MAC keys are such that this is possible. -/
theorem firstForgeable_of {S : Setting} {β : Fin 3 → Fin p} {α : Fin p} {km kh : Key}
    (T : Twins S.E S.e S.second S.a (vals (shared β) α) km kh)
    (hr : ∀ r ∈ S.recs, r.id.length = S.a.length) {A H : List U32} (hl : H.length = 5)
    (hH : ∀ j, j < 5 → (H.getD j 0).toNat = realSum S.E S.sn kh S.recs j)
    (ht : tagOf ((A.getD 0 0 + H.getD 0 0) % modP) ((clientState β α).alphas.getD 0 0) = (A.getD 1 0 + H.getD 1 0) % modP)
    (hw : Wrong S (dataOf A H)) : FirstForgeable S A km β α := by
  have e := sim_answer T hr hl hH
  subst e
  exact ⟨T.le, T.bit, _, sim_allowed T, ht, hw⟩

end Verif.Forge
