import Verif.Lemmas.PredicateRun

/-! # C05 (predicate part), C23: reconstruction of predicate queries -/

namespace Verif.Predicate
open Res Verif.Field Verif.Field.Spec Verif.Fss Verif.Fss.Spec Verif.Query Verif.Rand Verif.Predicate.Spec
/-! ### C05: order of the answers -/

/-- C05 (predicate part): for answers of the same length the result does not depend on the order in which the two
answers arrive. Missing: answers of different lengths, see `C05_predicate_order_matters`. -/
theorem C05_predicate_order_partial (ex : Nat) (st : State) (a0 a1 : List U32) (h : a0.length = a1.length) :
    reconstruct ex st [a0, a1] = reconstruct ex st [a1, a0] := by
  have hcomm : ∀ (x y : U32), (x + y) % modP = (y + x) % modP := fun x y => by rw [BitVec.add_comm]
  unfold reconstruct
  rw [idx_cons_zero, idx_cons_zero, show idx [a0, a1] 1 = ok a1 from rfl, show idx [a1, a0] 1 = ok a0 from rfl]
  simp only [ok_bind]
  rw [← h]
  by_cases hl : a0.length = 2 * ex
  · rw [if_pos hl, if_pos hl]
    have hl1 : a1.length = 2 * ex := by omega
    rw [slice_of_le (l := a0) (by omega) (by omega), slice_of_le (l := a1) (by omega) (by omega)]
    rw [slice_of_le (l := a0) (by omega) (by omega), slice_of_le (l := a1) (by omega) (by omega)]
    simp only [ok_bind]
    generalize hA : (a0.drop 0).take (ex - 0) = A
    generalize hB : (a1.drop 0).take (ex - 0) = B
    generalize hC : (a0.drop ex).take (a0.length - ex) = C
    generalize hD : (a1.drop ex).take (a0.length - ex) = D
    have lA : A.length = ex := by rw [← hA]; simp; omega
    have lB : B.length = ex := by rw [← hB]; simp; omega
    have lC : C.length = ex := by rw [← hC]; simp; omega
    have lD : D.length = ex := by rw [← hD]; simp; omega
    by_cases hex : ex = 0
    · rw [idx_of_ge (l := A) (by omega), idx_of_ge (l := B) (by omega)]
      rfl
    rw [idx_getD (l := A) 0 (by omega), idx_getD (l := B) 0 (by omega), idx_getD (l := C) 0 (by omega),
      idx_getD (l := D) 0 (by omega)]
    simp only [ok_bind]
    rw [hcomm (A.getD 0 0), hcomm (C.getD 0 0)]
    congr 1
    apply forLoop_congr
    intro j u hj
    cases idx st.alphas j with
    | err m => rfl
    | crash m => rfl
    | ok α =>
      simp only [ok_bind]
      rw [idx_getD (l := A) 0 (by omega), idx_getD (l := B) 0 (by omega), idx_getD (l := C) 0 (by omega),
        idx_getD (l := D) 0 (by omega)]
      simp only [ok_bind]
      rw [hcomm (A.getD (j + 1) 0), hcomm (C.getD (j + 1) 0)]
  · rw [if_neg hl, if_neg hl]
    by_cases h0 : a0.length = 0
    · rw [idx_of_ge (l := a0) (by omega), idx_of_ge (l := a1) (by omega)]
      rfl
    rw [idx_getD (l := a0) 0 (by omega), idx_getD (l := a1) 0 (by omega)]
    simp only [ok_bind]
    rw [hcomm (a0.getD 0 0)]
    congr 1
    apply forLoop_congr
    intro j u hj
    cases idx st.alphas j with
    | err m => rfl
    | crash m => rfl
    | ok α =>
      simp only [ok_bind]
      by_cases hj1 : j + 1 < a0.length
      · rw [idx_getD (l := a0) 0 (by omega), idx_getD (l := a1) 0 (by omega)]
        simp only [ok_bind]
        rw [hcomm (a0.getD (j + 1) 0)]
      · rw [idx_of_ge (l := a0) (by omega), idx_of_ge (l := a1) (by omega)]

/-- C05: with answers of different lengths (one server misbehaves) the order decides between a result and a
panic. -/
theorem C05_predicate_order_matters : ∃ (st : State) (a0 a1 : List U32) (r : U32),
    reconstruct 1 st [a0, a1] = ok r ∧ (reconstruct 1 st [a1, a0]).isCrash := by
  refine ⟨⟨[0], [1]⟩, [3], [5, 6], 8, by decide, ?_⟩
  have : reconstruct 1 ⟨[0], [1]⟩ [[5, 6], [3]] = crash "index out of range" := by decide
  rw [this]
  simp

/-- C05 as claimed, for the predicate clients: the result is the same for every order of the answers. -/
def C05_Statement : Prop :=
  ∀ (ex : Nat) (st : State) (answers answers' : List (List U32)), answers.Perm answers' →
    reconstruct ex st answers = reconstruct ex st answers'

/-- C05 as claimed is false. -/
theorem C05_refuted : ¬ C05_Statement := by
  intro h
  obtain ⟨st, a0, a1, r, h1, h2⟩ := C05_predicate_order_matters
  have := h 1 st [a0, a1] [a1, a0] (List.Perm.swap _ _ _)
  rw [← this, h1] at h2
  simp at h2

/-- C05: with more than two servers only the two answers that arrive first count, so that the order decides about the
result even if all the answers have the right length. -/
theorem C05_only_first_two (ex : Nat) (st : State) (a0 a1 : List U32) (others : List (List U32)) :
    reconstruct ex st (a0 :: a1 :: others) = reconstruct ex st [a0, a1] := rfl

/-- Three answers of the same length whose order decides about the result. -/
example : reconstruct 1 ⟨[0], []⟩ [[3], [5], [6]] = ok 8 ∧ reconstruct 1 ⟨[0], []⟩ [[3], [6], [5]] = ok 9 := by
  decide

/-! ### C23: integrity -/

/-- The value the client should see in component `j` when the data value is `D`: `D` itself, then its products with
the MAC keys. -/
def honest (D : Nat) (αs : List U32) (j : Nat) : Nat := D * ((1 :: αs).getD j 0).toNat

/-- The client holding MAC keys `αs` accepts some pair of answers in which component `j` deviates by `δ j` from the
honest value, and returns `r`. -/
def AcceptsDeviation (ex D : Nat) (δ : Nat → Nat) (αs : List U32) (r : Nat) : Prop :=
  ∃ (st : State) (a0 a1 : List U32) (v : U32), st.alphas = αs ++ [0] ∧ a0.length = ex ∧ a1.length = ex ∧
    (∀ j, j < ex → observed a0 a1 j = (honest D αs j + δ j) % p) ∧
    reconstruct ex st [a0, a1] = ok v ∧ v.toNat = r

theorem accepts_iff {ex D r : Nat} {δ : Nat → Nat} {αs : List U32} (hex : 0 < ex) (hl : αs.length = ex - 1)
    (hc : ∀ v ∈ αs, Canonical v) (h : AcceptsDeviation ex D δ αs r) :
    r = (D + δ 0) % p ∧ ∀ i, i < ex - 1 → (δ 0 * (αs.getD i 0).toNat) % p = δ (i + 1) % p := by
  obtain ⟨st, a0, a1, v, hst, h0, h1, hobs, hr, hv⟩ := h
  have hp31 : p < 2 ^ 31 := by norm_num [p]
  have hp : 0 < p := by norm_num [p]
  rw [reconstruct_count_eq hex (by rw [hst]; simp; omega) h0 h1] at hr
  split at hr
  · rename_i hall
    simp only [ok.injEq] at hr
    have hr0 : r = (D + δ 0) % p := by
      rw [← hv, ← hr]
      have := hobs 0 hex
      unfold observed honest at this
      rw [this]
      simp
    refine ⟨hr0, ?_⟩
    intro i hi
    have h1 := hall i hi
    rw [not_not] at h1
    have hα : st.alphas.getD i 0 = αs.getD i 0 := by
      rw [hst, List.getD_eq_getElem?_getD, List.getD_eq_getElem?_getD, List.getElem?_append_left (by omega)]
    have hcan : (αs.getD i 0).toNat < 2 ^ 31 := by
      have : Canonical (αs.getD i 0) := by
        rw [getD_of_lt _ (by omega)]
        exact hc _ (List.getElem_mem _)
      unfold Canonical at this
      omega
    have hd : ((a0.getD 0 0 + a1.getD 0 0) % modP).toNat = r := by rw [hr, hv]
    have h2 := congrArg BitVec.toNat h1
    have hrlt : r < 2 ^ 31 := by
      rw [hr0]
      have := Nat.mod_lt (D + δ 0) hp
      omega
    rw [hα, tagOf_toNat (by rw [hd]; exact hrlt) hcan, hd] at h2
    have h3 := hobs (i + 1) (by omega)
    unfold observed honest at h3
    rw [h3] at h2
    simp only [List.getD_cons_succ] at h2
    rw [hr0, Nat.mod_mul_mod, Nat.add_mul] at h2
    exact Nat.ModEq.add_left_cancel' (D * (αs.getD i 0).toNat) h2
  · simp at hr

theorem mul_left_cancel_mod {a b c : Nat} (ha : a % p ≠ 0) (hb : b < p) (hc : c < p) (h : (a * b) % p = (a * c) % p) :
    b = c := by
  have hcop : Nat.Coprime p a := by
    rw [Nat.Prime.coprime_iff_not_dvd p_prime]
    intro hd
    exact ha (Nat.mod_eq_zero_of_dvd hd)
  have : b ≡ c [MOD p] := Nat.ModEq.cancel_left_of_coprime (by simpa using hcop) h
  exact Nat.ModEq.eq_of_lt_of_lt this hb hc

/-- C23: a deviation that does not change the data component leaves the result unchanged (if it is accepted). -/
theorem C23_accepted_is_honest_or_deviated (ex D r : Nat) (δ : Nat → Nat) (αs : List U32) (hex : 0 < ex)
    (hl : αs.length = ex - 1) (hc : ∀ v ∈ αs, Canonical v) (h0 : δ 0 % p = 0)
    (h : AcceptsDeviation ex D δ αs r) : r = D % p := by
  rw [(accepts_iff hex hl hc h).1, Nat.add_mod, h0]
  simp

/-- C23: a deviation that changes the result is accepted for at most one vector of MAC keys. With four keys this is
one out of (2^31 - 1)^4. -/
theorem C23_at_most_one_key_vector (ex D r r' : Nat) (δ : Nat → Nat) (αs βs : List U32) (hex : 0 < ex)
    (hl : αs.length = ex - 1) (hl' : βs.length = ex - 1) (hc : ∀ v ∈ αs, Canonical v)
    (hc' : ∀ v ∈ βs, Canonical v) (h0 : δ 0 % p ≠ 0)
    (h : AcceptsDeviation ex D δ αs r) (h' : AcceptsDeviation ex D δ βs r') : αs = βs := by
  have e := (accepts_iff hex hl hc h).2
  have e' := (accepts_iff hex hl' hc' h').2
  apply List.ext_getElem (by omega)
  intro i hi hi'
  have h1 := (e i (by omega)).trans (e' i (by omega)).symm
  have c1 := hc _ (List.getElem_mem hi)
  have c2 := hc' _ (List.getElem_mem hi')
  rw [getD_of_lt _ hi, getD_of_lt _ hi'] at h1
  exact BitVec.eq_of_toNat_eq (mul_left_cancel_mod h0 c1 c2 h1)

/-- The deviation `δ` with `δ 0 = 1` and `δ (i + 1)` the MAC keys is accepted, and gives a wrong result: the bound
of one key vector is attained, and the hypotheses of the theorem are satisfiable. -/
example : AcceptsDeviation 3 5 (fun j => [1, 7, 9].getD j 0) [7, 9] 6 := by
  refine ⟨⟨[7, 9, 0], [1, 7, 9]⟩, [6, 42, 54], [0, 0, 0], 6, rfl, rfl, rfl, ?_, ?_, rfl⟩
  · decide +kernel
  · decide +kernel

/-- The client holding MAC keys `αs` accepts some pair of answers to an average query in which the count and sum
components deviate by `δ` and `ε`; the result is the quotient of `s` and `c`. -/
def AcceptsAvgDeviation (ex C S : Nat) (δ ε : Nat → Nat) (αs : List U32) (v : U32) : Prop :=
  ∃ (st : State) (c0 s0 c1 s1 : List U32), st.alphas = αs ++ [0] ∧ c0.length = ex ∧ c1.length = ex ∧
    s0.length = ex ∧ s1.length = ex ∧
    (∀ j, j < ex → observed c0 c1 j = (honest C αs j + δ j) % p) ∧
    (∀ j, j < ex → observed s0 s1 j = (honest S αs j + ε j) % p) ∧
    reconstruct ex st [c0 ++ s0, c1 ++ s1] = ok v

theorem accepts_avg_iff {ex C S : Nat} {v : U32} {δ ε : Nat → Nat} {αs : List U32} (hex : 0 < ex)
    (hl : αs.length = ex - 1) (hc : ∀ v ∈ αs, Canonical v) (h : AcceptsAvgDeviation ex C S δ ε αs v) :
    v.toNat = ((S + ε 0) % p) / ((C + δ 0) % p) ∧
    (∀ i, i < ex - 1 → (δ 0 * (αs.getD i 0).toNat) % p = δ (i + 1) % p) ∧
    (∀ i, i < ex - 1 → (ε 0 * (αs.getD i 0).toNat) % p = ε (i + 1) % p) := by
  obtain ⟨st, c0, s0, c1, s1, hst, l0, l1, l2, l3, hobs, hobs', hr⟩ := h
  have hp31 : p < 2 ^ 31 := by norm_num [p]
  have hp : 0 < p := by norm_num [p]
  rw [reconstruct_avg hex (by rw [hst]; simp; omega) l0 l1 l2 l3] at hr
  rw [bind_eq_ok] at hr
  obtain ⟨⟨⟩, hloop, hdiv⟩ := hr
  have hall := check_loop_ok _ _ _ hloop
  have h0c := hobs 0 hex
  have h0s := hobs' 0 hex
  unfold observed honest at h0c h0s
  simp only [List.getD_cons_zero] at h0c h0s
  rw [show (1 : U32).toNat = 1 from rfl, mul_one] at h0c h0s
  have hltc : (C + δ 0) % p < 2 ^ 31 := by have := Nat.mod_lt (C + δ 0) hp; omega
  have hlts : (S + ε 0) % p < 2 ^ 31 := by have := Nat.mod_lt (S + ε 0) hp; omega
  refine ⟨?_, ?_, ?_⟩
  · unfold divU32 at hdiv
    split at hdiv
    · simp at hdiv
    · simp only [ok.injEq] at hdiv
      rw [← hdiv, BitVec.toNat_udiv, h0c, h0s]
  all_goals
    intro i hi
    have hα : st.alphas.getD i 0 = αs.getD i 0 := by
      rw [hst, List.getD_eq_getElem?_getD, List.getD_eq_getElem?_getD, List.getElem?_append_left (by omega)]
    have hcan : (αs.getD i 0).toNat < 2 ^ 31 := by
      have : Canonical (αs.getD i 0) := by
        rw [getD_of_lt _ (by omega)]
        exact hc _ (List.getElem_mem _)
      unfold Canonical at this
      omega
    have h1 := hall i hi
    rw [hα] at h1
    split at h1
    · simp at h1
    rename_i hcount
    split at h1
    · simp at h1
    rename_i hsum
    rw [not_not] at hcount hsum
  · have h2 := congrArg BitVec.toNat hcount
    have h3 := hobs (i + 1) (by omega)
    unfold observed honest at h3
    rw [tagOf_toNat (by rw [h0c]; exact hltc) hcan, h0c, h3] at h2
    simp only [List.getD_cons_succ] at h2
    rw [Nat.mod_mul_mod, Nat.add_mul] at h2
    exact Nat.ModEq.add_left_cancel' (C * (αs.getD i 0).toNat) h2
  · have h2 := congrArg BitVec.toNat hsum
    have h3 := hobs' (i + 1) (by omega)
    unfold observed honest at h3
    rw [tagOf_toNat (by rw [h0s]; exact hlts) hcan, h0s, h3] at h2
    simp only [List.getD_cons_succ] at h2
    rw [Nat.mod_mul_mod, Nat.add_mul] at h2
    exact Nat.ModEq.add_left_cancel' (S * (αs.getD i 0).toNat) h2

/-- C23 for averages: a deviation that changes the count or the sum is accepted for at most one vector of MAC
keys. -/
theorem C23_average_at_most_one_key_vector (ex C S : Nat) (v v' : U32) (δ ε : Nat → Nat) (αs βs : List U32)
    (hex : 0 < ex) (hl : αs.length = ex - 1) (hl' : βs.length = ex - 1) (hc : ∀ v ∈ αs, Canonical v)
    (hc' : ∀ v ∈ βs, Canonical v) (h0 : δ 0 % p ≠ 0 ∨ ε 0 % p ≠ 0)
    (h : AcceptsAvgDeviation ex C S δ ε αs v) (h' : AcceptsAvgDeviation ex C S δ ε βs v') : αs = βs := by
  obtain ⟨-, ec, es⟩ := accepts_avg_iff hex hl hc h
  obtain ⟨-, ec', es'⟩ := accepts_avg_iff hex hl' hc' h'
  apply List.ext_getElem (by omega)
  intro i hi hi'
  have c1 := hc _ (List.getElem_mem hi)
  have c2 := hc' _ (List.getElem_mem hi')
  have h1 := (ec i (by omega)).trans (ec' i (by omega)).symm
  have h2 := (es i (by omega)).trans (es' i (by omega)).symm
  rw [getD_of_lt _ hi, getD_of_lt _ hi'] at h1 h2
  rcases h0 with h0 | h0
  · exact BitVec.eq_of_toNat_eq (mul_left_cancel_mod h0 c1 c2 h1)
  · exact BitVec.eq_of_toNat_eq (mul_left_cancel_mod h0 c1 c2 h2)

/-- C23 for averages: an accepted answer whose count and sum are not changed gives the honest quotient. -/
theorem C23_average_accepted_is_honest (ex C S : Nat) (v : U32) (δ ε : Nat → Nat) (αs : List U32)
    (hex : 0 < ex) (hl : αs.length = ex - 1) (hc : ∀ v ∈ αs, Canonical v)
    (h0 : δ 0 % p = 0) (h1 : ε 0 % p = 0) (h : AcceptsAvgDeviation ex C S δ ε αs v) :
    v.toNat = (S % p) / (C % p) := by
  rw [(accepts_avg_iff hex hl hc h).1, Nat.add_mod, h1, Nat.add_mod C, h0]
  simp

example : AcceptsAvgDeviation 2 5 20 (fun j => [1, 7].getD j 0) (fun j => [4, 28].getD j 0) [7] 4 := by
  refine ⟨⟨[7, 0], [1, 7]⟩, [6, 42], [24, 168], [0, 0], [0, 0], rfl, rfl, rfl, rfl, rfl, ?_, ?_, ?_⟩
  · decide +kernel
  · decide +kernel
  · decide +kernel

end Verif.Predicate
