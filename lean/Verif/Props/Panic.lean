import Verif.Lemmas.Panic

/-! # C131: what the clients make of any answers -/

namespace Verif.Panic
open Res Verif.Field Verif.Field.Spec Verif.Predicate Verif.Database Verif.Point Verif.MerklePir Verif.Panic.Spec

open Classical in
/-- **C131**, unauthenticated lookups: for every list of answers the client panics exactly if one of them ends before the
requested block does, and otherwise returns the blocks added up. -/
theorem C131_point (H : List Byte → List Byte) (info : Info) (htype : info.pirType = "classical" ∨ info.pirType = "")
    (ix : Nat) (iy : Int) (answers : List (List Byte)) :
    reconstructPIR H answers info ⟨ix, iy⟩ =
      if SomeTooShort info.blockSize ix answers then crash "slice bounds out of range"
      else ok (combined info.blockSize ix answers) := by
  unfold reconstructPIR
  rw [if_pos htype, value_eq]

/-- Two answers of two blocks of two bytes, the second block is asked for. -/
example : ¬ SomeTooShort 2 1 [[1, 2, 3, 4], [0, 0, 1, 1]] ∧ combined 2 1 [[1, 2, 3, 4], [0, 0, 1, 1]] = [2, 5] :=
  ⟨by simp [SomeTooShort], by decide⟩
example : SomeTooShort 2 1 [[1, 2, 3, 4], [0, 0, 1]] := ⟨[0, 0, 1], by simp, by decide⟩

/-- **C131**, authenticated lookups: for every list of answers and every hash function the client panics exactly if one of the
answers ends before the requested block does, or no record with a proof can be read from the blocks added up. -/
theorem C131_authenticated (H : List Byte → List Byte) (info : Info) (htype : info.pirType = "merkle")
    (ix : Nat) (iy : Int) (answers : List (List Byte)) :
    (reconstructPIR H answers info ⟨ix, iy⟩).isCrash ↔
      SomeTooShort info.blockSize ix answers ∨ ¬ Readable info.proofLen (combined info.blockSize ix answers) := by
  classical
  unfold reconstructPIR
  rw [if_neg (by rw [htype]; decide), if_pos htype, value_eq]
  by_cases h : SomeTooShort info.blockSize ix answers
  · simp [h]
  · rw [if_neg h, ok_bind, block_crash]
    simp [h]

/-- **C131**, authenticated lookups: what is returned are the bytes before the proof, and the hash function decides about nothing
but whether they are returned or rejected. -/
theorem C131_authenticated_value (H : List Byte → List Byte) (info : Info) (htype : info.pirType = "merkle")
    (ix : Nat) (iy : Int) (answers : List (List Byte)) (d : List Byte)
    (h : reconstructPIR H answers info ⟨ix, iy⟩ = ok d) :
    ∃ (body : List Byte) (last : Byte) (zeros : Nat),
      combined info.blockSize ix answers = body ++ last :: List.replicate zeros 0 ∧ last ≠ 0 ∧
      d = body.take (body.length - info.proofLen) := by
  classical
  have hnc : ¬ (reconstructPIR H answers info ⟨ix, iy⟩).isCrash := by rw [h]; simp
  rw [C131_authenticated H info htype] at hnc
  push Not at hnc
  obtain ⟨hs, body, last, zeros, hb, hl, -⟩ := hnc
  refine ⟨body, last, zeros, hb, hl, ?_⟩
  unfold reconstructPIR at h
  rw [if_neg (by rw [htype]; decide), if_pos htype, value_eq, if_neg hs, ok_bind] at h
  unfold checkBlock at h
  rw [hb, unPad_shape body hl zeros, ok_bind] at h
  split at h
  · simp at h
  · simp only [bind_eq_ok] at h
    obtain ⟨_, -, v, -, h⟩ := h
    cases v
    · simp at h
    · simp only [if_true, ok.injEq] at h
      exact h.symm

/-- A record of one byte, a proof without hashes for position 7 and padding. -/
example : Readable 8 [42, 0, 0, 0, 0, 7, 0, 0, 0, 0x80, 0, 0] :=
  ⟨[42, 0, 0, 0, 0, 7, 0, 0, 0], 0x80, 2, by decide, by decide, by decide, by decide, by decide, by decide⟩
/-- The same proof announcing two hashes: they do not fit. -/
example : ¬ Readable 8 [42, 2, 0, 0, 0, 7, 0, 0, 0, 0x80, 0, 0] := by
  rintro ⟨body, last, zeros, hb, hl, -, -, -, hfit⟩
  have : body = [42, 2, 0, 0, 0, 7, 0, 0, 0] :=
    shape_unique (n := zeros) (n' := 2) (last' := 0x80) hl (by decide) (hb.symm.trans (by decide))
  subst this
  revert hfit
  decide

/-- **C131**, statistics: for every list of answers, the client panics exactly on those of the table. -/
theorem C131_statistics_panics (n : Nat) (hn : 0 < n) (st : Predicate.State) (hst : n ≤ st.alphas.length + 1)
    (answers : List (List Byte)) :
    (reconstructBytes n st answers).isCrash ↔ StatisticsPanics n st.alphas (answers.map wordsOf) := by
  unfold reconstructBytes
  rw [decoded, ok_bind]
  match answers.map wordsOf with
  | [] => simp [StatisticsPanics, reconstruct, idx]
  | [a0] =>
    simp only [StatisticsPanics, iff_true]
    unfold reconstruct
    rw [idx_cons_zero, idx_cons_succ]
    simp only [ok_bind]
    split
    · rw [slice_of_le (by omega) (by omega)]
      simp [idx]
    · rw [isCrash_bind]
      by_cases h : a0.length = 0
      · exact Or.inl (idx_crash.mpr (by omega))
      · exact Or.inr ⟨_, idx_of_lt (by omega), by simp [idx]⟩
  | a0 :: a1 :: rest =>
    simp only [StatisticsPanics]
    split
    · rename_i h; exact avg_panics hn hst h
    · rename_i h; exact count_panics hn hst h

/-- **C131**, statistics: for every list of answers, the client returns exactly the results of the table. -/
theorem C131_statistics_returns (n : Nat) (hn : 0 < n) (st : Predicate.State) (hst : n ≤ st.alphas.length + 1)
    (answers : List (List Byte)) (r : U32) :
    reconstructBytes n st answers = ok r ↔ StatisticsReturns n st.alphas r.toNat (answers.map wordsOf) := by
  have hp := C131_statistics_panics n hn st hst answers
  unfold reconstructBytes at hp ⊢
  rw [decoded, ok_bind] at hp ⊢
  match hw : answers.map wordsOf with
  | [] => simp [StatisticsReturns, reconstruct, idx]
  | [a0] =>
    rw [hw] at hp
    simp only [StatisticsPanics, iff_true] at hp
    simp only [StatisticsReturns, iff_false]
    intro h
    rw [h] at hp
    simp at hp
  | a0 :: a1 :: rest =>
    simp only [StatisticsReturns]
    split
    · rename_i h; exact avg_returns hn hst h r
    · rename_i h; exact count_returns hn hst h r

/-- **C131**, statistics: all the other answers are rejected. -/
theorem C131_statistics_rejects (n : Nat) (hn : 0 < n) (st : Predicate.State) (hst : n ≤ st.alphas.length + 1)
    (answers : List (List Byte)) :
    (reconstructBytes n st answers).isErr ↔ ¬ StatisticsPanics n st.alphas (answers.map wordsOf) ∧
      ∀ r < 2 ^ 32, ¬ StatisticsReturns n st.alphas r (answers.map wordsOf) := by
  have hp := C131_statistics_panics n hn st hst answers
  have hr := C131_statistics_returns n hn st hst answers
  cases h : reconstructBytes n st answers with
  | ok v =>
    simp only [isErr_ok, false_iff, not_and, not_forall, not_not]
    intro _
    exact ⟨v.toNat, v.isLt, (hr v).mp h⟩
  | err m =>
    simp only [isErr_err, true_iff]
    refine ⟨fun hc => ?_, fun r hlt hc => ?_⟩
    · have := hp.mpr hc
      rw [h] at this; simp at this
    · have := (hr (BitVec.ofNat 32 r)).mpr (by rwa [BitVec.toNat_ofNat, Nat.mod_eq_of_lt hlt])
      rw [h] at this; simp at this
  | crash m =>
    simp only [isErr_crash, false_iff, not_and, not_forall, not_not]
    intro hc
    exact absurd (hp.mp (by rw [h]; simp)) hc

/-- **C131**: an authenticated client that draws its keys has one factor for every tag, so that the table applies to every query
it makes. -/
theorem C131_applies (fuel ex : Nat) (hex : 0 < ex) (rnd rnd' : Rand.Prg) (st : Predicate.State)
    (h : drawKeys fuel ex rnd = ok (st, rnd')) :
    ex ≤ st.alphas.length + 1 := by
  obtain ⟨αs, hl, -, -, ha⟩ := drawKeys_spec hex h
  rw [ha, List.length_append, hl]
  simp only [List.length_singleton]
  omega

/-- Counts of two and one with one tag for the factor 5; a wrong tag; too few words. -/
example : StatisticsReturns 2 [5, 0] 3 [[2, 10], [1, 5]] ∧ ¬ StatisticsPanics 2 [5, 0] [[2, 10], [1, 6]] ∧
    StatisticsPanics 2 [5, 0] [[2, 10], [1]] := by
  refine ⟨?_, ?_, ?_⟩
  · simp only [StatisticsReturns, List.length_cons, List.length_nil]
    rw [if_neg (by decide)]
    refine ⟨by decide, by decide, fun i hi => ?_, by decide⟩
    obtain rfl : i = 0 := by omega
    unfold TagFits
    decide
  · simp [StatisticsPanics, CountPanics]
  · simp [StatisticsPanics, CountPanics]

/-- An average of 20 over 4: counts 3 and 1, sums 12 and 8, one tag each; nobody matches; the second answer lacks the sums. -/
example : StatisticsReturns 2 [5, 0] 5 [[3, 15, 12, 60], [1, 5, 8, 40]] ∧
    StatisticsPanics 2 [5, 0] [[3, 15, 12, 60], [2147483644, 2147483632, 8, 40]] ∧
    StatisticsPanics 2 [5, 0] [[3, 15, 12, 60], [1, 5]] := by
  refine ⟨?_, ?_, ?_⟩
  · simp only [StatisticsReturns, List.length_cons, List.length_nil]
    rw [if_pos (by decide)]
    refine ⟨by decide, fun i hi => ?_, by decide, by decide⟩
    obtain rfl : i = 0 := by omega
    unfold TagFits
    exact ⟨by decide, by decide⟩
  · simp only [StatisticsPanics, List.length_cons, List.length_nil]
    rw [if_pos (by decide)]
    refine Or.inr (Or.inr ⟨by decide, fun i hi => ?_, by decide⟩)
    obtain rfl : i = 0 := by omega
    unfold TagFits
    exact ⟨by decide, by decide⟩
  · simp only [StatisticsPanics, List.length_cons, List.length_nil]
    rw [if_pos (by decide)]
    exact Or.inl (by decide)

end Verif.Panic
