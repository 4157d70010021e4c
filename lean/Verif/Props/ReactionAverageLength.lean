import Verif.Lemmas.ReactionAverageLength
import Verif.Props.ReactionLength

/-! # C156: what a lying server of an average query learns from the client's reaction to answers of any length -/

namespace Verif.Forge
open Res Verif.Field Verif.Field.Spec Verif.Fss Verif.Fss.Spec Verif.Privacy Verif.Predicate Verif.Predicate.Spec
  Verif.Reaction Verif.Forge.Spec Verif.Chance Finset
set_option linter.constructorNameAsVariable false

/-- C156, simulation: a server that answers an average query with any number of words, none of the first ten above 2^32 minus the
modulus, can tell whether the client ends with a result, an error or a panic from its message and one bit of the database: whether
the number of keys is a multiple of the modulus. It compares the words that the client reads with those it was asked for, and takes
the number of words into account. The prediction fails at most with the probability that a first tag fits a wrong value or that a
derived value equals the modulus. -/
theorem C156_simulated (W : World) (db : KeyDB) (q : Query.ClientFSS) (mal inOrder : Bool) (e e' : U32) (fr fr' : Nat → U32)
    (F : Msg → Res (List Byte)) (D : Res Msg × Res Unit → ℚ) (hh : ∀ t, (W.hash t).length = 32) (hS : Setup W mal e fr)
    (hS' : Setup W (!mal) e' fr') (hdb : Loaded db) (i : Query.Info) (text : List Byte) (now : Int)
    (hq : AsksAvg W i text now db q) (hF : ∀ m b, F m = ok b → SmallTen b) (hD : IsTest D) :
    |viewAvgProb W db q inOrder mal F D - avg (fun β : Fin 3 → Fin p => viewMean W.env (mal == inOrder) q.input (shared β)
        (foreseeAvg W db i mal F ((averaged W.hash i text now db).length % p = 0) D))|
      ≤ firstEitherGap (settingOf W db q inOrder mal e fr (isAged (honestNow W mal)))
          (settingOf W db q inOrder mal e fr (ageOf (honestNow W mal))) (wordsOf q F) + 192 / (p : ℚ)
        + hitProb W db q := by
  obtain ⟨rfl, -, hsel, hlen, htot⟩ := asksAvg_selectors hh hdb hq
  have hnow : ∀ m j, honestNow W m j = now := by
    intro m j
    cases m
    · exact hq.clock1 j
    · exact hq.clock0 j
  have m := testMean_le hS db q inOrder (isAged (honestNow W mal))
    (firstEither (settingOf W db q inOrder mal e fr (isAged (honestNow W mal)))
      (settingOf W db q inOrder mal e fr (ageOf (honestNow W mal))) (wordsOf q F)) (firstEither_nonneg _ _ _)
      (firstEither_avg _ _ _)
  rw [show (16 : ℚ) * (12 / (p : ℚ)) = 192 / (p : ℚ) by ring] at m
  refine le_trans ?_ (add_le_add m (le_refl _))
  unfold hitProb
  rw [← runMean_add]
  apply runMean_switch
  intro β α s0 s1 tb
  have n0 := firstEither_nonneg (settingOf W db q inOrder mal e fr (isAged (honestNow W mal)))
    (settingOf W db q inOrder mal e fr (ageOf (honestNow W mal))) (wordsOf q F)
    (received W.env (mal == inOrder) q.input (shared β) s0 s1 tb α) β α
  by_cases hno : NoHits (drawn W β α s0 s1 tb) 5 db q
  · rw [if_pos hno, add_zero]
    have h := viewAvg_foreseen hS hS' hdb hq.avg hq.sum hq.and hnow hq.ages hsel hlen inOrder F hF hD β α s0 s1 tb hno
    rwa [htot] at h
  · rw [if_neg hno]
    exact abs_unit (hD _) (foreseeAvg_unit W db q.info mal F _ hD _) (le_add_of_nonneg_left n0)

/-- C156: one of the two servers answers an average query with any number of words, none of the first ten above 2^32 minus the
modulus, in whatever way these depend on its message, and notices how the client ends. Message and end look alike for two queries
with the same public part that are both about no keys or both about some (modulo the modulus), up to: the advantages of explicit
tests against the generator and the derivation of values, the probabilities that a derived value equals the modulus, 10/2^31 and 384
divided by the modulus. -/
theorem C156_reaction (W : World) (db : KeyDB) (q q' : Query.ClientFSS) (mal inOrder : Bool) (e e' : U32)
    (fr fr' : Nat → U32) (F : Msg → Res (List Byte)) (D : Res Msg × Res Unit → ℚ) (hh : ∀ t, (W.hash t).length = 32)
    (hS : Setup W mal e fr) (hS' : Setup W (!mal) e' fr') (hdb : Loaded db) (i : Query.Info) (text text' : List Byte) (now : Int)
    (hq : AsksAvg W i text now db q) (hq' : AsksAvg W i text' now db q') (hF : ∀ m b, F m = ok b → SmallTen b)
    (hD : IsTest D)
    (hz : (averaged W.hash i text now db).length % p = 0 ↔ (averaged W.hash i text' now db).length % p = 0) :
    |viewAvgProb W db q inOrder mal F D - viewAvgProb W db q' inOrder mal F D|
      ≤ keyGap W.env.E e (mal == inOrder) q.input
          (foreseeAvg W db i mal F ((averaged W.hash i text now db).length % p = 0) D)
        + keyGap W.env.E e (mal == inOrder) q'.input
          (foreseeAvg W db i mal F ((averaged W.hash i text now db).length % p = 0) D)
        + firstEitherGap (settingOf W db q inOrder mal e fr (isAged (honestNow W mal)))
          (settingOf W db q inOrder mal e fr (ageOf (honestNow W mal))) (wordsOf q F)
        + firstEitherGap (settingOf W db q' inOrder mal e fr (isAged (honestNow W mal)))
          (settingOf W db q' inOrder mal e fr (ageOf (honestNow W mal))) (wordsOf q' F)
        + hitProb W db q + hitProb W db q' + 10 / 2 ^ 31 + 384 / (p : ℚ) := by
  have a1 := C156_simulated W db q mal inOrder e e' fr fr' F D hh hS hS' hdb i text now hq hF hD
  have a2 := C156_simulated W db q' mal inOrder e e' fr fr' F D hh hS hS' hdb i text' now hq' hF hD
  rw [← propext hz] at a2
  have hl : q.input.length = q'.input.length := by
    rw [(asksAvg_selectors hh hdb hq).2.1, (asksAvg_selectors hh hdb hq').2.1]
  have mid := keys_alike hS (mal == inOrder) hl
    (foreseeAvg_unit W db i mal F ((averaged W.hash i text now db).length % p = 0) hD)
  rw [abs_sub_comm] at a2
  refine le_trans (close_trans (close_trans a1 mid) a2) (le_of_eq ?_)
  ring

/-- C156: a server that never gets the client to divide (server 0 never sends ten words, server 1 always fewer) does not learn
whether the queries are about any keys either: the two may differ in this. -/
theorem C156_undivided (W : World) (db : KeyDB) (q q' : Query.ClientFSS) (mal inOrder : Bool) (e e' : U32)
    (fr fr' : Nat → U32) (F : Msg → Res (List Byte)) (D : Res Msg × Res Unit → ℚ) (hh : ∀ t, (W.hash t).length = 32)
    (hS : Setup W mal e fr) (hS' : Setup W (!mal) e' fr') (hdb : Loaded db) (i : Query.Info) (text text' : List Byte) (now : Int)
    (hq : AsksAvg W i text now db q) (hq' : AsksAvg W i text' now db q') (hF : ∀ m b, F m = ok b → SmallTen b)
    (hD : IsTest D) (hu : ∀ m b, F m = ok b → if mal then (Panic.Spec.wordsOf b).length < 10
      else (Panic.Spec.wordsOf b).length ≠ 10) :
    |viewAvgProb W db q inOrder mal F D - viewAvgProb W db q' inOrder mal F D|
      ≤ keyGap W.env.E e (mal == inOrder) q.input (foreseeAvg W db i mal F False D)
        + keyGap W.env.E e (mal == inOrder) q'.input (foreseeAvg W db i mal F False D)
        + firstEitherGap (settingOf W db q inOrder mal e fr (isAged (honestNow W mal)))
          (settingOf W db q inOrder mal e fr (ageOf (honestNow W mal))) (wordsOf q F)
        + firstEitherGap (settingOf W db q' inOrder mal e fr (isAged (honestNow W mal)))
          (settingOf W db q' inOrder mal e fr (ageOf (honestNow W mal))) (wordsOf q' F)
        + hitProb W db q + hitProb W db q' + 10 / 2 ^ 31 + 384 / (p : ℚ) := by
  have key : ∀ nobody : Prop, foreseeAvg W db i mal F nobody D = foreseeAvg W db i mal F False D := by
    intro nobody
    funext k
    cases k with
    | err m => rfl
    | crash m => rfl
    | ok k =>
      show D (_, outcome (foreseenAvg W db mal F nobody ⟨i, k⟩)) = D (_, outcome (foreseenAvg W db mal F False ⟨i, k⟩))
      suffices h : foreseenAvg W db mal F nobody ⟨i, k⟩ = foreseenAvg W db mal F False ⟨i, k⟩ by rw [h]
      unfold foreseenAvg
      cases hFm : F ⟨i, k⟩ with
      | err m => rfl
      | crash m => rfl
      | ok b =>
        have hu := hu _ _ hFm
        simp only [ok_bind]
        congr 1
        funext own
        unfold endsAvg
        by_cases hen : Enough (!mal) (Panic.Spec.wordsOf b).length
        · have hc : Counted (!mal) (Panic.Spec.wordsOf b).length := by
            cases mal with
            | true =>
              rcases hen with ⟨hc, -⟩ | ⟨-, hen⟩
              · exact hc
              · simp only [if_true] at hu
                omega
            | false =>
              simp only [Bool.false_eq_true, if_false] at hu
              exact ⟨rfl, hu⟩
          simp only [hc, not_true_eq_false, false_and]
        · simp only [hen, not_false_eq_true, if_true]
  have a1 := C156_simulated W db q mal inOrder e e' fr fr' F D hh hS hS' hdb i text now hq hF hD
  have a2 := C156_simulated W db q' mal inOrder e e' fr fr' F D hh hS hS' hdb i text' now hq' hF hD
  rw [key] at a1 a2
  have hl : q.input.length = q'.input.length := by
    rw [(asksAvg_selectors hh hdb hq).2.1, (asksAvg_selectors hh hdb hq').2.1]
  have mid := keys_alike hS (mal == inOrder) hl (foreseeAvg_unit W db i mal F False hD)
  rw [abs_sub_comm] at a2
  refine le_trans (close_trans (close_trans a1 mid) a2) (le_of_eq ?_)
  ring

/-- The number in C156 is small: less than one in five million. -/
theorem C156_small : (10 : ℚ) / 2 ^ 31 + 384 / (p : ℚ) < 1 / (5 * 10 ^ 6) := by
  rw [p_val]
  norm_num

/-- C156: how the client ends, in a run without coincidences. Server 0 sends: at most one word, panic; two to four words, panic if
they are right; five or more words but not ten, a result if the first five are right; ten words, a result if they are right and
there are keys. Server 1 sends: at most five words, panic; six to nine, panic if those compared are right; ten or more, a result if
the first ten are right and there are keys. Otherwise an error. -/
theorem C156_endings (own b : List U32) (nobody : Prop) :
    (b.length ≤ 1 → endsAvg true own b nobody = crash "") ∧
    (2 ≤ b.length → b.length < 5 → StartsLike own b → endsAvg true own b nobody = crash "") ∧
    (5 ≤ b.length → b.length ≠ 10 → StartsLike own b → endsAvg true own b nobody = ok ()) ∧
    (2 ≤ b.length → b.length ≠ 10 → ¬ StartsLike own b → endsAvg true own b nobody = err "") ∧
    (b.length ≤ 5 → endsAvg false own b nobody = crash "") ∧
    (6 ≤ b.length → b.length < 10 → (∀ j, j < b.length → (own.getD j 0).toNat % p = (b.getD j 0).toNat % p) →
      endsAvg false own b nobody = crash "") ∧
    (∀ first, b.length = 10 ∨ (first = false ∧ 10 ≤ b.length) →
      ((∀ j, j < 10 → (own.getD j 0).toNat % p = (b.getD j 0).toNat % p) → nobody → endsAvg first own b nobody = crash "") ∧
      ((∀ j, j < 10 → (own.getD j 0).toNat % p = (b.getD j 0).toNat % p) → ¬ nobody → endsAvg first own b nobody = ok ()) ∧
      (¬ (∀ j, j < 10 → (own.getD j 0).toNat % p = (b.getD j 0).toNat % p) → endsAvg first own b nobody = err "")) := by
  have cf : ∀ n, ¬ Counted false n := fun n h => absurd h.1 (by simp)
  unfold endsAvg
  refine ⟨?_, ?_, ?_, ?_, ?_, ?_, ?_⟩
  · intro h
    rw [if_neg, if_pos]
    · rintro (⟨-, h'⟩ | ⟨h', -⟩)
      · omega
      · exact h' ⟨rfl, by omega⟩
    · rintro ⟨j, ⟨-, h', -⟩ | ⟨h', -⟩, -⟩
      · omega
      · exact h' ⟨rfl, by omega⟩
  · intro h2 h5 hs
    rw [if_neg, if_pos]
    · rintro (⟨-, h'⟩ | ⟨h', -⟩)
      · omega
      · exact h' ⟨rfl, by omega⟩
    · rintro ⟨j, ⟨-, -, h', h''⟩ | ⟨h', -⟩, hne⟩
      · exact hne (hs j h' h'')
      · exact h' ⟨rfl, by omega⟩
  · intro h5 h10 hs
    rw [if_neg, if_neg, if_neg]
    · rintro ⟨h', -⟩
      exact h' ⟨rfl, h10⟩
    · exact not_not.2 (Or.inl ⟨⟨rfl, h10⟩, h5⟩)
    · rintro ⟨j, ⟨-, -, h', h''⟩ | ⟨h', -⟩, hne⟩
      · exact hne (hs j h' h'')
      · exact h' ⟨rfl, h10⟩
  · intro h2 h10 hs
    rw [if_pos]
    unfold StartsLike at hs
    push Not at hs
    obtain ⟨j, h1, h3, hne⟩ := hs
    exact ⟨j, Or.inl ⟨⟨rfl, h10⟩, h2, h1, h3⟩, hne⟩
  · intro h
    rw [if_neg, if_pos]
    · rintro (⟨h', -⟩ | ⟨-, h'⟩)
      · exact cf _ h'
      · omega
    · rintro ⟨j, ⟨h', -⟩ | ⟨-, ⟨h', -⟩ | ⟨h', -⟩⟩, -⟩
      · exact cf _ h'
      · omega
      · omega
  · intro h6 h10 hs
    rw [if_neg, if_pos]
    · rintro (⟨h', -⟩ | ⟨-, h'⟩)
      · exact cf _ h'
      · omega
    · rintro ⟨j, ⟨h', -⟩ | ⟨-, ⟨-, h1, h2⟩ | ⟨-, -, -, h1⟩⟩, hne⟩
      · exact cf _ h'
      · exact hne (hs j (by omega))
      · exact hne (hs j h1)
  · intro first hf
    have hc : ¬ Counted first b.length := by
      rintro ⟨rfl, h⟩
      rcases hf with h' | ⟨h', -⟩
      · exact h h'
      · cases h'
    have hl : 10 ≤ b.length := hf.elim (fun h => h.ge) (fun h => h.2)
    have he : Enough first b.length := Or.inr ⟨hc, hl⟩
    have hex : (∃ j, Compared first b.length j ∧ (own.getD j 0).toNat % p ≠ (b.getD j 0).toNat % p) ↔
        ¬ (∀ j, j < 10 → (own.getD j 0).toNat % p = (b.getD j 0).toNat % p) := by
      push Not
      constructor
      · rintro ⟨j, ⟨h', -⟩ | ⟨-, ⟨-, h1, h2⟩ | ⟨-, -, h1, -⟩⟩, hne⟩
        · exact absurd h' hc
        · exact ⟨j, by omega, hne⟩
        · exact ⟨j, h1, hne⟩
      · rintro ⟨j, hj, hne⟩
        refine ⟨j, Or.inr ⟨hc, ?_⟩, hne⟩
        by_cases h5 : j < 5
        · exact Or.inl ⟨by omega, h5, by omega⟩
        · exact Or.inr ⟨by omega, by omega, hj, by omega⟩
    refine ⟨fun hs hn => ?_, fun hs hn => ?_, fun hs => ?_⟩
    · rw [if_neg (fun h => hex.1 h hs), if_neg (not_not.2 he), if_pos ⟨hc, hn⟩]
    · rw [if_neg (fun h => hex.1 h hs), if_neg (not_not.2 he), if_neg (fun h => hn h.2)]
    · rw [if_pos (hex.2 hs)]

/-! ### Concrete cases -/

/-- Two queries that meet the hypotheses: the average ages of two groups of one key each, and a server 1 whose answers have from 0
to 255 words. -/
example (D : Res Msg × Res Unit → ℚ) (hD : IsTest D) :
    |viewAvgProb quietWorld avgDB avgQuery true true manyWords D - viewAvgProb quietWorld avgDB avgQuery' true true manyWords D|
      ≤ keyGap parityCipher 0 true avgQuery.input (foreseeAvg quietWorld avgDB avgInfo true manyWords
          ((averaged exHash avgInfo [2, 3] 10 avgDB).length % p = 0) D)
        + keyGap parityCipher 0 true avgQuery'.input (foreseeAvg quietWorld avgDB avgInfo true manyWords
          ((averaged exHash avgInfo [2, 3] 10 avgDB).length % p = 0) D)
        + firstEitherGap (settingOf quietWorld avgDB avgQuery true true 0 (fun _ => 0) (isAged (honestNow quietWorld true)))
          (settingOf quietWorld avgDB avgQuery true true 0 (fun _ => 0) (ageOf (honestNow quietWorld true)))
          (wordsOf avgQuery manyWords)
        + firstEitherGap (settingOf quietWorld avgDB avgQuery' true true 0 (fun _ => 0) (isAged (honestNow quietWorld true)))
          (settingOf quietWorld avgDB avgQuery' true true 0 (fun _ => 0) (ageOf (honestNow quietWorld true)))
          (wordsOf avgQuery' manyWords)
        + 0 + 0 + 10 / 2 ^ 31 + 384 / (p : ℚ) := by
  have l1 : (averaged quietWorld.hash avgInfo [2, 3] 10 avgDB).length = 1 := by decide
  have l2 : (averaged quietWorld.hash avgInfo [2, 4] 10 avgDB).length = 1 := by decide
  have h := C156_reaction quietWorld avgDB avgQuery avgQuery' true true 0 0 (fun _ => 0) (fun _ => 0) manyWords D exHash_length
    (quiet_setup true) (quiet_setup false) rfl avgInfo [2, 3] [2, 4] 10 (quiet_asks _ (by simp)) (quiet_asks _ (by simp))
    (fun m b h j _ => manyWords_at m b h j) hD (by rw [l1, l2])
  rw [quiet_hitProb, quiet_hitProb] at h
  exact h

/-- A query about nobody. -/
def nobodyQuery : Query.ClientFSS := ⟨avgInfo, ([9, 9] : List Byte).flatMap Utils.bits8⟩

/-- A server that replies with five words of zeros. -/
def fiveZeros (_ : Msg) : Res (List Byte) := ok (List.replicate 20 0)

/-- Two queries that meet the hypotheses of the theorem on servers that cause no division, one about a key and one about none. -/
example (D : Res Msg × Res Unit → ℚ) (hD : IsTest D) :
    (averaged exHash avgInfo [2, 3] 10 avgDB).length = 1 ∧ (averaged exHash avgInfo [9, 9] 10 avgDB).length = 0 ∧
    |viewAvgProb quietWorld avgDB avgQuery true false fiveZeros D - viewAvgProb quietWorld avgDB nobodyQuery true false fiveZeros D|
      ≤ keyGap parityCipher 0 false avgQuery.input (foreseeAvg quietWorld avgDB avgInfo false fiveZeros False D)
        + keyGap parityCipher 0 false nobodyQuery.input (foreseeAvg quietWorld avgDB avgInfo false fiveZeros False D)
        + firstEitherGap (settingOf quietWorld avgDB avgQuery true false 0 (fun _ => 0) (isAged (honestNow quietWorld false)))
          (settingOf quietWorld avgDB avgQuery true false 0 (fun _ => 0) (ageOf (honestNow quietWorld false)))
          (wordsOf avgQuery fiveZeros)
        + firstEitherGap (settingOf quietWorld avgDB nobodyQuery true false 0 (fun _ => 0) (isAged (honestNow quietWorld false)))
          (settingOf quietWorld avgDB nobodyQuery true false 0 (fun _ => 0) (ageOf (honestNow quietWorld false)))
          (wordsOf nobodyQuery fiveZeros)
        + 0 + 0 + 10 / 2 ^ 31 + 384 / (p : ℚ) := by
  have hz : ∀ m b, fiveZeros m = ok b → Panic.Spec.wordsOf b = List.replicate 5 0 := by
    intro m b hb
    cases hb
    decide +kernel
  have h := C156_undivided quietWorld avgDB avgQuery nobodyQuery false true 0 0 (fun _ => 0) (fun _ => 0) fiveZeros D exHash_length
    (quiet_setup false) (quiet_setup true) rfl avgInfo [2, 3] [9, 9] 10 (quiet_asks _ (by simp)) (quiet_asks _ (by simp))
    (fun m b hb j hj => by
      rw [hz m b hb, List.getD_eq_getElem?_getD, List.getElem?_replicate]
      split <;> simp) hD (fun m b hb => by rw [hz m b hb]; simp)
  rw [quiet_hitProb, quiet_hitProb] at h
  exact ⟨by decide, by decide, h⟩

end Verif.Forge
