import Verif.Spec.ReactionLength
import Verif.Spec.ReactionAverage

/-! # Specification vocabulary for what a lying server learns from the client's reaction to answers of any length to an average
query -/

namespace Verif.Forge.Spec
open Res Verif.Field Verif.Field.Spec Verif.Fss Verif.Fss.Spec Verif.Predicate Verif.Privacy Verif.Reaction Finset

/-- No word among the first ten exceeds 2^32 minus the modulus. There may be fewer words, or more. -/
def SmallTen (b : List Byte) : Prop := ∀ j, j < 10 → ((Panic.Spec.wordsOf b).getD j 0).toNat ≤ 2 ^ 32 - p

/-- The answer decides for a count: it comes first and has not ten words. -/
def Counted (first : Bool) (len : Nat) : Prop := first = true ∧ len ≠ 10

/-- The words of an answer of `len` words that are compared. For a count, they are the first five, as far as there are any and at
least two. For an average, number and sum are compared tag by tag in turn, until there is no word left for the sum. -/
def Compared (first : Bool) (len j : Nat) : Prop :=
  (Counted first len ∧ 2 ≤ len ∧ j < 5 ∧ j < len) ∨
  (¬ Counted first len ∧ ((6 ≤ len ∧ j < 5 ∧ j + 5 ≤ len) ∨ (7 ≤ len ∧ 5 ≤ j ∧ j < 10 ∧ j < len)))

/-- There are as many words as the client reads. -/
def Enough (first : Bool) (len : Nat) : Prop := (Counted first len ∧ 5 ≤ len) ∨ (¬ Counted first len ∧ 10 ≤ len)

open Classical in
/-- How a client ends that compares the words it reads of the answer with the honest ones: with an error if they differ, with a
panic if there are too few or an average is taken of no keys, and with a result otherwise. -/
noncomputable def endsAvg (first : Bool) (own b : List U32) (nobody : Prop) : Res Unit :=
  if ∃ j, Compared first b.length j ∧ (own.getD j 0).toNat % p ≠ (b.getD j 0).toNat % p then err ""
  else if ¬ Enough first b.length then crash ""
  else if ¬ Counted first b.length ∧ nobody then crash "" else ok ()

/-- The ending the server can compute from its message and from whether the query is about no keys. The answer of server 0 comes
first. -/
noncomputable def foreseenAvg (W : World) (db : KeyDB) (mal : Bool) (F : Msg → Res (List Byte)) (nobody : Prop) (m : Msg) :
    Res Unit := do
  let b ← F m
  let own ← W.serve (liar mal) 5 db m
  endsAvg (!mal) (Panic.Spec.wordsOf own) (Panic.Spec.wordsOf b) nobody

/-- The test on keys that shows `D` the message and the ending the server can compute. -/
noncomputable def foreseeAvg (W : World) (db : KeyDB) (i : Query.Info) (mal : Bool) (F : Msg → Res (List Byte)) (nobody : Prop)
    (D : Res Msg × Res Unit → ℚ) : Res Key → ℚ
  | ok k => D (ok ⟨i, k⟩, outcome (foreseenAvg W db mal F nobody ⟨i, k⟩))
  | err _ => 0
  | crash _ => 0

/-- The test that asks whether the first tag of the number of keys, or that of the sum of their ages, can fit a wrong value. -/
noncomputable def firstEither (S1 S2 : Setting) (A : Key → List U32) (k : Res Key) (β : Fin 3 → Fin p) (α : Fin p) : ℚ :=
  firstTest S1 A k β α + firstTest S2 (fun k => (A k).drop 5) k β α

/-- The advantage of the tests that look for such a forgery. -/
noncomputable def firstEitherGap (S1 S2 : Setting) (A : Key → List U32) : ℚ := testGap S1 (firstEither S1 S2 A)

end Verif.Forge.Spec
