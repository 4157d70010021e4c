import Verif.Spec.ReactionPredicate
import Verif.Spec.Panic

/-! # Specification vocabulary for what a lying server learns from the client's reaction to answers of any length -/

namespace Verif.Forge.Spec
open Res Verif.Field Verif.Field.Spec Verif.Fss Verif.Fss.Spec Verif.Predicate Verif.Privacy Verif.Reaction Finset

/-- No word among the first five exceeds 2^32 minus the modulus. There may be fewer words, or more. -/
def SmallStart (b : List Byte) : Prop := ∀ j, j < 5 → ((Panic.Spec.wordsOf b).getD j 0).toNat ≤ 2 ^ 32 - p

/-- The words of an answer, as far as the client reads them, are the elements `own` of the field. -/
def StartsLike (own b : List U32) : Prop :=
  ∀ j, j < 5 → j < b.length → (own.getD j 0).toNat % p = (b.getD j 0).toNat % p

open Classical in
/-- How a client ends that compares the words it reads of the answer with the honest ones. An answer of ten words that comes first
(`first`) is taken for an average and there are too few words in the other answer; an answer without a tag is not compared. -/
noncomputable def endsBy (first : Bool) (own b : List U32) : Res Unit :=
  if (first = true ∧ b.length = 10) ∨ b.length ≤ 1 then crash "index out of range"
  else if ¬ StartsLike own b then err "REJECT"
  else if b.length < 5 then crash "index out of range" else ok ()

/-- The ending the server can compute from its message. The answer of server 0 comes first. -/
noncomputable def foreseen (W : World) (db : KeyDB) (mal : Bool) (F : Msg → Res (List Byte)) (m : Msg) : Res Unit := do
  let b ← F m
  let own ← W.serve (liar mal) 5 db m
  endsBy (!mal) (Panic.Spec.wordsOf own) (Panic.Spec.wordsOf b)

/-- The test on keys that shows `D` the message and the ending the server can compute. -/
noncomputable def foreseeTest (W : World) (db : KeyDB) (i : Query.Info) (mal : Bool) (F : Msg → Res (List Byte))
    (D : Res Msg × Res Unit → ℚ) : Res Key → ℚ
  | ok k => D (ok ⟨i, k⟩, foreseen W db mal F ⟨i, k⟩)
  | err _ => 0
  | crash _ => 0

/-- The key and the MAC keys are such that the first tag fits a wrong number when the forging server answers `A`. -/
def FirstForgeable (S : Setting) (A : List U32) (k : Key) (β : Fin 3 → Fin p) (α : Fin p) : Prop :=
  (∀ j, (k.finalCW.getD j 0).toNat ≤ p) ∧ Bit (endOf S.E k S.a).2 ∧
  ∃ pat : Fin 4 → Bool,
    (∀ j : Fin 4, pat j → otherVal S k ((vals (shared β) α).getD j.1 0) j.1 = S.e.toNat) ∧
    tagOf ((A.getD 0 0 + (simAnswer S k β α pat).getD 0 0) % modP) ((clientState β α).alphas.getD 0 0)
      = (A.getD 1 0 + (simAnswer S k β α pat).getD 1 0) % modP ∧
    Wrong S (dataOf A (simAnswer S k β α pat))

open Classical in
/-- The test that asks whether the first tag of `A` can fit a wrong number. -/
noncomputable def firstTest (S : Setting) (A : Key → List U32) : Res Key → (Fin 3 → Fin p) → Fin p → ℚ
  | ok k, β, α => if FirstForgeable S (A k) k β α then 1 else 0
  | _, _, _ => 0

/-- The advantage of the tests that look for a forgery of the first tag. -/
noncomputable def firstGap (S : Setting) (A : Key → List U32) : ℚ := testGap S (firstTest S A)

end Verif.Forge.Spec
