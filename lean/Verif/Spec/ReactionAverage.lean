import Verif.Spec.ReactionPredicate

/-! # Specification vocabulary for what a lying server learns from the client's reaction to its answer to an average query -/

namespace Verif.Forge.Spec
open Res Verif.Field Verif.Field.Spec Verif.Fss Verif.Fss.Spec Verif.Predicate Verif.Privacy Verif.Reaction Finset

/-- Whether a computation ends with a result, an error or a panic. -/
def outcome {α : Type} : Res α → Res Unit
  | ok _ => ok ()
  | err _ => err ""
  | crash _ => crash ""

/-- What the server that answers by `F` sees of an average query: its message, and whether the client ends with a result, an
error or a panic. -/
def viewAvg (W : World) (db : KeyDB) (q : Query.ClientFSS) (inOrder mal : Bool) (F : Msg → Res (List Byte)) :
    Res Msg × Res Unit :=
  ((view W db q inOrder mal F).1, outcome (forgedRun W db q inOrder mal F))

/-- The mean of a test on what the server sees, over the client's randomness. -/
def viewAvgProb (W : World) (db : KeyDB) (q : Query.ClientFSS) (inOrder mal : Bool) (F : Msg → Res (List Byte))
    (D : Res Msg × Res Unit → ℚ) : ℚ :=
  runMean (fun β α s0 s1 tb => D (viewAvg (drawn W β α s0 s1 tb) db q inOrder mal F))

/-- An answer of ten words, none of which exceeds 2^32 minus the modulus. -/
def WellFormedAvg (b : List Byte) : Prop :=
  ∃ a, Utils.byteSliceToUint32Slice b = ok a ∧ a.length = 10 ∧ ∀ w ∈ a, w.toNat ≤ 2 ^ 32 - p

open Classical in
/-- How a client ends that compares the answer with the honest one: with an error if they differ, and otherwise with a panic if
nobody matches and with a result if somebody does. -/
noncomputable def expectedAvg (W : World) (db : KeyDB) (mal : Bool) (F : Msg → Res (List Byte)) (nobody : Prop) (m : Msg) :
    Res Unit := do
  let b ← F m
  let own ← W.serve (liar mal) 5 db m
  if SameElements own b then (if nobody then crash "" else ok ()) else err ""

/-- The test on keys that shows `D` the message and the expected end. -/
noncomputable def seeAvg (W : World) (db : KeyDB) (i : Query.Info) (mal : Bool) (F : Msg → Res (List Byte)) (nobody : Prop)
    (D : Res Msg × Res Unit → ℚ) : Res Key → ℚ
  | ok k => D (ok ⟨i, k⟩, outcome (expectedAvg W db mal F nobody ⟨i, k⟩))
  | err _ => 0
  | crash _ => 0

open Classical in
/-- The probability that a value derived in a run equals the modulus. -/
noncomputable def hitProb (W : World) (db : KeyDB) (q : Query.ClientFSS) : ℚ :=
  runMean (fun β α s0 s1 tb => if Predicate.Spec.NoHits (drawn W β α s0 s1 tb) 5 db q then 0 else 1)

end Verif.Forge.Spec
