import Verif.Spec.Lwe
import Mathlib.Data.Set.Card

/-! # Specification vocabulary for the forgery probability of amplified retrieval

The client draws one 32-bit multiplier per repetition. Everything else (secrets, noise, the server's deviations from the
honest answers) is fixed, and the draws for which something happens are counted. -/

namespace Verif.Lwe
open Verif.Matrix

/-- The multipliers of `n` repetitions. -/
abbrev Draws (n : Nat) : Type := Fin n → Fin (2 ^ 32)

/-- The coins with the multiplier replaced by `x`. -/
def withMultiplier (c : Coins) (x : Nat) : Coins := { c with tBytes := leBytes 4 x }

/-- The coins of all repetitions for given multipliers. -/
def coinsOf {n : Nat} (base : Fin n → Coins) (T : Draws n) : List Coins :=
  List.ofFn (fun k => withMultiplier (base k) (T k).val)

/-- For the multipliers `T` there are answers that differ from the honest ones by `δ k` in the queried column of repetition
`k`, and in any way elsewhere, for which the client accepts a bit that is not the stored one. -/
def Forged {n : Nat} (aesctr : List Byte → Nat → Byte) (p : Params) (db : Db 32) (base : Fin n → Coins) (i j : Nat)
    (δ : Fin n → U32) (T : Draws n) : Prop :=
  ∃ (ms : List (State 32 × Mat 32)) (hs answers : List (Mat 32)) (b : U32),
    amplifyQuery aesctr p db.digest (coinsOf base T) i j = Res.ok ms ∧
    amplifyAnswer db (ms.map (·.2)) = Res.ok hs ∧
    (∀ (k : Fin n) h a, hs[k.val]? = some h → answers[k.val]? = some a → a.entry 0 j = h.entry 0 j + δ k) ∧
    amplifyReconstruct p (ms.map (·.1)) answers = Res.ok b ∧ b.toNat ≠ storedBit db.matrix i j

/-- For the multipliers `T` the exchange with the honest server returns a bit that is not the stored one. -/
def Misread {n : Nat} (aesctr : List Byte → Nat → Byte) (p : Params) (db : Db 32) (base : Fin n → Coins) (index : Nat)
    (T : Draws n) : Prop :=
  ∃ b, amplifyRetrieve aesctr p db.numColumns db.digest (coinsOf base T) index (amplifyAnswerBytes db) = Res.ok b ∧
    b.toNat ≠ storedBit db.matrix (index / db.numColumns) (index % db.numColumns)

/-- Among all multipliers of `n` repetitions the bad ones have probability at most `2^-s`. -/
def ProbAtMost {n : Nat} (s : Nat) (bad : Set (Draws n)) : Prop := bad.ncard * 2 ^ s ≤ (2 ^ 32) ^ n

end Verif.Lwe
