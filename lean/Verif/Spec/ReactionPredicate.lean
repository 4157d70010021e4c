import Verif.Spec.WrapAround
import Verif.Spec.Reaction

/-! # Specification vocabulary for what a lying server learns from the client's reaction to its answer to a count query -/

namespace Verif.Forge.Spec
open Res Verif.Field Verif.Field.Spec Verif.Fss Verif.Fss.Spec Verif.Predicate Verif.Privacy Verif.Reaction Finset

/-- What the server that answers by `F` sees of a count query: its message, and how the client ends. -/
def view (W : World) (db : KeyDB) (q : Query.ClientFSS) (inOrder mal : Bool) (F : Msg → Res (List Byte)) :
    Res Msg × Res Unit :=
  (do let (ms, _, _, _) ← query W.env W.fuel 5 W.rnd W.buf W.r1 W.r2 q 2
      idx ms (if mal = inOrder then 1 else 0),
   ending (forgedRun W db q inOrder mal F))

/-- The mean of a test on what the server sees, over the client's randomness. -/
def viewProb (W : World) (db : KeyDB) (q : Query.ClientFSS) (inOrder mal : Bool) (F : Msg → Res (List Byte))
    (D : Res Msg × Res Unit → ℚ) : ℚ :=
  runMean (fun β α s0 s1 tb => D (view (drawn W β α s0 s1 tb) db q inOrder mal F))

/-- An answer of five words, none of which exceeds 2^32 minus the modulus. -/
def WellFormed (b : List Byte) : Prop :=
  ∃ a, Utils.byteSliceToUint32Slice b = ok a ∧ a.length = 5 ∧ ∀ w ∈ a, w.toNat ≤ 2 ^ 32 - p

open Classical in
/-- How a client ends that compares the answer with the honest one. The server can compute this from its message. -/
noncomputable def expected (W : World) (db : KeyDB) (mal : Bool) (F : Msg → Res (List Byte)) (m : Msg) : Res Unit := do
  let b ← F m
  let own ← W.serve (liar mal) 5 db m
  if SameElements own b then ok () else err "REJECT"

/-- The test on keys that shows `D` the message and the comparison with the honest answer. -/
noncomputable def seeTest (W : World) (db : KeyDB) (i : Query.Info) (mal : Bool) (F : Msg → Res (List Byte))
    (D : Res Msg × Res Unit → ℚ) : Res Key → ℚ
  | ok k => D (ok ⟨i, k⟩, expected W db mal F ⟨i, k⟩)
  | err _ => 0
  | crash _ => 0

/-- The sum of the advantages, against the generator and the derivation of values, of the tests made from a test on keys; mean
over the first three MAC keys. -/
def keyGap (E : Cipher) (e : U32) (second : Bool) (a : List Bool) (T : Res Key → ℚ) : ℚ :=
  avg (fun β : Fin 3 → Fin p => ∑ k ∈ range a.length, |prgGap E (keyLevelTest E e second a (shared β) T k)|
    + |convGap E (keyWordTest E e second a (shared β) T)|)

open Classical in
/-- The probability that two honest servers make the client end in another way than with the result `n`. -/
noncomputable def failProb (W : World) (db : KeyDB) (q : Query.ClientFSS) (inOrder : Bool) (n : Nat) : ℚ :=
  runMean (fun β α s0 s1 tb =>
    if (drawn W β α s0 s1 tb).run 5 db q inOrder = ok (BitVec.ofNat 32 n) then 0 else 1)

end Verif.Forge.Spec
