import Verif.Spec.Forgery

/-! # Specification vocabulary for answers whose words are not reduced -/

namespace Verif.Forge.Spec
open Res Verif.Field Verif.Field.Spec Verif.Fss Verif.Predicate

/-- The number of the server that answers as it likes. -/
def liar (mal : Bool) : Byte := if mal then 1 else 0

/-- Two answers of equally many words that are the same elements of the field: the words are equal modulo the modulus. -/
def SameElements (b b' : List Byte) : Prop :=
  ∃ a a', Utils.byteSliceToUint32Slice b = ok a ∧ Utils.byteSliceToUint32Slice b' = ok a' ∧ a.length = a'.length ∧
    ∀ j, (a.getD j 0).toNat % p = (a'.getD j 0).toNat % p

/-- No word of the answer exceeds 2^32 minus the modulus. -/
def Small (b : List Byte) : Prop :=
  ∃ a, Utils.byteSliceToUint32Slice b = ok a ∧ ∀ w ∈ a, w.toNat ≤ 2 ^ 32 - p

/-- A server that adds the modulus to word `j` of its honest answer. -/
def raised (W : World) (mal : Bool) (db : KeyDB) (j : Nat) (m : Msg) : Res (List Byte) := do
  let b ← W.serve (liar mal) 5 db m
  let a ← Utils.byteSliceToUint32Slice b
  let w ← idx a j
  let a' ← setAt a j (w + modP)
  Utils.uint32SliceToByteSlice a'

/-- Word `j` of the honest answer that the server would have given. -/
def ownWord (W : World) (db : KeyDB) (q : Query.ClientFSS) (inOrder mal : Bool) (j : Nat) : Res U32 := do
  let (ms, _, _, _) ← query W.env W.fuel 5 W.rnd W.buf W.r1 W.r2 q 2
  let m ← idx ms (if mal = inOrder then 1 else 0)
  let b ← W.serve (liar mal) 5 db m
  let a ← Utils.byteSliceToUint32Slice b
  idx a j

/-- What the client expects in component `j` when the result is `n`: the result itself, and its multiples by the MAC keys. -/
def component (st : State) (n j : Nat) : Nat :=
  if j = 0 then n else n * (st.alphas.getD (j - 1) 0).toNat % p

end Verif.Forge.Spec
