import Verif.Model.MerklePir

/-! # Specification of what an authenticated client checks -/

namespace Verif.MerklePir.Spec
open Res Verif.Merkle Verif.Padding Verif.Database

/-- The block `value`, unpadded, is the record `d` followed by an encoding of `proof`, which may be decoded past the end
into the bytes that the unpadding cut off. -/
def Splits (info : Info) (value d : List Byte) (proof : Proof) : Prop :=
  ∃ encoded tail, unPadBlock value = ok (d ++ encoded) ∧ encoded.length = info.proofLen ∧
    value = d ++ encoded ++ tail ∧ decodeProof encoded tail = ok proof

/-- The client makes a value out of the answers and takes it for the record `d` with `proof`. -/
def Presented (answers : List (List Byte)) (info : Info) (st : Point.State) (d : List Byte) (proof : Proof) : Prop :=
  ∃ value, Point.reconstructValue answers info st = ok value ∧ Splits info value d proof

end Verif.MerklePir.Spec
