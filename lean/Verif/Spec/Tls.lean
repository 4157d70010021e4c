import Verif.Model.Tls
import Verif.Spec.Client
import Verif.Spec.Point

/-! # Specification vocabulary for the authentication of the servers -/

namespace Verif.Tls.Spec
open Res

/-- From when to when certificate number `i` of lib/utils/tls.go is valid, in seconds since 1970: from 12 October 2024,
10:31, to 12 January 2027, 11:31 (with different seconds). -/
def Valid (i : Nat) (now : Int) : Prop :=
  1728729074 + (([0, 8, 16, 23, 31] : List Int).getD i 0) ≤ now ∧ now ≤ 1799753474 + (([0, 8, 16, 23, 31] : List Int).getD i 0)

/-- The peer at address number `i` is server `i`: it knows the secret key of that server. -/
def Genuine (world : String → Option Peer) (addresses : List String) : Prop :=
  ∀ i a, addresses[i]? = some a → ∃ p, world a = some p ∧ i ∈ p.knows

/-- Bit `j` of the sum of the messages. -/
def parity (ms : List (String × List Byte)) (j : Nat) : Bool := ms.foldl (fun b m => b ^^ Point.Spec.bitOf m.2 j) false

end Verif.Tls.Spec
