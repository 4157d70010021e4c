import Verif.Spec.Client
import Verif.Spec.Privacy

/-! # Specification vocabulary: what one of two servers sees of a lookup -/

namespace Verif.Client.Spec
open Res Verif.Cmd Verif.Client Verif.Point

/-- What one address sees of the messages. -/
def seenBy (a : String) (traffic : Res (List (String × List Byte))) : Res (List (String × List Byte)) :=
  match traffic with
  | ok ms => ok (ms.filter (fun m => m.1 = a))
  | err m => err m
  | crash m => crash m

/-- One of the two keys that the library makes. -/
def oneKey (first : Bool) (keys : Res (List Byte × List Byte)) : Res (List Byte) :=
  match keys with
  | ok (k0, k1) => ok (if first then k0 else k1)
  | err m => err m
  | crash m => crash m

/-- The test on one key made from a test on what the address sees. -/
def keyTest (a : String) (D : Res (List (String × List Byte)) → ℚ) (k : Res (List Byte)) : ℚ :=
  match k with
  | ok k => D (ok [(a, k)])
  | err m => D (err m)
  | crash m => D (crash m)

/-- The client with a library that has drawn its randomness. -/
def withDpf (L : Lib) (dpf : Dpf) : Lib := { L with dpf := dpf }

end Verif.Client.Spec
