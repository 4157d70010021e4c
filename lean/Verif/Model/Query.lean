import Verif.Model.Encoding

/-! # Model of lib/query/query.go -/

namespace Verif.Query
open Res Verif.Utils

/-! ### The parts of package `time` that are used -/

/-- Days from 1 January of year 0 to 1 January of year `y` in the proleptic Gregorian calendar (package
`time` uses this calendar for all years). -/
def startOfYear (y : Int) : Int := 365 * y + (y + 3) / 4 - (y + 99) / 100 + (y + 399) / 400

/-- `Time.Year()`: the year of a day number (estimate, corrected by at most one). -/
def yearOfDay (d : Int) : Int :=
  let y := d * 400 / 146097
  if d < startOfYear y then y - 1 else if startOfYear (y + 1) ≤ d then y + 1 else y

/-- Days before month `m` (0 = January) in a year; `leap` is 1 in leap years. -/
def daysBefore (m : Nat) (leap : Int) : Int :=
  match m with
  | 0 => 0
  | 1 => 31
  | 2 => 59 + leap
  | 3 => 90 + leap
  | 4 => 120 + leap
  | 5 => 151 + leap
  | 6 => 181 + leap
  | 7 => 212 + leap
  | 8 => 243 + leap
  | 9 => 273 + leap
  | 10 => 304 + leap
  | _ => 334 + leap

/-- The day number of `time.Date(year, month, day, 0, 0, 0, 0, time.UTC)`: the month is first normalised
into the range 1..12 by carrying into the year, then the day offset is added. -/
def dateDay (year month day : Int) : Int :=
  let m := month - 1
  let y := year + m / 12
  let m := m % 12
  let leap := startOfYear (y + 1) - startOfYear y - 365
  startOfYear y + daysBefore m.toNat leap + (day - 1)

/-- A `time.Time`: the day it falls on in its location, and the result of `MarshalBinary` (which encodes the
instant and the zone offset; it is used only through equality of the encodings, so it is kept abstract). -/
structure Time where
  day : Int
  bin : Res (List Byte)

/-- `Time.Year()`. -/
def Time.year (t : Time) : Int := yearOfDay t.day

/-! ### Queries -/

/-- lib/query/query.go:43-60 `Info`. `Targets` is not read by any of the code modelled. `target` is the value
of the `Target` constant (0 `UserId`, 1 `CreationTime`, 2 `PubKeyAlgo`, lines 20-28). -/
structure Info where
  target : Nat
  fromStart : Int
  fromEnd : Int
  and : Bool
  avg : Bool
  sum : Bool

/-- lib/query/query.go:31-34 `ClientFSS`. -/
structure ClientFSS where
  info : Info
  input : List Bool

/-- lib/query/query.go:169-187 `IdForEmail`; `none` is `(nil, false)`. `hash` is BLAKE2b-256. Strings are
byte sequences; slicing with a negative bound panics. -/
def idForEmail (hash : List Byte → List Byte) (i : Info) (email : List Byte) :
    Res (Option (List Bool)) :=
  if i.fromStart ≠ 0 then
    if i.fromStart > email.length then ok none
    else if i.fromStart < 0 then crash "slice bounds out of range"
    else do
      let part ← slice email 0 i.fromStart.toNat
      let id ← byteToBits part
      ok (some id)
  else if i.fromEnd ≠ 0 then
    if i.fromEnd > email.length then ok none
    else if i.fromEnd < 0 then crash "slice bounds out of range"
    else do
      let part ← slice email (email.length - i.fromEnd.toNat) email.length
      let id ← byteToBits part
      ok (some id)
  else do
    let h := hash email
    let part ← slice h 0 16
    let id ← byteToBits part
    ok (some id)

/-- lib/query/query.go:189-191 `IdForPubKeyAlgo`. -/
def idForPubKeyAlgo (pka : Byte) : Res (List Bool) := byteToBits [pka]

/-- lib/query/query.go:193-199 `IdForCreationTime`. -/
def idForCreationTime (t : Time) : Res (List Bool) := do
  let b ← t.bin
  byteToBits b

/-- lib/query/query.go:201-206 `IdForYearCreationTime`; the conversion to `uint32` wraps. -/
def idForYearCreationTime (t : Time) : Res (List Bool) :=
  byteToBits (putBE32 (BitVec.ofInt 32 t.year))

/-- A nil slice is an empty slice. -/
def orNil (o : Option (List Bool)) : List Bool := o.getD []

/-- lib/query/query.go:82-88 `ToEmailClientFSS` (and 144-151 `ToAvgClientFSS`, which is identical): the
validity flag is dropped. -/
def toEmailClientFSS (hash : List Byte → List Byte) (i : Info) (inp : List Byte) : Res ClientFSS := do
  let id ← idForEmail hash i inp
  ok ⟨i, orNil id⟩

/-- lib/query/query.go:90-109 `ToPKAClientFSS`. The constants are those of RFC 4880 as defined by the openpgp
`packet` package: RSA 1, ElGamal 16, DSA 17, ECDH 18, ECDSA 19; any other name leaves the zero value. -/
def toPKAClientFSS (i : Info) (inp : String) : Res ClientFSS := do
  let pka : Byte :=
    if inp = "RSA" then 1 else if inp = "ElGamal" then 16 else if inp = "DSA" then 17
    else if inp = "ECDH" then 18 else if inp = "ECDSA" then 19 else 0
  let id ← idForPubKeyAlgo pka
  ok ⟨i, id⟩

/-- lib/query/query.go:111-125 `ToCreationTimeClientFSS` after parsing the year; `mk` gives the `time.Time`
(midnight UTC) of a day number. `panic(err)` on a marshalling error. -/
def toCreationTimeClientFSS (mk : Int → Time) (i : Info) (year : Int) : Res ClientFSS :=
  let t := mk (dateDay year 0 0)
  match idForCreationTime t with
  | ok id => ok ⟨i, id⟩
  | err m => crash m
  | crash m => crash m

/-- lib/query/query.go:128-141 `ToAndClientFSS`: the year is hard-coded. -/
def toAndClientFSS (hash : List Byte → List Byte) (mk : Int → Time) (i : Info) (inp : List Byte) :
    Res ClientFSS :=
  match idForYearCreationTime (mk (dateDay 2019 0 0)) with
  | ok idYear => do
    let idOrganization ← idForEmail hash i inp
    ok ⟨i, idYear ++ orNil idOrganization⟩
  | err m => crash m
  | crash m => crash m

end Verif.Query
