import Verif.Model.Zone
import Verif.Spec.Predicate

/-! # Specification: what counting queries ask for, whatever the zone -/

namespace Verif.Zone.Spec
open Res Verif.Query Verif.Predicate Verif.Predicate.Spec

/-- The instant at which a day begins in UTC, in seconds since 1970. -/
def instant (d : Int) : Int := (d - startOfYear 1970) * 86400

/-- The year, in UTC, in which the key was created: it lies between the beginnings of this year and the next. -/
def CreatedIn (k : RawKey) (y : Int) : Prop :=
  instant (startOfYear y) ≤ k.created.toNat ∧ (k.created.toNat : Int) < instant (startOfYear (y + 1))

/-- `Asked hash q P`: the client builds `q` to count the keys with property `P`. -/
inductive Asked (hash : List Byte → List Byte) : ClientFSS → (RawKey → Prop) → Prop
  /-- keys whose e-mail has the prefix, the suffix or the hash of the text -/
  | email (i : Info) (text : List Byte) (q : ClientFSS) (ht : i.target = 0) (h1 : i.and = false)
      (h2 : i.avg = false) (h3 : i.sum = false) (hv : EmailValid i text) (hb : emailBits i ≤ 256)
      (hq : toEmailClientFSS hash i text = ok q) :
      Asked hash q (fun k => EmailMatches hash i text k.email)
  /-- keys of a named algorithm -/
  | algo (i : Info) (name : String) (n : Nat) (q : ClientFSS) (ht : i.target = 2) (h1 : i.and = false)
      (h2 : i.avg = false) (h3 : i.sum = false) (hn : algoNumber name = some n) (hq : toPKAClientFSS i name = ok q) :
      Asked hash q (fun k => k.algo.toNat = n)
  /-- keys created at the instant the client derives from the year (C27) -/
  | creation (i : Info) (year : Int) (q : ClientFSS) (ht : i.target = 1) (h1 : i.and = false)
      (h2 : i.avg = false) (h3 : i.sum = false) (hq : toCreationTimeClientFSS midnight i year = ok q) :
      Asked hash q (fun k => (k.created.toNat : Int) = instant (dateDay year 0 0))
  /-- keys created in 2018, the year the client derives from the hard-coded one (C27), whose e-mail matches -/
  | and (i : Info) (text : List Byte) (q : ClientFSS) (h1 : i.and = true) (h2 : i.avg = false)
      (h3 : i.sum = false) (hv : EmailValid i text) (hb : emailBits i ≤ 224)
      (hq : toAndClientFSS hash midnight i text = ok q) :
      Asked hash q (fun k => CreatedIn k 2018 ∧ EmailMatches hash i text k.email)

open Classical in
/-- The number of keys with the property. -/
noncomputable def number (ks : List RawKey) (P : RawKey → Prop) : Nat := ks.countP (fun k => decide (P k))

/-- The query selects by creation time. -/
def ByInstant (q : ClientFSS) : Prop := q.info.and = false ∧ q.info.target = 1

/-- The query selects by year. -/
def ByYear (q : ClientFSS) : Prop := q.info.and = true

/-- Nobody's new year separates the clocks of the zone from UTC at the creation of the key. -/
def SameYear (z : Tz) (k : RawKey) : Prop := ∀ y, CreatedIn k y →
  instant (startOfYear y) ≤ k.created.toNat + z.offset k.created.toNat ∧
    k.created.toNat + z.offset k.created.toNat < instant (startOfYear (y + 1))

end Verif.Zone.Spec
