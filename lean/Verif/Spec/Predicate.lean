import Verif.Model.Predicate
import Verif.Props.Fss

/-! # Specification of predicate queries -/

namespace Verif.Predicate.Spec
open Res Verif.Field.Spec Verif.Fss Verif.Fss.Spec Verif.Query Verif.Predicate

/-- An intact database: one column per key. -/
def Loaded (db : KeyDB) : Prop := db.numColumns = db.keys.length

/-- The parties of a query are set up: they use the same block ciphers, the scratch buffers are as a new
instance or a previous query leaves them, the client's randomness has the right size and sampling the MAC keys
terminates. Nothing is assumed about the fresh randomness of the three parties, about the scratch contents
beyond that, or about the clocks. -/
structure Ready (W : World) (ex : Nat) : Prop where
  cipher : BlockCipher W.env.E
  same0 : ∀ i, (W.env0 i).E = W.env.E
  same1 : ∀ i, (W.env1 i).E = W.env.E
  buf : BufferReady ex W.buf
  buf0 : BufferReady ex W.buf0
  buf1 : BufferReady ex W.buf1
  seed1 : W.r1.length = 17
  seed2 : W.r2.length = 16
  keys : ∃ k, drawKeys W.fuel ex W.rnd = ok k

/-- The selector a server computes for a key. -/
def keyId (hash : List Byte → List Byte) (i : Info) (ki : KeyInfo) : Res (Option (List Bool)) :=
  if i.and && !i.avg then selAnd hash i ki
  else if i.and then selEmail hash i ki
  else if i.target = 0 then selEmail hash i ki
  else if i.target = 2 then selAlgo ki
  else selCreation ki

/-- In this run no 31-bit value derived from a seed reached by the client or by a server equals the modulus. -/
def NoHits (W : World) (ex : Nat) (db : KeyDB) (q : ClientFSS) : Prop :=
  GenNoHit W.env.E ex W.r1 W.r2 q.input ∧
  ∀ ms st rnd' buf', query W.env W.fuel ex W.rnd W.buf W.r1 W.r2 q 2 = ok (ms, st, rnd', buf') →
    ∀ m ∈ ms, ∀ ki ∈ db.keys, ∀ id, keyId W.hash q.info ki = ok (some id) → EvalNoHit W.env.E ex m.key id

/-- The first 16 bytes of the hash. -/
def digest16 (hash : List Byte → List Byte) (e : List Byte) : List Byte := (hash e).take 16

/-- What an e-mail selector with the given options asks for, given the text typed by the user. -/
def EmailMatches (hash : List Byte → List Byte) (i : Info) (text email : List Byte) : Prop :=
  if i.fromStart ≠ 0 then text.take i.fromStart.toNat <+: email
  else if i.fromEnd ≠ 0 then text.drop (text.length - i.fromEnd.toNat) <:+ email
  else digest16 hash text = digest16 hash email

instance (hash : List Byte → List Byte) (i : Info) (text email : List Byte) :
    Decidable (EmailMatches hash i text email) := by
  unfold EmailMatches; infer_instance

/-- The options of an e-mail selector are usable with the text: non-negative, and the text has that many bytes. -/
def EmailValid (i : Info) (text : List Byte) : Prop :=
  0 ≤ i.fromStart ∧ i.fromStart ≤ text.length ∧ 0 ≤ i.fromEnd ∧ i.fromEnd ≤ text.length

/-- Number of bits of an e-mail selector. -/
def emailBits (i : Info) : Nat :=
  if i.fromStart ≠ 0 then 8 * i.fromStart.toNat else if i.fromEnd ≠ 0 then 8 * i.fromEnd.toNat else 128

/-- OpenPGP algorithm numbers by name (RFC 4880, section 9.1). -/
def algoNumber (name : String) : Option Nat :=
  match name with
  | "RSA" => some 1
  | "ElGamal" => some 16
  | "DSA" => some 17
  | "ECDH" => some 18
  | "ECDSA" => some 19
  | _ => none

/-- `Asks hash mk db q P`: the counting query `q` is one the client builds to count the keys of `db` satisfying
`P`. `mk` gives the time value of midnight UTC of a day. -/
inductive Asks (hash : List Byte → List Byte) (mk : Int → Time) (db : KeyDB) :
    ClientFSS → (KeyInfo → Prop) → Prop
  /-- keys whose e-mail has the prefix, the suffix or the hash of the text -/
  | email (i : Info) (text : List Byte) (q : ClientFSS) (ht : i.target = 0) (h1 : i.and = false)
      (h2 : i.avg = false) (h3 : i.sum = false) (hv : EmailValid i text) (hb : emailBits i ≤ 256)
      (hq : toEmailClientFSS hash i text = ok q) :
      Asks hash mk db q (fun ki => EmailMatches hash i text ki.email)
  /-- keys of a named algorithm -/
  | algo (i : Info) (name : String) (n : Nat) (q : ClientFSS) (ht : i.target = 2) (h1 : i.and = false)
      (h2 : i.avg = false) (h3 : i.sum = false) (hn : algoNumber name = some n)
      (hq : toPKAClientFSS i name = ok q) :
      Asks hash mk db q (fun ki => ki.algo.toNat = n)
  /-- keys created at the instant the client derives from the year (all encodings have the same length) -/
  | creation (i : Info) (year : Int) (b : List Byte) (q : ClientFSS) (ht : i.target = 1) (h1 : i.and = false)
      (h2 : i.avg = false) (h3 : i.sum = false) (hb : (mk (dateDay year 0 0)).bin = ok b) (hl : b.length ≤ 32)
      (hdb : ∀ ki ∈ db.keys, ∃ b', ki.creation.bin = ok b' ∧ b'.length = b.length)
      (hq : toCreationTimeClientFSS mk i year = ok q) :
      Asks hash mk db q (fun ki => ki.creation.bin = ok b)
  /-- keys created in 2018 whose e-mail matches (the years of all keys fit in 32 bits) -/
  | and (i : Info) (text : List Byte) (q : ClientFSS) (h1 : i.and = true) (h2 : i.avg = false)
      (h3 : i.sum = false) (hv : EmailValid i text) (hb : emailBits i ≤ 224) (hmk : ∀ d, (mk d).day = d)
      (hdb : ∀ ki ∈ db.keys, 0 ≤ ki.creation.year ∧ ki.creation.year < 2 ^ 32)
      (hq : toAndClientFSS hash mk i text = ok q) :
      Asks hash mk db q (fun ki => ki.creation.year = 2018 ∧ EmailMatches hash i text ki.email)

/-- The e-mail address begins with the text, or ends with it. -/
def AtEnd (begins : Bool) (text email : List Byte) : Prop := if begins then text <+: email else text <:+ email

/-- The text without the highest bit of its 33rd byte. -/
def withoutTop (text : List Byte) : List Byte := text.modify 32 (fun c => c &&& 0x7f)

/-- All characters are ASCII characters. -/
def Ascii (text : List Byte) : Prop := ∀ c ∈ text, c.toNat < 128

/-- The value modulo `p` that the client sees in component `j` of the two answers. -/
def observed (a0 a1 : List U32) (j : Nat) : Nat := ((a0.getD j 0 + a1.getD j 0) % Field.modP).toNat

end Verif.Predicate.Spec
