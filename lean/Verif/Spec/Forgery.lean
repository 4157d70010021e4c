import Verif.Spec.FssPrivacy
import Verif.Spec.Predicate
import Mathlib.Data.ZMod.Basic

/-! # Specification vocabulary for forged answers to predicate queries

One of the two servers answers as it likes, having seen its message; the other one is honest. The mean of an event over the
client's randomness, what the forging server can compute of the honest answer, and the tests for the generator that
arise. -/

namespace Verif.Forge
open Res Verif.Field Verif.Field.Spec Verif.Fss Verif.Fss.Spec Verif.Privacy Verif.Predicate Finset

/-- The values the client shares: 1, and the first three of its four MAC keys. -/
def shared (β : Fin 3 → Fin p) : Fin 4 → U32 :=
  ![1, BitVec.ofNat 32 (β 0).1, BitVec.ofNat 32 (β 1).1, BitVec.ofNat 32 (β 2).1]

/-- The state of the client holding the MAC keys `β` and `α` (lib/client/fss.go:53-63). -/
def clientState (β : Fin 3 → Fin p) (α : Fin p) : State :=
  ⟨(vals (shared β) α).tail ++ [0], vals (shared β) α⟩

/-- The mean of an event over the client's randomness: MAC keys, the seeds of the two keys and the control bit. -/
def runMean (G : (Fin 3 → Fin p) → Fin p → (Fin 16 → Byte) → (Fin 16 → Byte) → Byte → ℚ) : ℚ :=
  avg (fun β : Fin 3 → Fin p => avg (fun s0 : Fin 16 → Byte => avg (fun s1 : Fin 16 → Byte => avg (fun tb : Byte =>
    avg (fun α : Fin p => G β α s0 s1 tb)))))

/-- A record as the honest server evaluates it: the bits compared with the predicate, the word it draws in place of a value
equal to the modulus, and how often the record is counted. -/
structure Rec where
  id : List Bool
  fresh : U32
  weight : Nat

/-- What is fixed before the client draws its randomness: the block ciphers, the word `e` that the client draws in place of a
value equal to the modulus, which key the forging server gets, the predicate, and the number and the records of the honest
server. -/
structure Setting where
  E : Cipher
  e : U32
  second : Bool
  a : List Bool
  sn : Byte
  recs : List Rec

/-- The number of times matching records are counted. -/
def Setting.total (S : Setting) : Nat := ((S.recs.filter (fun r => decide (clear256 r.id = S.a))).map Rec.weight).sum

/-- The sign with which the sum of the honest answers is the total: plus if the server with number 0 has the first key. -/
def Setting.sign (S : Setting) : ZMod p := (if S.second then 1 else -1) * (if S.sn = 0 then 1 else -1)

/-- The state reached by evaluating the key `k` at `x`. -/
def endOf (E : Cipher) (k : Key) (x : List Bool) : Own := evalRec E (x.zip k.cw) (k.sInit, k.tInit)

/-- The control bit of the other party at the predicate. -/
def otherBit (S : Setting) (k : Key) : Byte := (endOf S.E k S.a).2 ^^^ 1

/-- Component `j` of what the other party derives from its last seed at the predicate, computed from the key `k` and the
shared value `b`. -/
def otherVal (S : Setting) (k : Key) (b : U32) (j : Nat) : ZMod p :=
  ((elems S.e (words S.E (endOf S.E k S.a).1)).getD j 0).toNat
    + (endOf S.E k S.a).2.toNat * (k.finalCW.getD j 0).toNat
    + (if S.second then 1 else -1) * (b.toNat : ZMod p)
    - (otherBit S k).toNat * (k.finalCW.getD j 0).toNat

/-- Components that the client has replaced are marked in `pat`; the honest server replaces them by a word of its own. -/
def otherElem (S : Setting) (k : Key) (b : U32) (pat : Fin 4 → Bool) (fresh : U32) (j : Nat) : U32 :=
  if h : j < 4 then (if pat ⟨j, h⟩ then fresh else BitVec.ofNat 32 (otherVal S k b j).val)
  else BitVec.ofNat 32 (otherVal S k b j).val

/-- Component `j` of the share of server `sn` for an element `x`, a component `c` of the final correction word and a control
bit `t` (lib/fss/server.go:78-85). -/
def shareOf (sn : Byte) (x c : U32) (t : Byte) : U32 :=
  let v := (x + t.setWidth 32 * c) % modP
  if sn = 0 then v else modP - v

/-- Component `j` of the honest server's share of a record, computed from the other key. -/
def simShare (S : Setting) (k : Key) (b : U32) (pat : Fin 4 → Bool) (r : Rec) (j : Nat) : U32 :=
  if clear256 r.id = S.a then shareOf S.sn (otherElem S k b pat r.fresh j) (k.finalCW.getD j 0) (otherBit S k)
  else shareOf S.sn ((elems r.fresh (words S.E (endOf S.E k (clear256 r.id)).1)).getD j 0) (k.finalCW.getD j 0)
    (endOf S.E k (clear256 r.id)).2

/-- Component `j` of the honest answer, computed from the other key. -/
def simWord (S : Setting) (k : Key) (b : U32) (pat : Fin 4 → Bool) (j : Nat) : U32 :=
  BitVec.ofNat 32 ((S.recs.map (fun r => r.weight * (simShare S k b pat r j).toNat)).sum % p)

/-- The honest answer, computed from the other key and the MAC keys. -/
def simAnswer (S : Setting) (k : Key) (β : Fin 3 → Fin p) (α : Fin p) (pat : Fin 4 → Bool) : List U32 :=
  (List.range 5).map (fun j => simWord S k ((vals (shared β) α).getD j 0) pat j)

/-- The client's checks of two answers of five words (lib/client/fss.go:120-131). -/
def TagsMatch (β : Fin 3 → Fin p) (α : Fin p) (A H : List U32) : Prop :=
  ∀ i, i < 4 → tagOf ((A.getD 0 0 + H.getD 0 0) % modP) ((clientState β α).alphas.getD i 0)
    = (A.getD (i + 1) 0 + H.getD (i + 1) 0) % modP

/-- The number the client derives from two answers. -/
def dataOf (A H : List U32) : Nat := ((A.getD 0 0 + H.getD 0 0) % modP).toNat

/-- The number is not the total (or its negative, when the keys went to the wrong servers). -/
def Wrong (S : Setting) (n : Nat) : Prop := (n : ZMod p) ≠ S.sign * S.total

/-- The key and the MAC keys are such that the client accepts a wrong number when the forging server answers `A`: for some
set of components that the client has replaced, the client's checks succeed on `A` and the honest answer. -/
def Forgeable (S : Setting) (A : List U32) (k : Key) (β : Fin 3 → Fin p) (α : Fin p) : Prop :=
  (∀ j, (k.finalCW.getD j 0).toNat ≤ p) ∧ Bit (endOf S.E k S.a).2 ∧
  ∃ pat : Fin 4 → Bool,
    (∀ j : Fin 4, pat j → otherVal S k ((vals (shared β) α).getD j.1 0) j.1 = S.e.toNat) ∧
    TagsMatch β α A (simAnswer S k β α pat) ∧ Wrong S (dataOf A (simAnswer S k β α pat))

/-- A test on a key and MAC keys as a test on correction words, last state and the other party's values: the MAC keys are
drawn. -/
def macCont (E : Cipher) (e : U32) (second : Bool) (T : Res Key → (Fin 3 → Fin p) → Fin p → ℚ) (init : Own) :
    List (List Byte) → Own → (Fin 4 → Fin (2 ^ 31)) → ℚ := fun cws own z =>
  avg (fun β : Fin 3 → Fin p => avg (fun α : Fin p =>
    T (ok ⟨init.1, init.2, cws, fcwOf E e second (vals (shared β) α) own z⟩) β α))

/-- The test for the generator at level `k` made from a test on keys and MAC keys. -/
def macLevelTest (E : Cipher) (e : U32) (second : Bool) (a : List Bool) (T : Res Key → (Fin 3 → Fin p) → Fin p → ℚ)
    (k : Nat) (u : List Byte) : ℚ :=
  avg (fun s : Fin 16 → Byte => avg (fun tb : Byte => levelTest E a k (ownOf second s tb)
    (fun cws own so => macCont E e second T (ownOf second s tb) cws own (words E so)) u))

/-- The test for the values of the last seed made from a test on keys and MAC keys. -/
def macWordTest (E : Cipher) (e : U32) (second : Bool) (a : List Bool) (T : Res Key → (Fin 3 → Fin p) → Fin p → ℚ)
    (z : Fin 4 → Fin (2 ^ 31)) : ℚ :=
  avg (fun s : Fin 16 → Byte => avg (fun tb : Byte => wordTest E a (ownOf second s tb)
    (macCont E e second T (ownOf second s tb)) z))

open Classical in
/-- The test that asks whether a key and MAC keys allow the forging server to have a wrong number accepted by answering
`A`, a function of its key. -/
noncomputable def forgeTest (S : Setting) (A : Key → List U32) : Res Key → (Fin 3 → Fin p) → Fin p → ℚ
  | ok k, β, α => if Forgeable S (A k) k β α then 1 else 0
  | _, _, _ => 0

/-! ### Runs -/

/-- A source of randomness from which the client draws the MAC keys `β` and `α`. -/
def macSource (β : Fin 3 → Fin p) (α : Fin p) : Rand.Prg :=
  ⟨fun i => (putBE32 ((vals (shared β) α).getD (i / 16 + 1) 0)).getD (i % 16) 0, 0⟩

/-- The world in which the client has the given randomness. -/
def drawn (W : World) (β : Fin 3 → Fin p) (α : Fin p) (s0 s1 : Fin 16 → Byte) (tb : Byte) : World :=
  { W with rnd := macSource β α, r1 := List.ofFn s0 ++ [tb], r2 := List.ofFn s1 }

/-- A query in which one server answers as it likes, given the message it gets: server 1 if `mal` holds, else server 0. As
in an honest run, the `j`-th message goes to server `j` if `inOrder` holds, and to the other one if not. -/
def forgedRun (W : World) (db : KeyDB) (q : Query.ClientFSS) (inOrder mal : Bool) (F : Msg → Res (List Byte)) : Res U32 := do
  let (ms, st, _, _) ← query W.env W.fuel 5 W.rnd W.buf W.r1 W.r2 q 2
  let m0 ← idx ms (if inOrder then 0 else 1)
  let m1 ← idx ms (if inOrder then 1 else 0)
  let a0 ← if mal then W.serve 0 5 db m0 else F m0
  let a1 ← if mal then F m1 else W.serve 1 5 db m1
  reconstructBytes 5 st [a0, a1]

open Classical in
/-- The probability that the client returns a number for which `Bad` holds. -/
noncomputable def forgeProb (W : World) (db : KeyDB) (q : Query.ClientFSS) (inOrder mal : Bool) (F : Msg → Res (List Byte))
    (Bad : Nat → Prop) : ℚ :=
  runMean (fun β α s0 s1 tb =>
    if ∃ r, forgedRun (drawn W β α s0 s1 tb) db q inOrder mal F = ok r ∧ Bad r.toNat then 1 else 0)

/-- The bits a server compares with the predicate, for a key that it evaluates. -/
def selOf (hash : List Byte → List Byte) (i : Query.Info) (ki : KeyInfo) : Option (List Bool) :=
  match Predicate.Spec.keyId hash i ki with
  | ok o => o
  | _ => none

/-- The records evaluated in the first `n` iterations. -/
def recsTo (keys : List KeyInfo) (f : KeyInfo → Option (List Bool)) (fr : Nat → U32) (wt : Nat → KeyInfo → Nat) (n : Nat) :
    List Rec :=
  (List.range n).filterMap (fun i => (keys[i]?).bind (fun ki => (f ki).map (fun id => ⟨id, fr i, wt i ki⟩)))

/-- The honest server's environments. -/
def honestEnv (W : World) (mal : Bool) : Nat → Env := if mal then W.env0 else W.env1

/-- The honest server's clock. -/
def honestNow (W : World) (mal : Bool) : Nat → Int := if mal then W.now0 else W.now1

/-- The weight with which an average counts a record. -/
def isAged (now : Nat → Int) (i : Nat) (ki : KeyInfo) : Nat := if now i - ki.creation.year < 0 then 0 else 1

/-- The weight with which an average adds up ages. -/
def ageOf (now : Nat → Int) (i : Nat) (ki : KeyInfo) : Nat := (now i - ki.creation.year).toNat

/-- What is fixed in a query before the client draws its randomness. -/
def settingOf (W : World) (db : KeyDB) (q : Query.ClientFSS) (inOrder mal : Bool) (e : U32) (fr : Nat → U32)
    (wt : Nat → KeyInfo → Nat) : Setting :=
  ⟨W.env.E, e, mal == inOrder, q.input, if mal then 0 else 1, recsTo db.keys (selOf W.hash q.info) fr wt db.numColumns⟩

/-- The words the client reads in the forged answer. -/
def wordsOf (q : Query.ClientFSS) (F : Msg → Res (List Byte)) (k : Key) : List U32 :=
  match F ⟨q.info, k⟩ with
  | ok b => match Utils.byteSliceToUint32Slice b with
    | ok a => a
    | _ => []
  | _ => []

/-- What the client gets for the number `n` from honest answers: `n` modulo the modulus, or its negative when the keys went to
the wrong servers. -/
def due (inOrder : Bool) (n : Nat) : Nat := if inOrder then n % p else (p - n % p) % p

/-- The number `n` is the average of `count` ages that sum up to `total`, as the client computes it in either order of the
messages. There is none for no keys. -/
def MeanOf (inOrder : Bool) (total count n : Nat) : Prop := due inOrder count ≠ 0 ∧ n = due inOrder total / due inOrder count

/-- The parties are set up, except for the client's randomness: the client replaces derived values equal to the modulus by
`e`, the honest server by `fr i` in iteration `i`. -/
structure Setup (W : World) (mal : Bool) (e : U32) (fr : Nat → U32) : Prop where
  cipher : BlockCipher W.env.E
  same : ∀ i, (honestEnv W mal i).E = W.env.E
  buf : BufferReady 5 W.buf
  buf0 : BufferReady 5 W.buf0
  buf1 : BufferReady 5 W.buf1
  fuel : 0 < W.fuel
  draw : resample W.env.fresh W.env.fuel 0 modP = ok e
  canonical : Canonical e
  draws : ∀ i, resample (honestEnv W mal i).fresh (honestEnv W mal i).fuel 0 modP = ok (fr i)

/-- The sum of the advantages, against the generator and the derivation of values, of the tests made from a test on keys and
MAC keys. -/
noncomputable def testGap (S : Setting) (T : Res Key → (Fin 3 → Fin p) → Fin p → ℚ) : ℚ :=
  ∑ k ∈ range S.a.length, |prgGap S.E (macLevelTest S.E S.e S.second S.a T k)|
    + |convGap S.E (macWordTest S.E S.e S.second S.a T)|

/-- The advantage of the tests that look for a forgery of the words `A`. -/
noncomputable def forgeGap (S : Setting) (A : Key → List U32) : ℚ := testGap S (forgeTest S A)

/-- The test that looks for a forgery among ten words: of the number of keys or of the sum of their ages. -/
noncomputable def avgTest (S1 S2 : Setting) (A : Key → List U32) : Res Key → (Fin 3 → Fin p) → Fin p → ℚ
  | ok k, β, α => if 10 ≤ (A k).length then
      forgeTest S1 A (ok k) β α + forgeTest S2 (fun k => (A k).drop 5) (ok k) β α else 0
  | _, _, _ => 0

/-- The advantage of the tests that look for a forgery of an average. -/
noncomputable def avgGap (S1 S2 : Setting) (A : Key → List U32) : ℚ := testGap S1 (avgTest S1 S2 A)

end Verif.Forge
