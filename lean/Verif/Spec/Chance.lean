import Verif.Spec.FssPrivacy
import Verif.Spec.Predicate

/-! # Specification vocabulary for the chance that an honest predicate query is disturbed

A run is disturbed when one of the 31-bit values derived from a seed reached by the client or a server equals the modulus.
The chance is over the random seeds and the random control byte of the client. The bounds are sums of gaps of explicit
tests against the generator, plus four chances in 2^31 for every selector that is evaluated. -/

namespace Verif.Chance
open Res Verif.Field.Spec Verif.Fss Verif.Fss.Spec Verif.Privacy Verif.Query Verif.Predicate Verif.Predicate.Spec Finset

/-- The run in which the client's seeds are `s0`, `s1` and its control byte is `tb` (lib/fss/client.go:44-53). -/
def seeded (W : World) (s0 s1 : Fin 16 → Byte) (tb : Byte) : World :=
  { W with r1 := List.ofFn s0 ++ [tb], r2 := List.ofFn s1 }

open Classical in
/-- The part of all seeds and control bytes for which `B` holds. -/
noncomputable def chance (B : (Fin 16 → Byte) → (Fin 16 → Byte) → Byte → Prop) : ℚ :=
  avg (fun s0 : Fin 16 → Byte => avg (fun s1 : Fin 16 → Byte => avg (fun tb : Byte => if B s0 s1 tb then 1 else 0)))

/-- 1 when a value derived from the seed equals the modulus. -/
def seedHit (E : Cipher) (s : List Byte) : ℚ := if NoHit E 5 s then 0 else 1

/-- 1 when one of the four values equals the modulus. -/
def valueHit (z : Fin 4 → Fin (2 ^ 31)) : ℚ := if ∃ i, (z i).1 = p then 1 else 0

/-- 1 when the key made of an initial state and correction words, evaluated at `x`, ends in a seed with such a value. -/
def keyHit (E : Cipher) (x : List Bool) (init : Own) (cws : List (List Byte)) : ℚ :=
  seedHit E (evalRec E (x.zip cws) init).1

/-- The test for the generator at level `k` of key generation: the key of party `second` for the point `a`, whose
correction words above level `k` are random and use the challenge at level `k`, is evaluated at `x`. -/
def upperTest (E : Cipher) (second : Bool) (a x : List Bool) (k : Nat) (u : List Byte) : ℚ :=
  avg (fun s : Fin 16 → Byte => avg (fun tb : Byte =>
    levelTest E a k (ownOf second s tb) (fun cws _ _ => keyHit E x (ownOf second s tb) cws) u))

/-- The mean over random correction words of what is found at the end of the walk along `x`. -/
def walkMean (E : Cipher) : List Bool → Own → ℚ
  | [], own => seedHit E own.1
  | x :: xs, own => avg (fun v : Fin 48 → Byte => walkMean E xs (evalStepC E x (cwOf v) own.1 own.2))

/-- One step of a walk whose seed expands to `u`. -/
def stepOn (x : Bool) (u cw : List Byte) (t : Byte) : Own :=
  (corr (halfU x u) t (cw.take 16), (ctlU x u ^^^ (t * cwCtl x cw)) % 2)

/-- The test for the generator at level `k` of a walk with random correction words: the seeds expanded above are
replaced by random bytes, the one at level `k` expands to the challenge. -/
def walkTest (E : Cipher) : List Bool → Nat → Byte → List Byte → ℚ
  | [], _, _, _ => 0
  | x :: xs, 0, t, u => avg (fun v : Fin 48 → Byte => walkMean E xs (stepOn x u (cwOf v) t))
  | x :: xs, k + 1, t, u => avg (fun v : Fin 48 → Byte => avg (fun w : Fin 48 → Byte =>
      walkTest E xs k (stepOn x (List.ofFn w) (cwOf v) t).2 u))

/-- The same for a random initial control bit. -/
def lowerTest (E : Cipher) (second : Bool) (x : List Bool) (k : Nat) (u : List Byte) : ℚ :=
  avg (fun tb : Byte => walkTest E x k (ownOf second 0 tb).2 u)

/-- The bound for one key and one selector: the gaps of the tests at every level, that of the last values, and the chance
that one of four random 31-bit values equals the modulus. -/
def hitBound (E : Cipher) (second : Bool) (a x : List Bool) : ℚ :=
  ∑ k ∈ range a.length, |prgGap E (upperTest E second a x k)| + ∑ k ∈ range a.length, |prgGap E (lowerTest E second x k)|
    + |convGap E valueHit| + 4 / 2 ^ 31

/-- The selectors computed for the keys of a database, each once. -/
def selectors (hash : List Byte → List Byte) (db : KeyDB) (q : ClientFSS) : List (List Bool) :=
  (db.keys.filterMap (fun ki => match keyId hash q.info ki with | .ok id => id | _ => none)).dedup

/-- The bound for a query: the first key at every selector of the database and at the query itself, the second key at the
query itself. -/
def runBound (E : Cipher) (hash : List Byte → List Byte) (db : KeyDB) (q : ClientFSS) : ℚ :=
  hitBound E false q.input q.input + hitBound E true q.input q.input
    + ((selectors hash db q).map (hitBound E false q.input)).sum

end Verif.Chance
