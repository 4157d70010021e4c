import Verif.Model.Coins
import Verif.Spec.Gauss
import Verif.Spec.Lwe

/-! # Specification: draws from random key streams

The key stream of the client's generator has `M` random bytes from the current position on, the shared one has the bytes of
`N` random words from its current position on. Nothing is assumed about the bytes used before or after. -/

namespace Verif.Coins.Spec
open Res Verif.Privacy Verif.Rand Verif.Matrix Verif.Lwe

/-- The key stream that has the bytes `B` from `pos` on and is `rest` elsewhere. -/
def tape (rest : Nat → Byte) (pos M : Nat) (B : Fin M → Byte) : Nat → Byte := fun i =>
  if h : pos ≤ i ∧ i - pos < M then B ⟨i - pos, h.2⟩ else rest i

/-- What is fixed about a query: what the generators delivered before and how much of them is random. -/
structure Past where
  rest : Nat → Byte
  pos : Nat
  M : Nat
  rest' : Nat → Byte
  m : Nat
  N : Nat

/-- The draws of a query when the random bytes are `B` and `B'`. -/
def draws (P : Past) (fl : ℚ → ℚ) (k n l : Nat) (B : Fin P.M → Byte) (B' : Fin (8 * P.N) → Byte) : Res Coins :=
  drawCoins fl k n l ⟨tape P.rest P.pos P.M B, P.pos⟩ (tape P.rest' (8 * P.m) (8 * P.N) B') P.m P.N

open Classical in
/-- The part of all random bytes for which `A` holds of the draws. -/
noncomputable def part (P : Past) (fl : ℚ → ℚ) (k n l : Nat) (A : Res Coins → Prop) : ℚ :=
  avg (fun B : (Fin P.M → Byte) × (Fin (8 * P.N) → Byte) => if A (draws P fl k n l B.1 B.2) then 1 else 0)

/-- The draws are the multiplier `t`, the secret `s` and the noise `gs`. -/
def Are {k : Nat} (t : BitVec (8 * k)) (s : List (BitVec (8 * k))) (gs : List Int) (r : Res Coins) : Prop :=
  ∃ c, r = ok c ∧ ofRandom (8 * k) k 1 1 c.tBytes = ⟨1, 1, [t]⟩ ∧ ofRandom (8 * k) k 1 s.length c.sBytes = ⟨1, s.length, s⟩ ∧
    c.noise = gs

/-- The draws of an amplified query when the random bytes are `B` and `B'`. -/
def amplifiedDraws (P : Past) (fl : ℚ → ℚ) (n l tECC : Nat) (B : Fin P.M → Byte) (B' : Fin (8 * P.N) → Byte) :
    Res (List Coins) :=
  drawAmplified fl n l tECC ⟨tape P.rest P.pos P.M B, P.pos⟩ (tape P.rest' (8 * P.m) (8 * P.N) B') P.m P.N

open Classical in
/-- The part of all random bytes for which `A` holds of the draws of an amplified query. -/
noncomputable def amplifiedPart (P : Past) (fl : ℚ → ℚ) (n l tECC : Nat) (A : Res (List Coins) → Prop) : ℚ :=
  avg (fun B : (Fin P.M → Byte) × (Fin (8 * P.N) → Byte) => if A (amplifiedDraws P fl n l tECC B.1 B.2) then 1 else 0)

/-- The chance `p` is at most `main + rare`; and it is at least `main` times the chance that `c` words suffice for each of
`draws` noise values and that nothing `rare` happens, whenever that many words are available. -/
def Between (p main : ℚ) (draws : Nat) (rare : ℚ) (N : Nat) : Prop :=
  p ≤ main + rare ∧ ∀ c, 4 ≤ c → c * draws ≤ N → main * (1 - draws * (11 / 10 * (97 / 100) ^ c) - rare) ≤ p

/-- The draws are complete, and the retrieval of entry `index` from an honest server with them gives anything but the
stored bit: another bit, a rejection, a crash. -/
def Fails {w : Nat} (S : Scheme w) (aesctr : List Byte → Nat → Byte) (p : Params) (db : Db w) (index : Nat) (r : Res Coins) : Prop :=
  ∃ coins, r = ok coins ∧ retrieve S aesctr p db.numColumns db.digest coins index (answerBytes S db)
    ≠ ok (BitVec.ofNat 32 (storedBit db.matrix (index / db.numColumns) (index % db.numColumns)))

/-- A bit database of size `rows × cols` published with its digest, of a size the C kernels can handle. -/
structure Published {w : Nat} (S : Scheme w) (aesctr : List Byte → Nat → Byte) (n : Nat) (db : Db w) : Prop where
  valid : db.Valid
  digest : digest S aesctr n db.matrix db.numRows = ok db.digest
  fits : FitsInt n db.numRows db.numColumns

/-- The draws are complete, and the amplified retrieval of entry `index` from an honest server with them gives anything but
the stored bit. -/
def AmplifiedFails (aesctr : List Byte → Nat → Byte) (p : Params) (db : Db 32) (index : Nat) (r : Res (List Coins)) : Prop :=
  ∃ coins, r = ok coins ∧ amplifyRetrieve aesctr p db.numColumns db.digest coins index (amplifyAnswerBytes db)
    ≠ ok (BitVec.ofNat 32 (storedBit db.matrix (index / db.numColumns) (index % db.numColumns)))

/-- The draws are complete, and the amplified retrieval of entry `index` from an honest server with them accepts a value
that is not the stored bit. -/
def AmplifiedWrong (aesctr : List Byte → Nat → Byte) (p : Params) (db : Db 32) (index : Nat) (r : Res (List Coins)) : Prop :=
  ∃ coins b, r = ok coins ∧ amplifyRetrieve aesctr p db.numColumns db.digest coins index (amplifyAnswerBytes db) = ok b ∧
    b ≠ BitVec.ofNat 32 (storedBit db.matrix (index / db.numColumns) (index % db.numColumns))

/-- The chance that of `2t+1` independent trials with chance `p` the first and altogether more than `t` succeed. -/
def firstAndMost (t : Nat) (p : ℚ) : ℚ :=
  p * ∑ m ∈ Finset.range (t + 1), (2 * t).choose (t + m) * (p ^ (t + m) * (1 - p) ^ (t - m))

end Verif.Coins.Spec
