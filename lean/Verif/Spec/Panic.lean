import Verif.Spec.Predicate

/-! # Specification vocabulary for the answers that make a client panic -/

namespace Verif.Panic.Spec
open Verif.Field.Spec

/-! ### Point lookups -/

/-- The block of `size` bytes at position `row` of the answers, added up bit by bit. -/
def combined (size row : Nat) (answers : List (List Byte)) : List Byte :=
  (List.range size).map fun t => (answers.map fun a => a.getD (row * size + t) 0).foldl (· ^^^ ·) 0

/-- Some answer ends before the requested block does. -/
def SomeTooShort (size row : Nat) (answers : List (List Byte)) : Prop :=
  ∃ a ∈ answers, a.length < (row + 1) * size

/-- A block a record with a proof can be read from: without the zeros at its end and the byte before them it is at least as long
as a proof, a proof has at least four bytes, and the number of hashes announced at the start of the proof is below 2^27 and
leaves the hashes within the block. -/
def Readable (proofLen : Nat) (block : List Byte) : Prop :=
  ∃ (body : List Byte) (last : Byte) (zeros : Nat), block = body ++ last :: List.replicate zeros 0 ∧ last ≠ 0 ∧
    4 ≤ proofLen ∧ proofLen ≤ body.length ∧
    ofLE ((block.drop (body.length - proofLen)).take 4) < 2 ^ 27 ∧
    4 + 32 * ofLE ((block.drop (body.length - proofLen)).take 4) ≤ block.length - (body.length - proofLen)

/-! ### Statistics queries -/

/-- What the client takes from word `i` of both answers: their sum in 32 bits, reduced modulo the prime. -/
def joint (a0 a1 : List U32) (i : Nat) : Nat := ((a0.getD i 0).toNat + (a1.getD i 0).toNat) % 2 ^ 32 % p

/-- The `i`-th tag after word `off` fits word `off`. -/
def TagFits (alphas a0 a1 : List U32) (off i : Nat) : Prop :=
  joint a0 a1 (off + i + 1) = joint a0 a1 off * (alphas.getD i 0).toNat % p

/-- The answers to a counting query on which the client panics: one has no word, or one has too few words and all the tags that
can still be compared fit. -/
def CountPanics (n : Nat) (alphas a0 a1 : List U32) : Prop :=
  a0 = [] ∨ a1 = [] ∨
    (min a0.length a1.length < n ∧ ∀ i, i + 1 < min a0.length a1.length → TagFits alphas a0 a1 0 i)

/-- The answers to an average query on which the client panics (the first has `2 n` words): the second lacks the sums, or it lacks
some of their tags and everything that is compared before fits, or everything fits and the count is zero. -/
def AveragePanics (n : Nat) (alphas a0 a1 : List U32) : Prop :=
  a1.length ≤ n ∨
    (a1.length < 2 * n ∧ (∀ i, i + 1 < a1.length - n → TagFits alphas a0 a1 n i) ∧
      ∀ i, i < a1.length - n → TagFits alphas a0 a1 0 i) ∨
    (2 * n ≤ a1.length ∧ (∀ i, i + 1 < n → TagFits alphas a0 a1 0 i ∧ TagFits alphas a0 a1 n i) ∧ joint a0 a1 0 = 0)

/-- The words of an answer; bytes after the last full word are ignored. -/
def wordsOf (b : List Byte) : List U32 :=
  (List.range (b.length / 4)).map fun i => BitVec.ofNat 32 (ofBE ((b.drop (4 * i)).take 4))

/-- The answers to a statistics query on which the client panics. -/
def StatisticsPanics (n : Nat) (alphas : List U32) : List (List U32) → Prop
  | a0 :: a1 :: _ => if a0.length = 2 * n then AveragePanics n alphas a0 a1 else CountPanics n alphas a0 a1
  | _ => True

/-- The answers to a statistics query for which the client returns `r`: everything that is compared fits, and `r` is the count,
or the sum divided by a count that is not zero. -/
def StatisticsReturns (n : Nat) (alphas : List U32) (r : Nat) : List (List U32) → Prop
  | a0 :: a1 :: _ =>
    if a0.length = 2 * n then
      2 * n ≤ a1.length ∧ (∀ i, i + 1 < n → TagFits alphas a0 a1 0 i ∧ TagFits alphas a0 a1 n i) ∧ joint a0 a1 0 ≠ 0 ∧
        r = joint a0 a1 n / joint a0 a1 0
    else n ≤ a0.length ∧ n ≤ a1.length ∧ (∀ i, i + 1 < n → TagFits alphas a0 a1 0 i) ∧ r = joint a0 a1 0
  | _ => False

end Verif.Panic.Spec
