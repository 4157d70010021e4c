import Verif.Spec.SingleAnswer

/-! # Specification: the complete table of what the single-server clients make of any answer -/

namespace Verif.Lwe.Spec
open Verif.Matrix

/-- Modulo `2^w` the number is one of `-lo, ..., hi`. -/
def Near (w : Nat) (lo hi : Int) (v : Int) : Prop := ∃ x, -lo ≤ x ∧ x ≤ hi ∧ (2 ^ w : Int) ∣ v - x

/-- The inner product of the client's secret with column `i` of the digest. -/
def awaited {w : Nat} (st : State w) (i : Nat) : Int :=
  ∑ k ∈ Finset.range st.secret.cols, ((st.secret.entry 0 k).toNat : Int) * (st.digest.entry k i).toNat

/-- Word `i` of the answer without the expected part. -/
def rest {w : Nat} (F : Format) (st : State w) (a : List Byte) (i : Nat) : Int := F.word a i - awaited st i

/-- Word `i` of the answer can be read as zero or as one. -/
def Clear {w : Nat} (F : Format) (lo hi : Int) (st : State w) (a : List Byte) (i : Nat) : Prop :=
  Near w lo hi (rest F st a i) ∨ Near w lo hi (rest F st a i - st.t.toNat)

/-- The answer is a row of the client's width with no more words than that. -/
def Row (F : Format) (m : Nat) (a : List Byte) : Prop :=
  8 ≤ a.length ∧ announcedRows a = 1 ∧ announcedColumns a = m ∧ carried F a ≤ m

/-- The client has drawn a secret for a digest of its width, of a size its multiplication can handle. -/
structure Prepared {w : Nat} (p : Params) (st : State w) : Prop where
  secret : st.secret.WellFormed
  digest : st.digest.WellFormed
  one : st.secret.rows = 1
  matching : st.secret.cols = st.digest.rows
  width : st.digest.cols = p.m
  fits : FitsInt 1 st.digest.rows p.m
  column : st.j < p.m

/-- What a client does: return a bit, reject, or panic. -/
inductive Outcome where
  | bit (b : Nat)
  | reject
  | panic
deriving DecidableEq

/-- The table for an answer. Columns are read from the first on; a word that cannot be read makes the client reject, a missing word
makes it panic, whichever comes first. -/
inductive Table {w : Nat} (F : Format) (lo hi : Int) (m : Nat) (st : State w) (a : List Byte) : Outcome → Prop
  | malformed : ¬ Row F m a → Table F lo hi m st a .panic
  | unclear (i : Nat) : Row F m a → i < carried F a → ¬ Clear F lo hi st a i → Table F lo hi m st a .reject
  | missing : Row F m a → (∀ i, i < carried F a → Clear F lo hi st a i) → carried F a < m → Table F lo hi m st a .panic
  | zero : Row F m a → (∀ i, i < carried F a → Clear F lo hi st a i) → carried F a = m →
      Near w lo hi (rest F st a st.j) → Table F lo hi m st a (.bit 0)
  | one : Row F m a → (∀ i, i < carried F a → Clear F lo hi st a i) → carried F a = m →
      ¬ Near w lo hi (rest F st a st.j) → Table F lo hi m st a (.bit 1)

/-- The outcome a result stands for. -/
def outcome : Res U32 → Outcome
  | .ok b => .bit b.toNat
  | .err _ => .reject
  | .crash _ => .panic

/-- Piece `i` of a message of several matrices, which starts with the length of the pieces. -/
def pieceOf (a : List Byte) (i : Nat) : List Byte := (a.drop (4 + i * number a 0)).take (number a 0)

/-- How many complete pieces follow the first number. -/
def pieces (a : List Byte) : Nat := (a.length - 4) / number a 0

/-- The pieces can be read, if there are any. -/
def Splits (a : List Byte) : Prop := 4 ≤ a.length ∧ 0 < number a 0 ∧ (8 ≤ number a 0 ∨ pieces a = 0)

/-- The first `n` pieces come out as these bits. -/
def Bits (lo hi : Int) (m : Nat) (sts : List (State 32)) (a : List Byte) (n : Nat) (bs : List Nat) : Prop :=
  bs.length = n ∧ ∀ (i : Nat) (st : State 32) (b : Nat), sts[i]? = some st → bs[i]? = some b →
    Table format32 lo hi m st (pieceOf a i) (.bit b)

/-- The table for an answer to an amplified query. Repetitions are read from the first on; the first that is not read as a bit ends
the lookup the same way; if all are, the bit of the first repetition is returned if more than half of them agree with it. -/
inductive ManyTable (lo hi : Int) (m : Nat) (sts : List (State 32)) (a : List Byte) : Outcome → Prop
  | malformed : ¬ Splits a → ManyTable lo hi m sts a .panic
  | stops (i : Nat) (bs : List Nat) (st : State 32) (o : Outcome) : Splits a → i < pieces a → Bits lo hi m sts a i bs →
      sts[i]? = some st → Table format32 lo hi m st (pieceOf a i) o → (∀ b, o ≠ .bit b) → ManyTable lo hi m sts a o
  | missing (bs : List Nat) : Splits a → pieces a < sts.length → Bits lo hi m sts a (pieces a) bs →
      ManyTable lo hi m sts a .panic
  | majority (b : Nat) (bs : List Nat) : Splits a → sts.length ≤ pieces a → Bits lo hi m sts a sts.length (b :: bs) →
      sts.length < 2 * (b :: bs).count b → ManyTable lo hi m sts a (.bit b)
  | split (b : Nat) (bs : List Nat) : Splits a → sts.length ≤ pieces a → Bits lo hi m sts a sts.length (b :: bs) →
      ¬ sts.length < 2 * (b :: bs).count b → ManyTable lo hi m sts a .reject

end Verif.Lwe.Spec

namespace Verif.Dh.Spec
open Res Verif.Lwe.Spec

variable {G : Type}

/-- The pieces before piece `k` decode to elements; piece `k` is incomplete, is refused by the decoder or makes it panic. -/
def Unreadable (g : Grp G) (n : Nat) (a : List Byte) (k : Nat) (o : Outcome) : Prop :=
  (∀ i, i < k → ∃ x, g.dec (piece n a i) = ok x) ∧ k * n < a.length ∧
    ((a.length < (k + 1) * n ∧ o = .panic) ∨
     ((k + 1) * n ≤ a.length ∧ (∃ e, g.dec (piece n a k) = err e) ∧ o = .reject) ∨
     ((k + 1) * n ≤ a.length ∧ (∃ e, g.dec (piece n a k) = crash e) ∧ o = .panic))

variable [AddCommGroup G]

/-- Row `i` of an answer without the blinded digest of the row. -/
def remainder (r : Int) (ds v : List G) (i : Nat) : G := v.getD i 0 - r • ds.getD i 0

/-- Row `i` of an answer is the neutral element or the blinding element after the blinded digest is taken away. -/
def RowClear (st : State G) (ds v : List G) (i : Nat) : Prop :=
  remainder st.r ds v i = 0 ∨ remainder st.r ds v i = st.ht

/-- The table for an answer over a group, with `ds` the digests of the rows. Rows are read from the first on; a row that is neither
neutral nor blinding makes the client reject, a missing row makes it panic, whichever comes first. Rows beyond those of the database
are decoded but not looked at. -/
inductive GroupTable (g : Grp G) (n : Nat) (ds : List G) (st : State G) (a : List Byte) : Outcome → Prop
  | unreadable (k : Nat) (o : Outcome) : Unreadable g n a k o → GroupTable g n ds st a o
  | unclear (v : List G) (i : Nat) : Lists g n a v → i < ds.length → i < v.length → ¬ RowClear st ds v i →
      GroupTable g n ds st a .reject
  | missing (v : List G) : Lists g n a v → v.length < ds.length → (∀ i, i < v.length → RowClear st ds v i) →
      GroupTable g n ds st a .panic
  | zero (v : List G) : Lists g n a v → ds.length ≤ v.length → (∀ i, i < ds.length → RowClear st ds v i) →
      (∀ i : Nat, (i : Int) = st.ix → i < ds.length → remainder st.r ds v i = 0) → GroupTable g n ds st a (.bit 0)
  | one (v : List G) (i : Nat) : Lists g n a v → ds.length ≤ v.length → (∀ i, i < ds.length → RowClear st ds v i) →
      (i : Int) = st.ix → i < ds.length → remainder st.r ds v i ≠ 0 → GroupTable g n ds st a (.bit 1)

/-- The outcome a result stands for. -/
def outcomeOf : Res Byte → Outcome
  | .ok b => .bit b.toNat
  | .err _ => .reject
  | .crash _ => .panic

end Verif.Dh.Spec
