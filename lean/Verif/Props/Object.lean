import Verif.Lemmas.Object
import Verif.Props.MerklePir
import Verif.Props.Lwe
import Verif.Props.Dh
import Verif.Props.Predicate

/-! # C97: one client object, many lookups; C98: one answer, reconstructed twice -/

namespace Verif.Object
open Res

/-! ### Multi-server point client -/

theorem pointQuery_eq (info : Database.Info) (o : Option Point.State) (q : PointQuery) :
    Point.query q.dpf q.read info q.index q.numServers =
      ((pointQuery info o q).2 >>= fun m => match (pointQuery info o q).1 with
        | some st => ok (m, st)
        | none => crash "") := by
  unfold Point.query pointQuery
  split
  · rfl
  cases Database.vectorToMatrixIndices q.index info.numColumns with
  | err m => rfl
  | crash m => rfl
  | ok x =>
    rw [ok_bind]
    dsimp only
    split
    · cases q.dpf.gen (Point.toU64 x.2) (Point.bitsLen info.numColumns) <;> rfl
    · cases Point.secretShare q.read info.numColumns x.2 q.numServers <;> rfl

/-- The messages do not depend on the object, and neither does the state of a query that succeeds. -/
theorem pointQuery_same (info : Database.Info) (o o' : Option Point.State) (q : PointQuery) :
    (pointQuery info o q).2 = (pointQuery info o' q).2 ∧
      ∀ m, (pointQuery info o q).2 = ok m → (pointQuery info o q).1 = (pointQuery info o' q).1 := by
  unfold pointQuery
  split
  · exact ⟨rfl, fun m h => by cases h⟩
  cases Database.vectorToMatrixIndices q.index info.numColumns with
  | err m => exact ⟨rfl, fun m h => by cases h⟩
  | crash m => exact ⟨rfl, fun m h => by cases h⟩
  | ok x => exact ⟨rfl, fun _ _ => rfl⟩

/-- C97 for the multi-server point client, classical and verified: after any history of calls a query sends what a new
object would send, and answers are reconstructed as by a new object on which only the last query was made. -/
theorem C97_point (H : List Byte → List Byte) (info : Database.Info) :
    SameMessages (point H info) ∧ LastQueryCounts (point H info) (fun _ => True) :=
  ⟨sameMessages _ (fun _ => True) trivial (fun _ _ _ => trivial) (fun _ _ => rfl) (fun _ q _ => (pointQuery_same info _ _ q).1),
    lastQueryCounts _ _ (fun _ => True) trivial (fun _ _ _ => trivial) (fun _ _ => rfl)
      (fun _ q m _ _ h => (pointQuery_same info _ _ q).2 m h)⟩

theorem point_lookup (H : List Byte → List Byte) (db : Database.Bytes) (o : Option Point.State) (q : PointQuery) (mode : Nat) :
    (point H db.info).lookup o q (fun ms => ms.mapM (Point.answer q.dpf mode db)) =
      MerklePir.retrieveAuth H q.dpf q.read mode db q.index q.numServers := by
  unfold MerklePir.retrieveAuth
  rw [pointQuery_eq db.info o q]
  unfold Client.lookup
  show ((pointQuery db.info o q).2 >>= fun m => _ >>= fun a => (pointReconstruct H db.info (pointQuery db.info o q).1 a).2) = _
  cases h : (pointQuery db.info o q).2 with
  | err m => rfl
  | crash m => rfl
  | ok m =>
    have hs : ∃ st, (pointQuery db.info o q).1 = some st := by
      unfold pointQuery at h ⊢
      split at h
      · cases h
      rename_i hi
      rw [if_neg hi]
      split at h <;> rename_i heq
      · exact ⟨_, rfl⟩
      · cases h
      · cases h
    obtain ⟨st, hst⟩ := hs
    rw [hst]
    rfl

/-- C97: a lookup with an object that has been used in any way is the exchange of C01, C02 and C10. -/
theorem C97_point_lookup (H : List Byte → List Byte) (db : Database.Bytes) (past : List (Call PointQuery (List (List Byte))))
    (q : PointQuery) (mode : Nat) :
    (point H db.info).lookup ((point H db.info).after past) q (fun ms => ms.mapM (Point.answer q.dpf mode db)) =
      MerklePir.retrieveAuth H q.dpf q.read mode db q.index q.numServers :=
  point_lookup H db _ q mode

/-- C97: all lookups of a session with one object return the block asked for, with any number of servers but two. -/
theorem C97_point_session (H : List Byte → List Byte) (db : Database.Bytes) (blocks : List (List Byte))
    (hdb : Point.Spec.Stores db blocks) (hty : db.info.pirType = "") (past : List (Call PointQuery (List (List Byte))))
    (asked : List (Point.Dpf × (Nat → Res (List Byte)) × Nat × Nat))
    (hasked : ∀ x ∈ asked, Point.Delivers x.2.1 ∧ x.2.2.1 < blocks.length ∧ 0 < x.2.2.2 ∧ x.2.2.2 ≠ 2) :
    lookups (point H db.info) ((point H db.info).after past)
        (asked.map fun x => (⟨x.1, x.2.1, (x.2.2.1 : Int), (x.2.2.2 : Int)⟩, fun ms => ms.mapM (Point.answer x.1 0 db))) =
      asked.map (fun x => ok (Point.Spec.zeroExtend db.info.blockSize (blocks.getD x.2.2.1 []))) := by
  generalize (point H db.info).after past = o
  induction asked generalizing o with
  | nil => rfl
  | cons x asked ih =>
    rw [List.map_cons, List.map_cons]
    unfold lookups
    rw [ih (fun y hy => hasked y (by simp [hy]))]
    congr 1
    obtain ⟨h1, h2, h3, h4⟩ := hasked x (by simp)
    rw [point_lookup H db o ⟨x.1, x.2.1, (x.2.2.1 : Int), (x.2.2.2 : Int)⟩ 0]
    have h := Point.C01_retrieve x.1 x.2.1 h1 db blocks hdb x.2.2.1 x.2.2.2 h2 h3 h4
    rw [show blocks.getD x.2.2.1 [] = blocks[x.2.2.1] by simp [List.getD, h2], ← h]
    unfold MerklePir.retrieveAuth MerklePir.reconstructPIR Point.retrieve
    rw [hty]
    rfl

/-- Two lookups with one object, after a query that panics and an answer that is too short. -/
example : lookups (point id Point.exDB.info) ((point id Point.exDB.info).after
      [.query ⟨Point.plainDpf, Point.sevens, -3, 3⟩, .reconstruct [[1]]])
    ([(Point.plainDpf, Point.sevens, 3, 3), (Point.plainDpf, Point.sevens, 1, 4)].map fun x =>
      (⟨x.1, x.2.1, (x.2.2.1 : Int), (x.2.2.2 : Int)⟩, fun ms => ms.mapM (Point.answer x.1 0 Point.exDB))) =
    [ok [4, 5, 6], ok [3, 0, 0]] :=
  C97_point_session id Point.exDB Point.exBlocks Point.exDB_stores rfl _
    [(Point.plainDpf, Point.sevens, 3, 3), (Point.plainDpf, Point.sevens, 1, 4)] (by
    intro x hx
    simp only [List.mem_cons, List.not_mem_nil, or_false] at hx
    rcases hx with rfl | rfl
    · exact ⟨Point.sevens_delivers, by decide, by decide, by decide⟩
    · exact ⟨Point.sevens_delivers, by decide, by decide, by decide⟩)

/-- Two lookups that overlap: the answers to the first query reconstructed after the second one was made. -/
def overlap (c : Client O Q M A R) (past : List (Call Q A)) (q1 q2 : Q) (server : M → Res A) : Res R := do
  let m ← (c.query (c.after past) q1).2
  let a ← server m
  (c.reconstruct (c.after (past ++ [.query q1, .query q2])) a).2

/-- C97, full statement: a client object can be used for any number of lookups, also for several at a time: after any
calls, the answers to a query are reconstructed to the block asked for in that query, or to an error, even if another
query was made since. -/
def C97_Statement : Prop :=
  ∀ (H : List Byte → List Byte) (db : Database.Bytes) (blocks : List (List Byte)) (past : List (Call PointQuery (List (List Byte))))
    (dpf : Point.Dpf) (read read' : Nat → Res (List Byte)) (i j n : Nat), Point.Spec.Stores db blocks → db.info.pirType = "" →
    Point.Delivers read → Point.Delivers read' → 2 < n → i < blocks.length → j < blocks.length →
    overlap (point H db.info) past ⟨dpf, read, i, n⟩ ⟨dpf, read', j, n⟩ (fun ms => ms.mapM (Point.answer dpf 0 db)) =
        ok (Point.Spec.zeroExtend db.info.blockSize (blocks.getD i [])) ∨
      (overlap (point H db.info) past ⟨dpf, read, i, n⟩ ⟨dpf, read', j, n⟩ (fun ms => ms.mapM (Point.answer dpf 0 db))).isErr

/-- C97: what a point client returns for overlapping lookups is the block (or, in the verified scheme, the verified record)
in the column of the first and the row of the second query: no error is reported. -/
theorem C97_point_overlap (H : List Byte → List Byte) (db : Database.Bytes)
    (past : List (Call PointQuery (List (List Byte)))) (dpf dpf' : Point.Dpf) (read read' : Nat → Res (List Byte)) (i j n n' : Nat)
    (mode : Nat) (hC : 0 < db.info.numColumns) :
    overlap (point H db.info) past ⟨dpf, read, i, n⟩ ⟨dpf', read', j, n'⟩ (fun ms => ms.mapM (Point.answer dpf mode db)) =
      MerklePir.retrieveAuth H dpf read mode db ((j / db.info.numColumns * db.info.numColumns + i % db.info.numColumns : Nat) : Int) n := by
  have hinv : ∀ (a b : Nat), Point.invalidQueryInputsIT a b = false := by
    intro a b; simp [Point.invalidQueryInputsIT]
  have hd : (j / db.info.numColumns * db.info.numColumns + i % db.info.numColumns) / db.info.numColumns = j / db.info.numColumns := by
    rw [Nat.mul_comm, Nat.mul_add_div hC, Nat.div_eq_of_lt (Nat.mod_lt _ hC), Nat.add_zero]
  have hm : (j / db.info.numColumns * db.info.numColumns + i % db.info.numColumns) % db.info.numColumns = i % db.info.numColumns := by
    rw [Nat.mul_comm, Nat.mul_add_mod, Nat.mod_mod]
  unfold overlap MerklePir.retrieveAuth
  rw [after_append, pointQuery_eq db.info ((point H db.info).after past) ⟨dpf, read, _, n⟩]
  generalize (point H db.info).after past = o
  show ((pointQuery db.info o _).2 >>= fun m => _ >>= fun a => (pointReconstruct H db.info (pointQuery db.info
    (pointQuery db.info o _).1 ⟨dpf', read', j, n'⟩).1 a).2) = _
  unfold pointQuery
  dsimp only
  simp only [hinv, Bool.false_eq_true, if_false, Point.indices _ _ hC, hd, hm]
  split
  · cases h : (dpf.gen (Point.toU64 ((i % db.info.numColumns : Nat) : Int)) (Point.bitsLen db.info.numColumns)) <;> rfl
  · cases h : Point.secretShare read db.info.numColumns ((i % db.info.numColumns : Nat) : Int) n <;> rfl

/-- C97 is false: of two overlapping lookups the first returns another block, without an error. -/
theorem C97_refuted : ¬ C97_Statement := by
  intro h
  have h1 := h id Point.exDB Point.exBlocks [] Point.plainDpf Point.sevens Point.sevens 1 2 3 Point.exDB_stores rfl
    Point.sevens_delivers Point.sevens_delivers (by decide) (by decide) (by decide)
  have e : overlap (point id Point.exDB.info) [] ⟨Point.plainDpf, Point.sevens, (1 : Nat), (3 : Nat)⟩
      ⟨Point.plainDpf, Point.sevens, (2 : Nat), (3 : Nat)⟩ (fun ms => ms.mapM (Point.answer Point.plainDpf 0 Point.exDB)) =
      ok [4, 5, 6] := by
    rw [C97_point_overlap id Point.exDB [] Point.plainDpf Point.plainDpf Point.sevens Point.sevens 1 2 3 3 0 (by decide)]
    decide +kernel
  rw [e] at h1
  rcases h1 with h1 | h1
  · exact absurd h1 (by decide)
  · simp at h1

/-- C97, what holds: lookups that overlap are safe if they are for the same row, in particular in a database of one row. -/
theorem C97_same_row_partial (H : List Byte → List Byte) (db : Database.Bytes)
    (past : List (Call PointQuery (List (List Byte)))) (dpf dpf' : Point.Dpf) (read read' : Nat → Res (List Byte)) (i j n n' : Nat)
    (mode : Nat) (hC : 0 < db.info.numColumns) (hrow : i / db.info.numColumns = j / db.info.numColumns) :
    overlap (point H db.info) past ⟨dpf, read, i, n⟩ ⟨dpf', read', j, n'⟩ (fun ms => ms.mapM (Point.answer dpf mode db)) =
      MerklePir.retrieveAuth H dpf read mode db i n := by
  rw [C97_point_overlap H db past dpf dpf' read read' i j n n' mode hC, ← hrow, Nat.mul_comm, Nat.div_add_mod]

/-- Blocks 0 and 1 of a database with two columns are in the same row. -/
example : overlap (point id Point.exDB.info) [] ⟨Point.plainDpf, Point.sevens, (1 : Nat), (3 : Nat)⟩
    ⟨Point.plainDpf, Point.sevens, (0 : Nat), (3 : Nat)⟩ (fun ms => ms.mapM (Point.answer Point.plainDpf 0 Point.exDB)) =
    ok [3, 0, 0] := by
  rw [C97_same_row_partial id Point.exDB [] Point.plainDpf Point.plainDpf Point.sevens Point.sevens 1 0 3 3 0 (by decide) (by decide)]
  decide +kernel

/-- C97: before the first query, answers make the client panic. -/
theorem C97_point_no_query (H : List Byte → List Byte) (info : Database.Info) (as : List (List (List Byte)))
    (a : List Byte) (rest : List (List Byte)) :
    ((point H info).reconstruct ((point H info).after (as.map .reconstruct)) (a :: rest)).2.isCrash := by
  unfold Client.after
  rw [foldl_reconstruct _ (fun _ _ => rfl)]
  exact trivial

/-- C97: a query of a multi-server client that is refused at once, because its arguments are invalid or the database has no
columns, leaves the object as it was: answers to the query before it are still reconstructed as if it had not been made. -/
theorem C97_point_refused (H : List Byte → List Byte) (info : Database.Info) (past : List (Call PointQuery (List (List Byte))))
    (q : PointQuery) (h : q.index < 0 ∧ q.numServers < 2 ∨ info.numColumns = 0) (answers : List (List Byte)) :
    ((point H info).query ((point H info).after past) q).2.isCrash ∧
    (point H info).reconstruct ((point H info).after (past ++ [.query q])) answers =
      (point H info).reconstruct ((point H info).after past) answers := by
  have key : ∀ o, (pointQuery info o q).1 = o ∧ (pointQuery info o q).2.isCrash := by
    intro o
    unfold pointQuery
    by_cases hi : Point.invalidQueryInputsIT q.index q.numServers = true
    · rw [if_pos hi]
      exact ⟨rfl, trivial⟩
    · rw [if_neg hi]
      have hC : info.numColumns = 0 := by
        rcases h with h | h
        · exact absurd (by simp [Point.invalidQueryInputsIT, h.1, h.2]) hi
        · exact h
      have : Database.vectorToMatrixIndices q.index info.numColumns = crash "integer divide by zero" := by
        unfold Database.vectorToMatrixIndices
        rw [hC]
        rfl
      rw [this]
      exact ⟨rfl, trivial⟩
  rw [after_append]
  show _ ∧ (point H info).reconstruct (pointQuery info _ q).1 answers = _
  rw [(key _).1]
  exact ⟨(key _).2, rfl⟩

/-- A negative index for one server after the query for block 1. -/
example : ∃ past, (point (fun _ => []) ⟨2, 1, 1, [], "", [], 0⟩).reconstruct
      ((point (fun _ => []) ⟨2, 1, 1, [], "", [], 0⟩).after (past ++ [.query ⟨Point.plainDpf, Point.sevens, -1, 1⟩])) [[7, 8]] =
    (some ⟨1, 0⟩, ok [8]) := by
  refine ⟨[.query ⟨Point.plainDpf, Point.sevens, 1, 1⟩], ?_⟩
  rw [(C97_point_refused (fun _ => []) ⟨2, 1, 1, [], "", [], 0⟩ [.query ⟨Point.plainDpf, Point.sevens, 1, 1⟩]
    ⟨Point.plainDpf, Point.sevens, -1, 1⟩ (Or.inl ⟨by decide, by decide⟩) [[7, 8]]).2]
  decide +kernel

/-! ### Group scheme -/

variable {G : Type} [AddCommGroup G] [DecidableEq G]

theorem dhQuery_same (g : Dh.Grp G) (info : Dh.Info) (o o' : Option (Dh.State G)) (q : DhQuery) :
    ((dh g info).query o q).2 = ((dh g info).query o' q).2 ∧
      ∀ m, ((dh g info).query o q).2 = ok m → ((dh g info).query o q).1 = ((dh g info).query o' q).1 := by
  unfold dh
  dsimp only
  cases Dh.queryBytes g info q.r q.t q.index with
  | err m => exact ⟨rfl, fun m h => by cases h⟩
  | crash m => exact ⟨rfl, fun m h => by cases h⟩
  | ok x => exact ⟨rfl, fun _ _ => rfl⟩

/-- C97: a query of the group scheme that panics leaves the object as it was. -/
theorem C97_dh_refused (g : Dh.Grp G) (info : Dh.Info) (past : List (Call DhQuery (List Byte))) (q : DhQuery)
    (h : ¬ ∃ m, ((dh g info).query (dh g info).new q).2 = ok m) (a : List Byte) :
    (dh g info).reconstruct ((dh g info).after (past ++ [.query q])) a = (dh g info).reconstruct ((dh g info).after past) a := by
  rw [after_append]
  show (dh g info).reconstruct ((dh g info).query _ q).1 a = _
  congr 1
  have h' : ¬ ∃ m, ((dh g info).query ((dh g info).after past) q).2 = ok m := by
    rwa [(dhQuery_same g info ((dh g info).after past) (dh g info).new q).1]
  revert h'
  generalize (dh g info).after past = o
  unfold dh
  dsimp only
  cases Dh.queryBytes g info q.r q.t q.index with
  | ok x => intro h'; exact absurd ⟨x.1, rfl⟩ h'
  | err m => intro _; rfl
  | crash m => intro _; rfl

/-- C97 for the group scheme. -/
theorem C97_dh (g : Dh.Grp G) (info : Dh.Info) : SameMessages (dh g info) ∧ LastQueryCounts (dh g info) (fun _ => True) :=
  ⟨sameMessages _ (fun _ => True) trivial (fun _ _ _ => trivial) (fun _ _ => rfl) (fun _ q _ => (dhQuery_same g info _ _ q).1),
    lastQueryCounts _ _ (fun _ => True) trivial (fun _ _ _ => trivial) (fun _ _ => rfl)
      (fun _ q m _ _ h => (dhQuery_same g info _ _ q).2 m h)⟩

/-- C97: a lookup with a used object of the group scheme is the exchange of C39. -/
theorem C97_dh_lookup (g : Dh.Grp G) (info : Dh.Info) (past : List (Call DhQuery (List Byte))) (q : DhQuery)
    (server : List Byte → Res (List Byte)) :
    (dh g info).lookup ((dh g info).after past) q server = (do
      let (m, st) ← Dh.queryBytes g info q.r q.t q.index
      let a ← server m
      Dh.reconstructBytes g info st a) := by
  generalize (dh g info).after past = o
  unfold Client.lookup dh
  dsimp only
  cases Dh.queryBytes g info q.r q.t q.index <;> rfl

/-- The query for a negative index changes nothing. -/
example (past : List (Call DhQuery (List Byte))) (a : List Byte) :
    (dh Dh.shortGroup Dh.zeroRow.info).reconstruct ((dh Dh.shortGroup Dh.zeroRow.info).after (past ++ [.query ⟨1, 1, -1⟩])) a =
      (dh Dh.shortGroup Dh.zeroRow.info).reconstruct ((dh Dh.shortGroup Dh.zeroRow.info).after past) a :=
  C97_dh_refused _ _ past ⟨1, 1, -1⟩ (by
    rintro ⟨m, hm⟩
    revert hm
    have : ((dh Dh.shortGroup Dh.zeroRow.info).query (dh Dh.shortGroup Dh.zeroRow.info).new ⟨1, 1, -1⟩).2 =
        crash "index out of range" := by decide +kernel
    rw [this]
    simp) a

/-- A lookup after a query that panics and after another lookup. -/
example : (dh Dh.shortGroup Dh.zeroRow.info).lookup ((dh Dh.shortGroup Dh.zeroRow.info).after
      [.query ⟨1, 1, -1⟩, .query ⟨2, 1, 1⟩, .reconstruct [1, 1]]) ⟨1, 1, 0⟩ (fun _ => ok [2, 2]) =
    (do let (m, st) ← Dh.queryBytes Dh.shortGroup Dh.zeroRow.info 1 1 0
        let a ← (fun _ => ok [2, 2] : List Byte → Res (List Byte)) m
        Dh.reconstructBytes Dh.shortGroup Dh.zeroRow.info st a) :=
  C97_dh_lookup Dh.shortGroup Dh.zeroRow.info _ ⟨1, 1, 0⟩ _

/-! ### LWE schemes -/

/-- A database of a single bit, one. -/
def oneBit : Lwe.Db 32 := ⟨⟨1, 1, [1]⟩, 1, 1, ⟨1, 1, [16843009]⟩⟩

def oneParams : Matrix.Params := ⟨1, 1, 1, 84, Matrix.seedMatrixA, 4⟩

def oneCoins : Lwe.Coins := ⟨[1, 1, 1, 1], [1, 0, 0, 0], [0]⟩

theorem oneSetup : Lwe.Setup Lwe.lwe32 (fun _ _ => 1) oneParams oneBit oneCoins := by
  refine ⟨⟨?_, ?_, rfl, rfl⟩, ⟨rfl, rfl, rfl⟩, by rfl, by decide, rfl, by decide⟩
  · rfl
  · intro x hx
    simp [oneBit] at hx
    subst hx
    decide

theorem lweQuery_same {w : Nat} (S : Lwe.Scheme w) (aesctr : List Byte → Nat → Byte) (p : Matrix.Params) (digest : Matrix.Mat w)
    (o o' : Option (Lwe.State w)) (coins : Lwe.Coins) (i j : Nat) :
    (lweQuery S aesctr p digest o coins i j).2 = (lweQuery S aesctr p digest o' coins i j).2 ∧
      ∀ m, (lweQuery S aesctr p digest o coins i j).2 = ok m →
        (lweQuery S aesctr p digest o coins i j).1 = (lweQuery S aesctr p digest o' coins i j).1 := by
  unfold lweQuery
  cases (Matrix.ofRandom w S.k 1 1 coins.tBytes).get 0 0 with
  | err m => exact ⟨rfl, fun m h => by cases h⟩
  | crash m => exact ⟨rfl, fun m h => by cases h⟩
  | ok x => exact ⟨rfl, fun _ _ => rfl⟩

theorem lweQuery_eq {w : Nat} (S : Lwe.Scheme w) (aesctr : List Byte → Nat → Byte) (p : Matrix.Params) (digest : Matrix.Mat w)
    (o : Option (Lwe.State w)) (coins : Lwe.Coins) (i j : Nat) :
    (∃ st m, Lwe.query S aesctr p digest coins i j = ok (st, m) ∧ lweQuery S aesctr p digest o coins i j = (some st, ok m)) ∨
    (∃ e, Lwe.query S aesctr p digest coins i j = err e ∧ (lweQuery S aesctr p digest o coins i j).2 = err e) ∨
    (∃ e, Lwe.query S aesctr p digest coins i j = crash e ∧ (lweQuery S aesctr p digest o coins i j).2 = crash e) := by
  unfold lweQuery
  cases ht : (Matrix.ofRandom w S.k 1 1 coins.tBytes).get 0 0 with
  | err e => exact Or.inr (Or.inl ⟨e, by unfold Lwe.query; dsimp only; rw [ht]; rfl, rfl⟩)
  | crash e => exact Or.inr (Or.inr ⟨e, by unfold Lwe.query; dsimp only; rw [ht]; rfl, rfl⟩)
  | ok t =>
    cases hq : Lwe.query S aesctr p digest coins i j with
    | err e => exact Or.inr (Or.inl ⟨e, rfl, rfl⟩)
    | crash e => exact Or.inr (Or.inr ⟨e, rfl, rfl⟩)
    | ok x =>
      refine Or.inl ⟨x.1, x.2, rfl, ?_⟩
      dsimp only
      rw [ok_bind]
      have : x.1 = lweState S aesctr p digest coins i j t := by
        unfold Lwe.query at hq
        dsimp only at hq
        rw [ht, ok_bind] at hq
        obtain ⟨_, -, hq⟩ := bind_eq_ok.mp hq
        obtain ⟨_, -, hq⟩ := bind_eq_ok.mp hq
        obtain ⟨_, -, hq⟩ := bind_eq_ok.mp hq
        obtain ⟨_, -, hq⟩ := bind_eq_ok.mp hq
        obtain ⟨_, -, hq⟩ := bind_eq_ok.mp hq
        simp only [ok.injEq] at hq
        rw [← hq]
        rfl
      rw [this]

/-- C97 for the LWE schemes. -/
theorem C97_lwe {w : Nat} (S : Lwe.Scheme w) (aesctr : List Byte → Nat → Byte) (p : Matrix.Params) (numColumns : Nat)
    (digest : Matrix.Mat w) :
    SameMessages (lwe S aesctr p numColumns digest) ∧ LastQueryCounts (lwe S aesctr p numColumns digest) (fun _ => True) := by
  refine ⟨sameMessages _ (fun _ => True) trivial (fun _ _ _ => trivial) (fun _ _ => rfl) (fun o q _ => ?_),
    lastQueryCounts _ _ (fun _ => True) trivial (fun _ _ _ => trivial) (fun _ _ => rfl) (fun o q m _ _ h => ?_)⟩
  · unfold lwe
    dsimp only
    split
    · rfl
    · dsimp only
      rw [(lweQuery_same S aesctr p digest o none q.coins _ _).1]
  · unfold lwe at h ⊢
    dsimp only at h ⊢
    split
    · rename_i hc
      rw [if_pos hc] at h
      cases h
    · rename_i hc
      rw [if_neg hc] at h
      obtain ⟨m', hm', -⟩ := bind_eq_ok.mp h
      exact (lweQuery_same S aesctr p digest o none q.coins _ _).2 m' hm'

/-- C97: a lookup with a used object of an LWE scheme is the exchange of C30 and C32. -/
theorem C97_lwe_lookup {w : Nat} (S : Lwe.Scheme w) (aesctr : List Byte → Nat → Byte) (p : Matrix.Params) (numColumns : Nat)
    (digest : Matrix.Mat w) (past : List (Call LweQuery (List Byte))) (q : LweQuery) (server : List Byte → Res (List Byte)) :
    (lwe S aesctr p numColumns digest).lookup ((lwe S aesctr p numColumns digest).after past) q server =
      Lwe.retrieve S aesctr p numColumns digest q.coins q.index server := by
  generalize (lwe S aesctr p numColumns digest).after past = o
  unfold Client.lookup lwe Lwe.retrieve Lwe.queryBytes
  dsimp only
  split
  · rfl
  dsimp only
  rcases lweQuery_eq S aesctr p digest o q.coins (q.index / numColumns) (q.index % numColumns) with
    ⟨st, m, h1, h2⟩ | ⟨e, h1, h2⟩ | ⟨e, h1, h2⟩
  · rw [h1, h2]
    dsimp only
    rw [ok_bind, ok_bind]
    cases S.toBytes m <;> rfl
  · rw [h1, h2]; rfl
  · rw [h1, h2]; rfl

/-- The bit of the smallest database is found by an object that made another query and reconstructed nonsense before. -/
example (past : List (Call LweQuery (List Byte))) :
    (lwe Lwe.lwe32 (fun _ _ => 1) oneParams 1 oneBit.digest).lookup
        ((lwe Lwe.lwe32 (fun _ _ => 1) oneParams 1 oneBit.digest).after past) ⟨oneCoins, 0⟩ (Lwe.answerBytes Lwe.lwe32 oneBit) =
      ok 1 := by
  rw [C97_lwe_lookup]
  decide +kernel

/-! ### Amplified LWE client -/

theorem amplifyQuery_same (aesctr : List Byte → Nat → Byte) (p : Matrix.Params) (digest : Matrix.Mat 32) (i j : Nat)
    (os os' : List (Option (Lwe.State 32))) (cs : List Lwe.Coins) (hl : os.length = os'.length) :
    (amplifyQuery aesctr p digest i j os cs).2 = (amplifyQuery aesctr p digest i j os' cs).2 ∧
    (amplifyQuery aesctr p digest i j os cs).1.length = os.length ∧
      (os.length ≤ cs.length → ∀ m, (amplifyQuery aesctr p digest i j os cs).2 = ok m →
        (amplifyQuery aesctr p digest i j os cs).1 = (amplifyQuery aesctr p digest i j os' cs).1) := by
  induction os generalizing os' cs with
  | nil =>
    cases os' with
    | nil => exact ⟨rfl, by cases cs <;> rfl, fun _ _ _ => rfl⟩
    | cons => simp at hl
  | cons o os ih =>
    cases os' with
    | nil => simp at hl
    | cons o' os' =>
      cases cs with
      | nil => exact ⟨rfl, rfl, fun h => by simp at h⟩
      | cons c cs =>
        obtain ⟨i1, i2, i3⟩ := ih os' cs (by simpa using hl)
        obtain ⟨q1, q2⟩ := lweQuery_same Lwe.lwe32 aesctr p digest o o' c i j
        unfold amplifyQuery
        cases ha : lweQuery Lwe.lwe32 aesctr p digest o c i j with
        | mk a1 a2 =>
          cases hb : lweQuery Lwe.lwe32 aesctr p digest o' c i j with
          | mk b1 b2 =>
            rw [ha, hb] at q1 q2
            dsimp only at q1 q2
            subst q1
            cases a2 with
            | err e => exact ⟨rfl, rfl, fun _ m h => by cases h⟩
            | crash e => exact ⟨rfl, rfl, fun _ m h => by cases h⟩
            | ok m =>
              dsimp only
              refine ⟨by rw [i1], by simp [i2], ?_⟩
              intro hlen m' h
              obtain ⟨ms, hms, -⟩ := bind_eq_ok.mp h
              rw [q2 m rfl, i3 (by simpa using hlen) ms hms]

/-- C97 for the amplified client with `k` base clients. -/
theorem C97_amplify (aesctr : List Byte → Nat → Byte) (p : Matrix.Params) (numColumns : Nat) (digest : Matrix.Mat 32) (k : Nat) :
    SameMessages (amplify aesctr p numColumns digest k) ∧
      LastQueryCounts (amplify aesctr p numColumns digest k) (fun q => k ≤ q.coins.length) := by
  have hI : ∀ (o : List (Option (Lwe.State 32))) (q : AmplifyQuery), o.length = k →
      (((amplify aesctr p numColumns digest k).query o q).1).length = k := by
    intro o q ho
    unfold amplify
    dsimp only
    split
    · exact ho
    · dsimp only
      rw [(amplifyQuery_same aesctr p digest _ _ o o q.coins rfl).2.1, ho]
  refine ⟨sameMessages _ (fun o => o.length = k) (by simp [amplify]) hI (fun _ _ => rfl) (fun o q ho => ?_),
    lastQueryCounts _ _ (fun o => o.length = k) (by simp [amplify]) hI (fun _ _ => rfl) (fun o q m ho hw h => ?_)⟩
  · unfold amplify
    dsimp only
    split
    · rfl
    · dsimp only
      rw [(amplifyQuery_same aesctr p digest _ _ o (List.replicate k none) q.coins (by simp [ho])).1]
  · unfold amplify at h ⊢
    dsimp only at h ⊢
    split
    · rename_i hc
      rw [if_pos hc] at h
      cases h
    · rename_i hc
      rw [if_neg hc] at h
      obtain ⟨m', hm', -⟩ := bind_eq_ok.mp h
      exact (amplifyQuery_same aesctr p digest _ _ o (List.replicate k none) q.coins (by simp [ho])).2.2 (by omega) m' hm'

theorem amplifyQuery_eq (aesctr : List Byte → Nat → Byte) (p : Matrix.Params) (digest : Matrix.Mat 32) (i j : Nat)
    (os : List (Option (Lwe.State 32))) (cs : List Lwe.Coins) (hl : os.length = cs.length) :
    (∃ ms, Lwe.amplifyQuery aesctr p digest cs i j = ok ms ∧
      amplifyQuery aesctr p digest i j os cs = (ms.map (fun x => some x.1), ok (ms.map (·.2)))) ∨
    (∃ e, Lwe.amplifyQuery aesctr p digest cs i j = err e ∧ (amplifyQuery aesctr p digest i j os cs).2 = err e) ∨
    (∃ e, Lwe.amplifyQuery aesctr p digest cs i j = crash e ∧ (amplifyQuery aesctr p digest i j os cs).2 = crash e) := by
  induction os generalizing cs with
  | nil =>
    cases cs with
    | nil => exact Or.inl ⟨[], rfl, rfl⟩
    | cons => simp at hl
  | cons o os ih =>
    cases cs with
    | nil => simp at hl
    | cons c cs =>
      unfold Lwe.amplifyQuery amplifyQuery
      rw [List.mapM_cons]
      rcases lweQuery_eq Lwe.lwe32 aesctr p digest o c i j with ⟨st, m, h1, h2⟩ | ⟨e, h1, h2⟩ | ⟨e, h1, h2⟩
      · rw [h1, h2, ok_bind]
        dsimp only
        rcases ih cs (by simpa using hl) with ⟨ms, h3, h4⟩ | ⟨e, h3, h4⟩ | ⟨e, h3, h4⟩
        · unfold Lwe.amplifyQuery at h3
          rw [h3, h4]
          exact Or.inl ⟨_, rfl, rfl⟩
        · unfold Lwe.amplifyQuery at h3
          rw [h3, h4]
          exact Or.inr (Or.inl ⟨e, rfl, rfl⟩)
        · unfold Lwe.amplifyQuery at h3
          rw [h3, h4]
          exact Or.inr (Or.inr ⟨e, rfl, rfl⟩)
      · rw [h1]
        refine Or.inr (Or.inl ⟨e, rfl, ?_⟩)
        cases ha : lweQuery Lwe.lwe32 aesctr p digest o c i j with
        | mk a1 a2 =>
          rw [ha] at h2
          dsimp only at h2
          rw [h2]
      · rw [h1]
        refine Or.inr (Or.inr ⟨e, rfl, ?_⟩)
        cases ha : lweQuery Lwe.lwe32 aesctr p digest o c i j with
        | mk a1 a2 =>
          rw [ha] at h2
          dsimp only at h2
          rw [h2]

theorem amplifyReconstruct_eq (p : Matrix.Params) (sts : List (Lwe.State 32)) (answers : List (Matrix.Mat 32)) :
    amplifyReconstruct p (sts.map some) answers = Lwe.amplifyReconstruct p sts answers := by
  unfold amplifyReconstruct Lwe.amplifyReconstruct
  rw [List.length_map]
  congr 1
  apply forLoop_congr
  intro i s hi
  refine bind_congr_ok fun a _ => ?_
  rw [idx_of_lt (by simpa using hi), idx_of_lt hi, ok_bind, ok_bind, List.getElem_map]

/-- C97: a lookup with a used object of the amplified client is the exchange of C33. -/
theorem C97_amplify_lookup (aesctr : List Byte → Nat → Byte) (p : Matrix.Params) (numColumns : Nat) (digest : Matrix.Mat 32)
    (k : Nat) (past : List (Call AmplifyQuery (List Byte))) (q : AmplifyQuery) (hk : q.coins.length = k)
    (server : List Byte → Res (List Byte)) :
    (amplify aesctr p numColumns digest k).lookup ((amplify aesctr p numColumns digest k).after past) q server =
      Lwe.amplifyRetrieve aesctr p numColumns digest q.coins q.index server := by
  have hl : ((amplify aesctr p numColumns digest k).after past).length = k := by
    refine after_inv (amplify aesctr p numColumns digest k) (fun o => o.length = k) (by simp [amplify]) ?_ (fun _ _ h => h) past
    intro o q ho
    unfold amplify
    dsimp only
    split
    · exact ho
    · dsimp only
      rw [(amplifyQuery_same aesctr p digest _ _ o o q.coins rfl).2.1, ho]
  generalize (amplify aesctr p numColumns digest k).after past = o at hl
  unfold Client.lookup amplify Lwe.amplifyRetrieve Lwe.amplifyQueryBytes
  dsimp only
  split
  · rfl
  dsimp only
  rcases amplifyQuery_eq aesctr p digest (q.index / numColumns) (q.index % numColumns) o q.coins (by omega) with
    ⟨ms, h1, h2⟩ | ⟨e, h1, h2⟩ | ⟨e, h1, h2⟩
  · rw [h1, h2]
    dsimp only
    rw [ok_bind, ok_bind]
    cases Matrix.matricesToBytes (ms.map (·.2)) with
    | err e => rfl
    | crash e => rfl
    | ok b =>
      rw [ok_bind, ok_bind]
      show (server b >>= fun a => Matrix.bytesToMatrices a >>= amplifyReconstruct p _) =
        (server b >>= fun a => Lwe.amplifyReconstructBytes p _ a)
      refine bind_congr_ok fun a _ => ?_
      unfold Lwe.amplifyReconstructBytes
      refine bind_congr_ok fun mm _ => ?_
      rw [← amplifyReconstruct_eq, List.map_map]
      rfl
  · rw [h1, h2]; rfl
  · rw [h1, h2]; rfl

/-- The amplified client with one repetition, in the smallest database. -/
example (past : List (Call AmplifyQuery (List Byte))) :
    (amplify (fun _ _ => 1) oneParams 1 oneBit.digest 1).lookup
        ((amplify (fun _ _ => 1) oneParams 1 oneBit.digest 1).after past) ⟨[oneCoins], 0⟩ (Lwe.amplifyAnswerBytes oneBit) = ok 1 := by
  rw [C97_amplify_lookup _ _ _ _ 1 past ⟨[oneCoins], 0⟩ rfl]
  decide +kernel

/-! ### Predicate clients -/

open Verif.Fss.Spec in
/-- What the calls leave in an object of a predicate client. -/
structure Usable (ex : Nat) (o : Predicates) : Prop where
  buf : BufferReady ex o.buf
  keys : ∀ st, o.state = some st → st.alphas.length = ex

open Verif.Fss.Spec in
theorem predicateQuery_same {E : Cipher} (hE : BlockCipher E) {fuel ex : Nat} (hex : 0 < ex) (hex20 : ex < 20)
    {o o' : Predicates} (ho : Usable ex o) (ho' : Usable ex o') (q : PredicateQuery) :
    (predicateQuery E fuel ex o q).2 = (predicateQuery E fuel ex o' q).2 ∧ Usable ex (predicateQuery E fuel ex o q).1 ∧
      ∀ m, (predicateQuery E fuel ex o q).2 = ok m → (predicateQuery E fuel ex o q).1 = (predicateQuery E fuel ex o' q).1 := by
  unfold predicateQuery
  split
  · exact ⟨rfl, ho, fun m h => by cases h⟩
  cases hk : Predicate.drawKeys fuel ex q.rnd with
  | err m => exact ⟨rfl, ho, fun m h => by cases h⟩
  | crash m => exact ⟨rfl, ho, fun m h => by cases h⟩
  | ok x =>
    obtain ⟨st, rnd⟩ := x
    obtain ⟨αs, hl, -, ha, hal⟩ := Predicate.drawKeys_spec hex hk
    have hlen : st.a.length = ex := by rw [ha, List.length_cons]; omega
    have hal' : st.alphas.length = ex := by rw [hal, List.length_append, List.length_singleton]; omega
    have hs : ∀ st', some st = some st' → st'.alphas.length = ex := by
      intro st' h
      cases h
      exact hal'
    dsimp only
    rw [generate_same (env := ⟨E, q.fresh, q.tries⟩) hE ho.buf ho'.buf hlen hex20]
    cases hg : Fss.generateTreePF ⟨E, q.fresh, q.tries⟩ o'.buf q.r1 q.r2 q.query.input st.a with
    | err m => exact ⟨rfl, ⟨ho.buf, hs⟩, fun m h => by cases h⟩
    | crash m => exact ⟨rfl, ⟨ho.buf, hs⟩, fun m h => by cases h⟩
    | ok y =>
      obtain ⟨k0, k1, b⟩ := y
      exact ⟨rfl, ⟨generate_ready (env := ⟨E, q.fresh, q.tries⟩) hE ho'.buf hlen hg, hs⟩, fun _ _ => rfl⟩

open Verif.Fss.Spec in
theorem predicate_usable {E : Cipher} (hE : BlockCipher E) (fuel ex : Nat) (hex : 0 < ex) (hex20 : ex < 20)
    (past : List (Call PredicateQuery (List (List Byte)))) : Usable ex ((predicate E fuel ex).after past) :=
  after_inv _ (Usable ex) ⟨Fss.initFss_ok ex, fun st h => by cases h⟩
    (fun o q ho => (predicateQuery_same hE hex hex20 ho ho q).2.1) (fun _ _ h => h) past

open Verif.Fss.Spec in
/-- C97 for the predicate clients (one value, or one value and four tags). -/
theorem C97_predicate (E : Cipher) (hE : BlockCipher E) (fuel ex : Nat) (hex : 0 < ex) (hex20 : ex < 20) :
    SameMessages (predicate E fuel ex) ∧ LastQueryCounts (predicate E fuel ex) (fun _ => True) := by
  have h0 : Usable ex (predicate E fuel ex).new := predicate_usable hE fuel ex hex hex20 []
  exact ⟨sameMessages _ (Usable ex) h0 (fun o q ho => (predicateQuery_same hE hex hex20 ho ho q).2.1) (fun _ _ => rfl)
      (fun _ q ho => (predicateQuery_same hE hex hex20 ho h0 q).1),
    lastQueryCounts _ _ (Usable ex) h0 (fun o q ho => (predicateQuery_same hE hex hex20 ho ho q).2.1) (fun _ _ => rfl)
      (fun _ q m ho _ h => (predicateQuery_same hE hex hex20 ho h0 q).2.2 m h)⟩

/-- The two servers of a world, which get the messages in order (cmd/grpc/client/main.go:401-409). -/
def serversOf (W : Predicate.World) (ex : Nat) (db : Predicate.KeyDB) (inOrder : Bool) (ms : List Predicate.Msg) :
    Res (List (List Byte)) := do
  let m0 ← idx ms (if inOrder then 0 else 1)
  let m1 ← idx ms (if inOrder then 1 else 0)
  let a0 ← W.serve 0 ex db m0
  let a1 ← W.serve 1 ex db m1
  ok [a0, a1]

open Verif.Fss.Spec in
/-- C97: a query with a used object of a predicate client is the exchange of C21 and C22 with a new object. -/
theorem C97_predicate_lookup (W : Predicate.World) (hE : BlockCipher W.env.E) (ex : Nat) (hex : 0 < ex) (hex20 : ex < 20)
    (db : Predicate.KeyDB) (q : Query.ClientFSS) (inOrder : Bool)
    (past : List (Call PredicateQuery (List (List Byte)))) :
    (predicate W.env.E W.fuel ex).lookup ((predicate W.env.E W.fuel ex).after past)
        ⟨q, 2, W.rnd, W.r1, W.r2, W.env.fresh, W.env.fuel⟩ (serversOf W ex db inOrder) =
      ({ W with buf := Fss.initFss ex } : Predicate.World).run ex db q inOrder := by
  have ho := predicate_usable hE W.fuel ex hex hex20 past
  generalize (predicate W.env.E W.fuel ex).after past = o at ho
  have h0 : Usable ex (predicate W.env.E W.fuel ex).new := predicate_usable hE W.fuel ex hex hex20 []
  obtain ⟨h1, -, h2⟩ := predicateQuery_same (fuel := W.fuel) hE hex hex20 ho h0 ⟨q, 2, W.rnd, W.r1, W.r2, W.env.fresh, W.env.fuel⟩
  unfold Client.lookup
  show ((predicateQuery W.env.E W.fuel ex o _).2 >>= fun m => serversOf W ex db inOrder m >>= fun a =>
    Predicate.reconstructBytes ex ((predicateQuery W.env.E W.fuel ex o _).1.state.getD ⟨[], []⟩) a) = _
  have h3 : ∀ m, (predicateQuery W.env.E W.fuel ex o ⟨q, 2, W.rnd, W.r1, W.r2, W.env.fresh, W.env.fuel⟩).2 = ok m →
      (serversOf W ex db inOrder m >>= fun a => Predicate.reconstructBytes ex
        ((predicateQuery W.env.E W.fuel ex o ⟨q, 2, W.rnd, W.r1, W.r2, W.env.fresh, W.env.fuel⟩).1.state.getD ⟨[], []⟩) a) =
      (serversOf W ex db inOrder m >>= fun a => Predicate.reconstructBytes ex
        ((predicateQuery W.env.E W.fuel ex ⟨none, Fss.initFss ex⟩ ⟨q, 2, W.rnd, W.r1, W.r2, W.env.fresh, W.env.fuel⟩).1.state.getD ⟨[], []⟩) a) := by
    intro m hm
    rw [h2 m hm]
    rfl
  rw [bind_congr_ok h3, h1]
  unfold predicateQuery Predicate.World.run Predicate.query predicate
  dsimp only
  rw [if_neg (by decide), if_neg (by decide)]
  cases Predicate.drawKeys W.fuel ex W.rnd with
  | err m => rfl
  | crash m => rfl
  | ok x =>
    rw [ok_bind]
    dsimp only
    cases Fss.generateTreePF W.env (Fss.initFss ex) W.r1 W.r2 q.input x.1.a with
    | err m => rfl
    | crash m => rfl
    | ok y =>
      dsimp only
      rw [ok_bind, ok_bind, ok_bind]
      unfold serversOf
      dsimp only [Option.getD_some]
      simp only [bind_assoc, ok_bind]
      rfl

theorem loop_ok_or_err {n : Nat} {body : Nat → Unit → Res Unit} (h : ∀ i, i < n → body i () = ok () ∨ (body i ()).isErr) :
    forLoop n body () = ok () ∨ (forLoop n body ()).isErr := by
  induction n with
  | zero => exact Or.inl rfl
  | succ n ih =>
    rw [forLoop_succ]
    rcases ih (fun i hi => h i (by omega)) with e | e
    · rw [e, ok_bind]
      exact h n (by omega)
    · cases he : forLoop n body () with
      | ok _ => rw [he] at e; simp at e
      | crash _ => rw [he] at e; simp at e
      | err m => exact Or.inr trivial

theorem bind_ok_or_err {α : Type} {x : Res Unit} {r : Res α} (h : x = ok () ∨ x.isErr) :
    (x >>= fun _ => r) = r ∨ (x >>= fun _ => r).isErr := by
  rcases h with h | h
  · rw [h]; exact Or.inl rfl
  · cases x with
    | ok _ => simp at h
    | crash _ => simp at h
    | err m => exact Or.inr trivial

theorem forLoop_body {n : Nat} {body : Nat → Unit → Res Unit} (h : forLoop n body () = ok ()) : ∀ i, i < n → body i () = ok () := by
  induction n with
  | zero => intro i hi; omega
  | succ n ih =>
    rw [forLoop_succ] at h
    obtain ⟨u, h1, h2⟩ := bind_eq_ok.mp h
    intro i hi
    rcases Nat.lt_succ_iff_lt_or_eq.mp hi with hi | rfl
    · exact ih h1 i hi
    · exact h2

open Verif.Predicate in
/-- With the keys of another query the result is the same or an error. -/
theorem reconstruct_other {ex : Nat} {st st' : Predicate.State} {as : List (List U32)} {r : U32} (hl : st'.alphas.length = ex)
    (h : reconstruct ex st as = ok r) : reconstruct ex st' as = ok r ∨ (reconstruct ex st' as).isErr := by
  unfold reconstruct at h ⊢
  obtain ⟨a0, h0, h⟩ := bind_eq_ok.mp h
  rw [h0, ok_bind]
  split at h
  · rename_i hc
    rw [if_pos hc]
    obtain ⟨c0, e1, h⟩ := bind_eq_ok.mp h
    obtain ⟨a1, e2, h⟩ := bind_eq_ok.mp h
    obtain ⟨c1, e3, h⟩ := bind_eq_ok.mp h
    obtain ⟨s0, e4, h⟩ := bind_eq_ok.mp h
    obtain ⟨s1, e5, h⟩ := bind_eq_ok.mp h
    obtain ⟨x0, e6, h⟩ := bind_eq_ok.mp h
    obtain ⟨x1, e7, h⟩ := bind_eq_ok.mp h
    obtain ⟨y0, e8, h⟩ := bind_eq_ok.mp h
    obtain ⟨y1, e9, h⟩ := bind_eq_ok.mp h
    obtain ⟨u, e10, h⟩ := bind_eq_ok.mp h
    rw [e1, ok_bind, e2, ok_bind, e3, ok_bind, e4, ok_bind, e5, ok_bind, e6, ok_bind, e7, ok_bind, e8, ok_bind, e9, ok_bind, ← h]
    refine bind_ok_or_err (loop_ok_or_err ?_)
    intro i hi
    have hb := forLoop_body e10 i hi
    obtain ⟨al, f1, hb⟩ := bind_eq_ok.mp hb
    obtain ⟨z0, f2, hb⟩ := bind_eq_ok.mp hb
    obtain ⟨z1, f3, hb⟩ := bind_eq_ok.mp hb
    split at hb
    · cases hb
    obtain ⟨w0, f4, hb⟩ := bind_eq_ok.mp hb
    obtain ⟨w1, f5, hb⟩ := bind_eq_ok.mp hb
    rw [idx_of_lt (by omega), ok_bind, f2, ok_bind, f3, ok_bind]
    split
    · exact Or.inr trivial
    · rw [f4, ok_bind, f5, ok_bind]
      split
      · exact Or.inr trivial
      · exact Or.inl rfl
  · rename_i hc
    rw [if_neg hc]
    obtain ⟨c0, e1, h⟩ := bind_eq_ok.mp h
    obtain ⟨a1, e2, h⟩ := bind_eq_ok.mp h
    obtain ⟨c1, e3, h⟩ := bind_eq_ok.mp h
    obtain ⟨u, e10, h⟩ := bind_eq_ok.mp h
    rw [e1, ok_bind, e2, ok_bind, e3, ok_bind, ← h]
    refine bind_ok_or_err (loop_ok_or_err ?_)
    intro i hi
    have hb := forLoop_body e10 i hi
    obtain ⟨al, f1, hb⟩ := bind_eq_ok.mp hb
    obtain ⟨z0, f2, hb⟩ := bind_eq_ok.mp hb
    obtain ⟨z1, f3, hb⟩ := bind_eq_ok.mp hb
    rw [idx_of_lt (by omega), ok_bind, f2, ok_bind, f3, ok_bind]
    split
    · exact Or.inr trivial
    · exact Or.inl rfl

theorem predicate_reconstruct (E : Nat → List Byte → List Byte) (fuel ex : Nat) (o : Predicates) (a : List (List Byte)) :
    ((predicate E fuel ex).reconstruct o a).2 = Predicate.reconstructBytes ex (o.state.getD ⟨[], []⟩) a := rfl

open Verif.Fss.Spec in
/-- C97 for predicate clients, overlapping queries: where the lookup alone gives a result, the answers reconstructed after
another query was made give the same result or an error, never another number. -/
theorem C97_predicate_overlap (E : Cipher) (hE : BlockCipher E) (fuel ex : Nat) (hex : 0 < ex) (hex20 : ex < 20)
    (past : List (Call PredicateQuery (List (List Byte)))) (q1 q2 : PredicateQuery)
    (server : List Predicate.Msg → Res (List (List Byte))) (r : U32)
    (h : (predicate E fuel ex).lookup ((predicate E fuel ex).after past) q1 server = ok r) :
    overlap (predicate E fuel ex) past q1 q2 server = ok r ∨ (overlap (predicate E fuel ex) past q1 q2 server).isErr := by
  have hu := predicate_usable hE fuel ex hex hex20 (past ++ [.query q1, .query q2])
  unfold overlap
  unfold Client.lookup at h
  obtain ⟨m, hm, h⟩ := bind_eq_ok.mp h
  obtain ⟨a, ha, h⟩ := bind_eq_ok.mp h
  rw [hm, ok_bind, ha, ok_bind]
  have hst : ∃ st, ((predicate E fuel ex).after (past ++ [.query q1, .query q2])).state = some st := by
    rw [after_append]
    generalize (predicate E fuel ex).after past = o at hm
    have hq : ∀ (o : Predicates) (q : PredicateQuery), (∃ st, o.state = some st) →
        ∃ st, (predicateQuery E fuel ex o q).1.state = some st := by
      intro o q ho
      unfold predicateQuery
      split
      · exact ho
      cases Predicate.drawKeys fuel ex q.rnd with
      | err m => exact ho
      | crash m => exact ho
      | ok x =>
        dsimp only
        cases Fss.generateTreePF ⟨E, q.fresh, q.tries⟩ o.buf q.r1 q.r2 q.query.input x.1.a <;> exact ⟨_, rfl⟩
    refine hq _ q2 ?_
    show ∃ st, (predicateQuery E fuel ex o q1).1.state = some st
    have hm : (predicateQuery E fuel ex o q1).2 = ok m := hm
    unfold predicateQuery at hm ⊢
    split at hm
    · cases hm
    rename_i hn
    rw [if_neg hn]
    cases hk : Predicate.drawKeys fuel ex q1.rnd with
    | err m => rw [hk] at hm; cases hm
    | crash m => rw [hk] at hm; cases hm
    | ok x =>
      dsimp only
      cases Fss.generateTreePF ⟨E, q1.fresh, q1.tries⟩ o.buf q1.r1 q1.r2 q1.query.input x.1.a <;> exact ⟨_, rfl⟩
  obtain ⟨st', hst'⟩ := hst
  have hl := hu.keys st' hst'
  rw [predicate_reconstruct] at h ⊢
  rw [hst', Option.getD_some]
  unfold Predicate.reconstructBytes at h ⊢
  obtain ⟨d, hd, h⟩ := bind_eq_ok.mp h
  rw [hd, ok_bind]
  exact reconstruct_other hl h

/-- A used object of the authenticated client counts two keys; if another query was made in between, it counts two keys or
reports an error. -/
example (past : List (Call PredicateQuery (List (List Byte)))) (q2 : PredicateQuery) :
    ∃ r : U32, r.toNat = 2 ∧
      (overlap (predicate Fss.parityCipher 2 5) past
          ⟨Predicate.exQuery, 2, ⟨fun i => BitVec.ofNat 8 i, 0⟩, List.replicate 17 3, List.replicate 16 4, fun _ => 0, 1⟩ q2
          (serversOf (Predicate.world Fss.parityCipher 5 0 0) 5 Predicate.exDB true) = ok r ∨
        (overlap (predicate Fss.parityCipher 2 5) past
          ⟨Predicate.exQuery, 2, ⟨fun i => BitVec.ofNat 8 i, 0⟩, List.replicate 17 3, List.replicate 16 4, fun _ => 0, 1⟩ q2
          (serversOf (Predicate.world Fss.parityCipher 5 0 0) 5 Predicate.exDB true)).isErr) := by
  obtain ⟨r, h1, h2⟩ := Predicate.C21_count_partial (Predicate.world Fss.parityCipher 5 0 0) 5 (by omega) (by omega) Query.dayTime
    Predicate.exDB Predicate.exQuery _ Predicate.exHash_length (Predicate.world_ready5 _ Fss.parityCipher_block _ _) rfl
    (Predicate.exQuery_asks _ _) (Predicate.world_noHits _ _ _ _ _)
  rw [Predicate.exDB_count, Field.p_val] at h2
  refine ⟨r, h2, C97_predicate_overlap Fss.parityCipher Fss.parityCipher_block 2 5 (by omega) (by omega) past _ q2 _ r ?_⟩
  exact (C97_predicate_lookup (Predicate.world Fss.parityCipher 5 0 0) Fss.parityCipher_block 5 (by omega) (by omega)
    Predicate.exDB Predicate.exQuery true past).trans h1

/-! ### C98: reconstructing the same answer twice -/

/-- The result of a second call on the matrix that a first call was given. -/
def again {w : Nat} (S : Lwe.Scheme w) (p : Matrix.Params) (st : Lwe.State w) (a : Matrix.Mat w) : Res U32 :=
  (lweReconstruct S p st (lweReconstruct S p st a).1).2

theorem lweReconstruct_eq {w : Nat} (S : Lwe.Scheme w) (p : Matrix.Params) (st : Lwe.State w) (a : Matrix.Mat w) :
    (lweReconstruct S p st a).2 = Lwe.reconstruct S p st a := by
  unfold lweReconstruct
  cases h : S.mul st.secret st.digest >>= fun std => a.sub std with
  | ok d => rfl
  | err m =>
    unfold Lwe.reconstruct
    cases h1 : S.mul st.secret st.digest with
    | ok std => rw [h1, ok_bind] at h; dsimp only; rw [ok_bind, h]; rfl
    | err m' => rw [h1] at h; cases h; rfl
    | crash m' => rw [h1] at h; cases h
  | crash m =>
    unfold Lwe.reconstruct
    cases h1 : S.mul st.secret st.digest with
    | ok std => rw [h1, ok_bind] at h; dsimp only; rw [ok_bind, h]; rfl
    | err m' => rw [h1] at h; cases h
    | crash m' => rw [h1] at h; cases h; rfl

/-- C98, full statement: reconstructing an honest answer a second time gives the same bit (32-bit scheme; the call takes
the answer as a matrix). -/
def C98_Statement : Prop :=
  ∀ (aesctr : List Byte → Nat → Byte) (p : Matrix.Params) (db : Lwe.Db 32) (coins : Lwe.Coins) (i j : Nat) (st : Lwe.State 32)
    (q a : Matrix.Mat 32) (b : U32), Lwe.Setup Lwe.lwe32 aesctr p db coins →
    Lwe.query Lwe.lwe32 aesctr p db.digest coins i j = ok (st, q) → Lwe.answer Lwe.lwe32 db q = ok a →
    (lweReconstruct Lwe.lwe32 p st a).2 = ok b → again Lwe.lwe32 p st a = ok b

/-- C98 is false: the first call returns the stored bit 1, the second one 0. -/
theorem C98_refuted : ¬ C98_Statement := by
  intro h
  have hq : ∃ st, Lwe.query Lwe.lwe32 (fun _ _ => 1) oneParams oneBit.digest oneCoins 0 0 = ok (st, ⟨1, 1, [33686018]⟩) ∧
      (lweReconstruct Lwe.lwe32 oneParams st ⟨1, 1, [33686018]⟩).2 = ok 1 ∧
      again Lwe.lwe32 oneParams st ⟨1, 1, [33686018]⟩ = ok 0 := by
    refine ⟨_, rfl, ?_, ?_⟩
    · decide +kernel
    · decide +kernel
  obtain ⟨st, h1, h2, h3⟩ := hq
  have := h (fun _ _ => 1) oneParams oneBit oneCoins 0 0 st ⟨1, 1, [33686018]⟩ ⟨1, 1, [33686018]⟩ 1
    oneSetup h1 (by rfl) h2
  rw [h3] at this
  exact absurd this (by decide)

/-- C98: a call leaves the answer minus the product of secret and digest in the caller's matrix; the second call works on
that. -/
theorem C98_overwritten {w : Nat} (S : Lwe.Scheme w) (p : Matrix.Params) (st : Lwe.State w) (a std d : Matrix.Mat w)
    (h1 : S.mul st.secret st.digest = ok std) (h2 : a.sub std = ok d) :
    (lweReconstruct S p st a).1 = d ∧ again S p st a = Lwe.reconstruct S p st d := by
  have h : (lweReconstruct S p st a).1 = d := by
    unfold lweReconstruct
    rw [h1, ok_bind, h2]
  refine ⟨h, ?_⟩
  unfold again
  rw [h, lweReconstruct_eq]

/-- C98, what holds: if the caller keeps the bytes and decodes them anew, as `ReconstructBytes` does, the result is the same
however often the answer (or any other) was reconstructed in between. -/
theorem C98_bytes_partial {w : Nat} (S : Lwe.Scheme w) (aesctr : List Byte → Nat → Byte) (p : Matrix.Params) (numColumns : Nat)
    (digest : Matrix.Mat w) (past : List (Call LweQuery (List Byte))) (q : LweQuery) (m : List Byte) (since : List (List Byte))
    (a : List Byte) (h : ((lwe S aesctr p numColumns digest).query ((lwe S aesctr p numColumns digest).after past) q).2 = ok m) :
    ((lwe S aesctr p numColumns digest).reconstruct ((lwe S aesctr p numColumns digest).after
      (past ++ .query q :: since.map .reconstruct)) a).2 =
    ((lwe S aesctr p numColumns digest).reconstruct ((lwe S aesctr p numColumns digest).after (past ++ [.query q])) a).2 := by
  have hl := (C97_lwe S aesctr p numColumns digest).2
  rw [hl past q m since a trivial h, ← hl past q m [] a trivial h]
  rfl

end Verif.Object
