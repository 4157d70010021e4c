import Verif.Lemmas.PointStream

/-! # C134: sessions of point lookups with one generator

One client object makes any number of lookups one after the other, all from the generator it was made with. The servers but one
propose what is looked up, depending on everything they have received so far. They learn nothing, as long as the bytes of the key
stream that the lookups use are random; the bytes before and after may be known to them. C95 says this for coins that are new for
every lookup by assumption; here this follows from the way the generator is read. -/

namespace Verif.PointStream
open Res Verif.Rand Verif.Database Verif.Point Verif.Privacy Verif.Reaction Verif.History Verif.Coins Verif.Point.Spec
  Verif.PointStream.Spec

/-- The statement of C134: the servers decide for a client that takes the left indices exactly as often as for one that takes the
right ones. `n` is the number of servers, `m` the one that does not take part. -/
def C134_Statement : Prop :=
  ∀ (dpf : Dpf) (info : Info) (n m : Nat) (rest : Nat → Byte) (pos M lookups : Nat)
    (S : Server Nat Unit (Res (List (List Byte)))), 0 < info.numColumns → n ≠ 2 → m < n → IsTest S.decide →
    lookups * max 16 ((n - 1) * (info.numColumns / 8 + 1)) ≤ M →
    decision dpf info n m rest pos M S false lookups = decision dpf info n m rest pos M S true lookups

theorem used_eq (k : Nat) : used k = max 16 k := by
  unfold used
  split <;> omega

theorem C134_holds : C134_Statement := by
  intro dpf info n m rest pos M lookups S hC hn2 hm hD hM
  unfold decision
  rw [← used_eq] at hM
  rw [outcome_eq dpf info n m hC hn2 (by omega) S false lookups [] rest pos M hM,
    outcome_eq dpf info n m hC hn2 (by omega) S true lookups [] rest pos M hM]
  have h := C95_lookups dpf info n m hC hn2 hm S hD lookups
  unfold telling at h
  exact sub_eq_zero.mp (abs_eq_zero.mp h)

/-- C134: every lookup of the session hands out one message per server, and takes its bytes from where the one before ended. -/
theorem C134_lookup (dpf : Dpf) (info : Info) (n i : Nat) (hC : 0 < info.numColumns) (hn2 : n ≠ 2) (hn : 0 < n) (g : Prg) :
    ∃ qs st, query dpf info g i n = (ok (qs, st), ⟨g.ks, g.pos + max 16 ((n - 1) * (info.numColumns / 8 + 1))⟩)
      ∧ qs.length = n := by
  have hv : ¬ (invalidQueryInputsIT (i : Int) (n : Int) = true ∨ info.numColumns = 0 ∨ (n : Int) = 2 ∨ (n : Int) < 1) := by
    unfold invalidQueryInputsIT
    simp only [Bool.and_eq_true, decide_eq_true_eq]
    omega
  have hq : Point.query dpf (fun k => ok (g.read (List.replicate k 0)).1) info i n
      = Point.query dpf (fun _ => ok (keyStream g.ks g.pos ((n - 1) * (info.numColumns / 8 + 1)))) info i n := by
    unfold Point.query secretShare
    simp only [read_used, Int.toNat_natCast]
  have hf := query_fixed dpf (i := i) hC hn hn2 (r := keyStream g.ks g.pos ((n - 1) * (info.numColumns / 8 + 1))) (by simp)
  refine ⟨shares info.numColumns (i % info.numColumns) (n - 1) (keyStream g.ks g.pos ((n - 1) * (info.numColumns / 8 + 1))),
    ⟨(i / info.numColumns : Nat), (i % info.numColumns : Nat)⟩, ?_, ?_⟩
  · unfold query
    rw [hq, hf]
    simp only [if_neg hv, Int.toNat_natCast, read_used, used_eq]
  · rw [shares_length]
    omega

/-- C134: with honest servers every lookup of the session delivers the block that is asked for. -/
theorem C134_delivers (dpf : Dpf) (g : Prg) (db : Bytes) (blocks : List (List Byte)) (hdb : Stores db blocks) (i n : Nat)
    (hi : i < blocks.length) (hn : 0 < n) (hn2 : n ≠ 2) :
    (do
      let (qs, st) ← (query dpf db.info g i n).1
      let answers ← qs.mapM (Point.answer dpf 0 db)
      reconstructValue answers db.info st) = ok (zeroExtend db.info.blockSize blocks[i]) :=
  C01_retrieve dpf (fun k => ok (g.read (List.replicate k 0)).1)
    (fun k => ⟨_, rfl, by rw [read_used]; simp⟩) db blocks hdb i n hi hn hn2

/-- The servers propose 0 or 1, and in the end look at what the last server received in the last lookup. -/
def nosy : Server Nat Unit (Res (List (List Byte))) :=
  ⟨fun _ => ⟨0, 1, ()⟩, fun past => if past.getLast? = some (ok [[0], [1]]) then 1 else 0⟩

/-- C134: random bytes are needed: servers that know all of them see from one lookup what is looked up. -/
theorem C134_known : decision plainDpf exDB.info 3 0 (fun _ => 0) 0 0 nosy false 1 = 1 ∧
    decision plainDpf exDB.info 3 0 (fun _ => 0) 0 0 nosy true 1 = 0 := by
  have ht : ∀ B : Fin 0 → Byte, Coins.Spec.tape (fun _ => 0) 0 0 B = fun _ => 0 := by
    intro B
    funext i
    unfold Coins.Spec.tape
    rw [dif_neg (by omega)]
  have h0 : (sees plainDpf exDB.info 3 0 0 ⟨fun _ => 0, 0⟩).1 = ok [[0], [1]] := by decide +kernel
  have h1 : (sees plainDpf exDB.info 3 0 1 ⟨fun _ => 0, 0⟩).1 = ok [[0], [2]] := by decide +kernel
  unfold decision
  constructor
  · rw [← avg_const (Ω := Fin 0 → Byte) 1]
    refine avg_congr (fun B => ?_)
    rw [ht B]
    simp only [outcome, nosy, Choice.asked, Bool.false_eq_true, if_false, h0]
    simp
  · rw [← avg_const (Ω := Fin 0 → Byte) 0]
    refine avg_congr (fun B => ?_)
    rw [ht B]
    simp only [outcome, nosy, Choice.asked, if_true, h1]
    simp

/-- Three lookups of 48 random bytes, by three servers of which the first does not take part. -/
example := C134_holds plainDpf exDB.info 3 0 (fun _ => 0) 5 48 3 nosy (by decide) (by decide) (by decide)
  (by intro past; dsimp only [nosy]; split <;> norm_num) (by decide)

example := C134_lookup plainDpf exDB.info 3 1 (by decide) (by decide) (by decide) ⟨fun i => BitVec.ofNat 8 i, 7⟩

example := C134_delivers plainDpf ⟨fun i => BitVec.ofNat 8 i, 7⟩ exDB exBlocks exDB_stores 1 3 (by decide) (by decide) (by decide)

end Verif.PointStream
