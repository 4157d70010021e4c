import Verif.Props.Parallel
import Verif.Props.Dh

/-! # C111: the row digests are those of the sequential program in every schedule (lib/database/elliptic.go:36-54) -/

namespace Verif.Schedule
open Res Verif.Dh Verif.Dh.Spec Verif.Parallel

variable {G : Type} [AddCommGroup G] [DecidableEq G]

/-- What goroutine `i` of `n` computes (lib/database/elliptic.go:39-48, 75-91). -/
def digestWork (g : Grp G) (db : Elliptic) (n i : Nat) : Res (List Byte) :=
  computeDigests g (chunkBounds db.info.numRows (ceilDiv db.info.numRows n) i).1
    (chunkBounds db.info.numRows (ceilDiv db.info.numRows n) i).2 db.entries db.info.numColumns

/-- The digest of each row, one after the other. -/
def rowByRow (g : Grp G) (db : Elliptic) : List Byte :=
  (List.range db.info.numRows).flatMap (fun i => g.enc (rowSum db (hashIndexToGroup g) i))

omit [DecidableEq G] in
theorem rowDigests_gather (g : Grp G) (db : Elliptic) (n : Nat) :
    rowDigests g n db.info.numRows db.info.numColumns db.entries =
      (gather n (digestWork g db n) >>= fun chunks => ok chunks.flatten) := rfl

omit [DecidableEq G] in
/-- C111: whatever the schedule of the goroutines, when the main routine has received from all of them it holds one digest
for each row, in the order of the rows. For all numbers of rows, columns and goroutines. -/
theorem C111_result (g : Grp G) (db : Elliptic) (hc : db.entries.length = db.info.numRows * db.info.numColumns)
    (n : Nat) (hn : 0 < n) (s : Parallel.State (List Byte)) (h : Reach (digestWork g db n) n s) (hf : s.acc.length = n) :
    s.acc.flatten = rowByRow g db := by
  have hg := C42_schedule_final h hf
  have hr : rowDigests g n db.info.numRows db.info.numColumns db.entries = ok s.acc.flatten := by
    rw [rowDigests_gather, hg, ok_bind]
  have hsafe : ¬ db.info.numRows < (n - 1) * ((db.info.numRows + n - 1) / n) := by
    intro hlt
    have := (C42_crash_iff g db hc n hn).mpr hlt
    rw [hr] at this
    simp at this
  rw [C42_sequential_partial g db hc n hn (by omega)] at hr
  exact (Res.ok.inj hr).symm

omit [DecidableEq G] in
/-- C111: every schedule ends, after at most two steps for each goroutine and one more; whether it ends in a panic depends
on the sizes only, not on the schedule, the contents or the group, and without a panic it ends with the digests. -/
theorem C111_end (g : Grp G) (db : Elliptic) (hc : db.entries.length = db.info.numRows * db.info.numColumns)
    (n : Nat) (hn : 0 < n) :
    (∀ (f : Nat → Parallel.State (List Byte)) (k : Nat), f 0 = start n →
      (∀ i, i < k → Step (digestWork g db n) (f i) (f (i + 1))) → k ≤ 2 * n + 1) ∧
    ∀ s, Reach (digestWork g db n) n s → (¬ ∃ s', Step (digestWork g db n) s s') →
      (s.crashed = true ↔ db.info.numRows < (n - 1) * ((db.info.numRows + n - 1) / n)) ∧
      (s.crashed = false → s.acc.flatten = rowByRow g db) := by
  refine ⟨fun f k h0 hs => C42_schedule_terminates f k h0 hs, fun s h hstuck => ?_⟩
  have hlen : s.crashed = false → s.acc.length = n := fun hcr => by
    by_contra hne
    have := (inv_reach h).acc_le
    exact hstuck (C42_schedule_progress h hcr (by omega))
  refine ⟨⟨fun hcr => ?_, fun hlt => ?_⟩, fun hcr => C111_result g db hc n hn s h (hlen hcr)⟩
  · by_contra hlt
    obtain ⟨i, hi, hbad⟩ := (inv_reach h).crash hcr
    have hsafe : (n - 1) * ceilDiv db.info.numRows n ≤ db.info.numRows := by unfold ceilDiv; omega
    exact hbad ⟨_, computeDigests_eq g db hc _ _ (chunk_le hi hsafe).1 (chunk_le hi hsafe).2⟩
  · by_contra hcr
    have hg := C42_schedule_final h (hlen (by simpa using hcr))
    have := (C42_crash_iff g db hc n hn).mpr hlt
    rw [rowDigests_gather, hg, ok_bind] at this
    simp at this

omit [DecidableEq G] in
/-- C111: with at least `(n-1)^2` rows for `n` goroutines (49 rows for the eight of small databases) no schedule panics. -/
theorem C111_no_panic (g : Grp G) (db : Elliptic) (hc : db.entries.length = db.info.numRows * db.info.numColumns)
    (n : Nat) (hn : 0 < n) (hR : (n - 1) * (n - 1) ≤ db.info.numRows) (s : Parallel.State (List Byte))
    (h : Reach (digestWork g db n) n s) : s.crashed = false := by
  by_contra hcr
  obtain ⟨i, hi, hbad⟩ := (inv_reach h).crash (by simpa using hcr)
  have hnc : ¬ (rowDigests g n db.info.numRows db.info.numColumns db.entries).isCrash := by
    rw [C42_many_rows_partial g db hc n hn hR]
    simp
  rw [C42_crash_iff g db hc n hn] at hnc
  have hsafe : (n - 1) * ceilDiv db.info.numRows n ≤ db.info.numRows := by unfold ceilDiv; omega
  exact hbad ⟨_, computeDigests_eq g db hc _ _ (chunk_le hi hsafe).1 (chunk_le hi hsafe).2⟩

/-- Two rows and two goroutines, the second finishing first: the state in which both digests have been received. -/
example : ∃ s, Reach (digestWork shortGroup ⟨[1, 0, 0, 1], ⟨2, 2, 2, [], []⟩⟩ 2) 2 s ∧ s.acc.length = 2 ∧
    s.acc.flatten = rowByRow shortGroup ⟨[1, 0, 0, 1], ⟨2, 2, 2, [], []⟩⟩ := by
  obtain ⟨b0, h0⟩ : ∃ b, digestWork shortGroup ⟨[1, 0, 0, 1], ⟨2, 2, 2, [], []⟩⟩ 2 0 = ok b := ⟨_, rfl⟩
  obtain ⟨b1, h1⟩ : ∃ b, digestWork shortGroup ⟨[1, 0, 0, 1], ⟨2, 2, 2, [], []⟩⟩ 2 1 = ok b := ⟨_, rfl⟩
  have h : Reach (digestWork shortGroup ⟨[1, 0, 0, 1], ⟨2, 2, 2, [], []⟩⟩ 2) 2 ⟨[.taken, .taken], [b0, b1], false⟩ :=
    .step _ _ (.step _ _ (.step _ _ (.step _ _ .start (.finish _ 1 b1 rfl rfl h1)) (.finish _ 0 b0 rfl rfl h0))
      (.receive _ b0 rfl rfl)) (.receive _ b1 rfl rfl)
  exact ⟨_, h, rfl, C111_result _ _ rfl 2 (by decide) _ h rfl⟩

/-- A single row for eight goroutines: a goroutine panics in every schedule that comes to its end. -/
example : (1 : Nat) < (8 - 1) * ((1 + 8 - 1) / 8) := by decide

end Verif.Schedule
