import Verif.Props.DataHistory
import Verif.Props.Stop

/-! # C128 and C130: what holds without exception of the claims C72 and C99 -/

namespace Verif.Data
open Res Verif.Cmd Verif.Pgp Verif.Pgp.Spec Verif.Deploy.Spec Spec

/-- C128: splitting that was interrupted after any number of writes can be repeated: the second run succeeds and leaves
the disk of an uninterrupted run. -/
theorem C128_split_again {L : Lib} (hgob : GobFaithful L) (d : Disk) (limit : Nat) (path S : Path) (keys : List Key)
    (hp0 : path ≠ []) (hS0 : S ≠ []) (hin : Holds L d path keys) (hpath : ∀ i, path ≠ join S (chunkName i))
    (hS : entry d S = some .dir) (hdirs : ∀ i, entry d (join S (chunkName i)) ≠ some .dir) (n : Nat) :
    Same (after L (interrupted L d limit (chunkFlags path S) n) limit (chunkFlags path S))
      (after L d limit (chunkFlags path S)) ∧
    (main L (interrupted L d limit (chunkFlags path S) n) limit (chunkFlags path S)).2 = ok () :=
  C72_rerun_chunks hgob d limit path S keys hp0 hS0 hin hpath hS hdirs n

/-- C128: the same of the import, also if the second run enumerates the keys in another order. -/
theorem C128_import_again (L : Lib) (ser : Entity → List Byte) (hser : ∀ e, L.serialize e = ok (ser e))
    (horder : Enumerates L.order) (limit : Nat) (d : Disk) (hd : Proper d) (D O : Path) (dump : List (Path × List Entity))
    (hD0 : D ≠ []) (hO0 : O ≠ []) (hD : entry d D = some .dir) (hO : entry d O = some .dir)
    (hfull : entry d (join O fullName) ≠ some .dir) (hdump : DumpIs L d D ContainsDumpName dump)
    (order : List (Str × Entity) → List (Str × Entity)) (n : Nat) :
    Same (after (anew L order) (interrupted L d limit (parseFlags D O) n) limit (parseFlags D O))
      (after (anew L order) d limit (parseFlags D O)) ∧
    (main (anew L order) (interrupted L d limit (parseFlags D O) n) limit (parseFlags D O)).2 = ok () := by
  obtain ⟨h1, h2, -⟩ := C72_rerun_parse L ser hser horder limit d hd D O dump hD0 hO0 hD hO hfull hdump order n
  exact ⟨h1, h2⟩

/-- C128: no sequence of runs, complete or interrupted, changes anything but output files, and after any such sequence an
import followed by splitting delivers the keys of the dump, all of them and no others. -/
theorem C128_any_history (L : Lib) (ser : Entity → List Byte) (hser : ∀ e, L.serialize e = ok (ser e))
    (horder : Enumerates L.order) (hgob : GobFaithful L) (limit : Nat) (d : Disk) (hd : Proper d) (D O S : Path)
    (dump : List (Path × List Entity)) (hD0 : D ≠ []) (hO0 : O ≠ []) (hS0 : S ≠ []) (hD : entry d D = some .dir)
    (hO : entry d O = some .dir) (hS : entry d S = some .dir) (hfull : entry d (join O fullName) ≠ some .dir)
    (hdirs : ∀ i, entry d (join S (chunkName i)) ≠ some .dir) (hdump : DumpIs L d D ContainsDumpName dump)
    (runs : List Invocation) :
    (∀ p, (∀ r ∈ runs, ¬ Output r.flags.out p) → entry (history L limit d runs) p = entry d p) ∧
    (∀ p, (entry d p).isSome → (entry (history L limit d runs) p).isSome) ∧
    ∃ keys, KeysOf L.lower ser (dump.map (·.2)) keys ∧ ∃ chunks : List (List Key), chunks.flatten = keys ∧
      ∀ i (h : i < chunks.length), Holds L (after L (after L (history L limit d runs) limit (parseFlags D O)) limit
        (chunkFlags (join O fullName) S)) (join S (chunkName i)) chunks[i] := by
  obtain ⟨h1, -, h3⟩ := C72_frame L limit d runs
  obtain ⟨-, -, keys, hk, -, hc⟩ := C72_any_history L ser hser horder hgob limit d hd D O S dump hD0 hO0 hS0 hD hO hS hfull
    hdirs hdump runs
  exact ⟨h1, h3, keys, hk, hc⟩

/-- An interrupted import is repeated with the keys in another order. -/
example : (main (anew exData id) (interrupted exData (exDisk []) hundredMb (parseFlags "d".toList "o".toList) 1) hundredMb
    (parseFlags "d".toList "o".toList)).2 = ok () :=
  (C128_import_again exData exSer (fun _ => rfl) List.reverse_perm hundredMb (exDisk []) (by unfold Proper; decide) "d".toList
    "o".toList _ (by decide) (by decide) (by decide) (by decide) (by decide) (exDisk_dump [] (by simp)) id 1).2

end Verif.Data

namespace Verif.Stop
open Res

variable {work : List Byte → Res (List Byte)} {s s' : State}

/-- C130: an experiment server that has been asked to stop by signals, however many, and by no request to its HTTP port,
cannot go on for ever, and where it can do nothing any more it has ended, with every call it accepted settled, unless serving
failed. -/
theorem C130_signals (hwk : ∀ q, ¬ (work q).isCrash) (h : Reach work s) (ha : 0 < Spec.asked s)
    (st : Relation.ReflTransGen (Spec.Step work) s s') (h2 : s'.requests = []) :
    (∀ (f : Nat → State) (k : Nat), f 0 = s' → (∀ i, i < k → Sys work (f i) (f (i + 1))) → k ≤ s'.calls.length + 5) ∧
    (Spec.Rest work s' → Spec.Fatal s' ∨ s'.pc = .exited ∧ ∀ c ∈ s'.calls, Spec.Settled work c) := by
  refine ⟨fun f k h0 hs => ?_, fun hr => C99_signals_partial hwk h ha st hr h2⟩
  have := C99_terminates f k hs
  rw [h0, h2] at this
  simpa using this

/-- C130: whatever it is asked, the process ends in a panic only because of a call on which the answering function panics;
what a call has returned is what its own query deserves; and an exited process has settled every call it accepted. -/
theorem C130_calls (h : Reach work s) :
    (s.crashed = true → ∃ c ∈ s.calls, (work c.query).isCrash) ∧
    (∀ c ∈ s.calls, c.result ≠ none →
      (∃ a, work c.query = ok a ∧ c.result = some (ok a)) ∨ ∃ e, work c.query = err e ∧ c.result = some (err e)) ∧
    (s.pc = .exited → ∀ c ∈ s.calls, Spec.Settled work c) :=
  ⟨fun hc => C99_no_crash h hc, fun c hc hr => C99_own h c hc hr, fun hp c hc => C99_exit_settles h hp c hc⟩

/-- A server with an open call is stopped by two signals. -/
example : ∃ s, Reach (fun q => ok q) s ∧ 0 < Spec.asked s ∧ s.requests = [] ∧ s.calls = [⟨[1], none, false⟩] := by
  have g1 := Reach.env _ _ (Reach.start (work := fun q => ok q)) (.call start [1] rfl rfl)
  have g2 := Reach.env _ _ g1 (.signal _ rfl)
  have g3 := Reach.env _ _ g2 (.signal _ rfl)
  exact ⟨_, g3, by simp [Spec.asked], rfl, rfl⟩

end Verif.Stop
