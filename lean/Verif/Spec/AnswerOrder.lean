import Verif.Spec.AverageLength
import Verif.Spec.ReactionAverageLength

/-! # Specification: queries with one lying server, whose answers arrive in either order -/

namespace Verif.Forge.Spec
open Res Verif.Field Verif.Field.Spec Verif.Fss Verif.Fss.Spec Verif.Predicate Verif.Privacy Verif.Reaction Verif.Forge Finset

/-- A query in which one server answers as it likes, given the message it gets: server 1 if `mal` holds, else server 0. Its answer
arrives before the other one if `early` holds of that message, and after it if not. As in an honest run, the `j`-th message goes to server `j` if
`inOrder` holds, and to the other one if not. -/
def arrivedRun (W : World) (db : KeyDB) (q : Query.ClientFSS) (inOrder mal : Bool) (early : Msg → Bool)
    (F : Msg → Res (List Byte)) : Res U32 := do
  let (ms, st, _, _) ← query W.env W.fuel 5 W.rnd W.buf W.r1 W.r2 q 2
  let m0 ← idx ms (if inOrder then 0 else 1)
  let m1 ← idx ms (if inOrder then 1 else 0)
  let a0 ← if mal then W.serve 0 5 db m0 else F m0
  let a1 ← if mal then F m1 else W.serve 1 5 db m1
  reconstructBytes 5 st (if mal = early (if mal then m1 else m0) then [a1, a0] else [a0, a1])

open Classical in
/-- The probability that the client, for one order of arrival or the other, returns a number for which `Bad` holds. -/
noncomputable def arriveProb (W : World) (db : KeyDB) (q : Query.ClientFSS) (inOrder mal : Bool) (F : Msg → Res (List Byte))
    (Bad : Bool → Nat → Prop) : ℚ :=
  runMean (fun β α s0 s1 tb => if ∃ early r, arrivedRun (drawn W β α s0 s1 tb) db q inOrder mal (fun _ => early) F = ok r ∧
    Bad early r.toNat then 1 else 0)

/-- What may be accepted: the average and, of a server whose answer arrives first, the number of keys. -/
def Acceptable (early inOrder : Bool) (total count n : Nat) : Prop :=
  MeanOf inOrder total count n ∨ (early = true ∧ n = due inOrder count)

/-- What the lying server sees of a count query: its message and the text with which the client ends. -/
def arriveView (W : World) (db : KeyDB) (q : Query.ClientFSS) (inOrder mal : Bool) (early : Msg → Bool)
    (F : Msg → Res (List Byte)) :
    Res Msg × Res Unit :=
  (do let (ms, _, _, _) ← query W.env W.fuel 5 W.rnd W.buf W.r1 W.r2 q 2
      idx ms (if mal = inOrder then 1 else 0),
   ending (arrivedRun W db q inOrder mal early F))

/-- The mean of a test on what the server sees of a count query, over the client's randomness. -/
noncomputable def arriveViewProb (W : World) (db : KeyDB) (q : Query.ClientFSS) (inOrder mal : Bool) (early : Msg → Bool)
    (F : Msg → Res (List Byte)) (D : Res Msg × Res Unit → ℚ) : ℚ :=
  runMean (fun β α s0 s1 tb => D (arriveView (drawn W β α s0 s1 tb) db q inOrder mal early F))

/-- What the lying server sees of an average query: its message and whether the client ends with a result, an error or a panic. -/
def arriveAvg (W : World) (db : KeyDB) (q : Query.ClientFSS) (inOrder mal : Bool) (early : Msg → Bool)
    (F : Msg → Res (List Byte)) :
    Res Msg × Res Unit :=
  ((arriveView W db q inOrder mal early F).1, outcome (arrivedRun W db q inOrder mal early F))

/-- The mean of a test on what the server sees of an average query, over the client's randomness. -/
noncomputable def arriveAvgProb (W : World) (db : KeyDB) (q : Query.ClientFSS) (inOrder mal : Bool) (early : Msg → Bool)
    (F : Msg → Res (List Byte)) (D : Res Msg × Res Unit → ℚ) : ℚ :=
  runMean (fun β α s0 s1 tb => D (arriveAvg (drawn W β α s0 s1 tb) db q inOrder mal early F))

/-- The ending of a count query that the server can compute from its message, given when it arrives first. -/
noncomputable def foreseenIn (W : World) (db : KeyDB) (mal : Bool) (early : Msg → Bool) (F : Msg → Res (List Byte)) (m : Msg) : Res Unit := do
  let b ← F m
  let own ← W.serve (liar mal) 5 db m
  endsBy (early m) (Panic.Spec.wordsOf own) (Panic.Spec.wordsOf b)

/-- The test on keys that shows `D` the message and that ending. -/
noncomputable def foreseeIn (W : World) (db : KeyDB) (i : Query.Info) (mal : Bool) (early : Msg → Bool) (F : Msg → Res (List Byte))
    (D : Res Msg × Res Unit → ℚ) : Res Key → ℚ
  | ok k => D (ok ⟨i, k⟩, foreseenIn W db mal early F ⟨i, k⟩)
  | err _ => 0
  | crash _ => 0

/-- The ending of an average query that the server can compute from its message and from whether the query is about no keys, given
when it arrives first. -/
noncomputable def foreseenAvgIn (W : World) (db : KeyDB) (mal : Bool) (early : Msg → Bool) (F : Msg → Res (List Byte)) (nobody : Prop) (m : Msg) :
    Res Unit := do
  let b ← F m
  let own ← W.serve (liar mal) 5 db m
  endsAvg (early m) (Panic.Spec.wordsOf own) (Panic.Spec.wordsOf b) nobody

/-- The test on keys that shows `D` the message and that ending. -/
noncomputable def foreseeAvgIn (W : World) (db : KeyDB) (i : Query.Info) (mal : Bool) (early : Msg → Bool) (F : Msg → Res (List Byte))
    (nobody : Prop) (D : Res Msg × Res Unit → ℚ) : Res Key → ℚ
  | ok k => D (ok ⟨i, k⟩, outcome (foreseenAvgIn W db mal early F nobody ⟨i, k⟩))
  | err _ => 0
  | crash _ => 0

end Verif.Forge.Spec
