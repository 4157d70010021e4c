import Verif.Spec.Privacy

/-! # Specification vocabulary for what a lying server learns from the client's reaction

A server answers as it likes and then notices whether the client goes on, rejects or dies. -/

namespace Verif.Reaction
open Res Finset Verif.Privacy

/-- How a computation ends, without its result: the error and the panic are visible with their texts. -/
def ending {α : Type} : Res α → Res Unit
  | ok _ => ok ()
  | err m => err m
  | crash m => crash m

/-- One if the event happens, zero otherwise. -/
noncomputable def indicator (p : Prop) : ℚ := by classical exact if p then 1 else 0

/-- The values of a test are probabilities. -/
def IsTest {V : Type} (D : V → ℚ) : Prop := ∀ v, 0 ≤ D v ∧ D v ≤ 1

end Verif.Reaction

namespace Verif.Dh.Spec
open Verif.Dh Verif.Privacy Verif.Reaction Res Finset

variable {G : Type} [AddCommGroup G] [DecidableEq G]

/-- What the server sees of a retrieval of index `k` when it answers by `F`: the message, and how the client ends. -/
def view (g : Grp G) (info : Info) (F : List Byte → Res (List Byte)) (k : Nat) (r t : Int) :
    Res (List Byte) × Res Unit :=
  match queryBytes g info r t k with
  | ok (q, st) => (ok q, ending (F q >>= reconstructBytes g info st))
  | err m => (err m, err m)
  | crash m => (crash m, crash m)

/-- What the client gets when it retrieves index `k` from a server that answers by `F`. -/
def retrieved (g : Grp G) (info : Info) (F : List Byte → Res (List Byte)) (k : Nat) (r t : Int) : Res Byte := do
  let (q, st) ← queryBytes g info r t k
  let a ← F q
  reconstructBytes g info st a

/-- The honest answer to the query `v`: the sum over the set bits of each row. -/
def honestRows (db : Elliptic) (v : Fin db.info.numColumns → G) : List G :=
  (List.range db.info.numRows).map (fun i => ∑ j : Fin db.info.numColumns, if Bit db i j then v j else 0)

/-- A client that compares the rows of an answer with the honest ones. -/
def compare : List G → List G → Res Unit
  | [], _ => ok ()
  | _ :: _, [] => crash "index out of range"
  | w :: ws, a :: as => if a = w then compare ws as else err "reject"

/-- How a client ends that compares the answer with the honest one. This is a function of the message alone. -/
def expected (g : Grp G) (db : Elliptic) (F : List Byte → Res (List Byte)) (v : Fin db.info.numColumns → G) : Res Unit := do
  let a ← F (elementMessage g.enc v)
  let ans ← unmarshalGroupElements g a db.info.elementSize
  compare (honestRows db v) ans

/-- The server changes some row of the honest answer by the element `z` or its negative. -/
def Hits (g : Grp G) (db : Elliptic) (F : List Byte → Res (List Byte)) (v : Fin db.info.numColumns → G) (z : G) : Prop :=
  ∃ a ans, F (elementMessage g.enc v) = ok a ∧ unmarshalGroupElements g a db.info.elementSize = ok ans ∧
    ∃ (i : Nat) (x w : G), ans[i]? = some x ∧ (honestRows db v)[i]? = some w ∧ x ≠ w ∧ (x = w + z ∨ x = w - z)

/-- The test for the Diffie-Hellman problem that shows `D` the message and the comparison with the honest answer. -/
def seeTest {T : Type} [Fintype T] (g : Grp G) (db : Elliptic) (F : List Byte → Res (List Byte)) (t : T → Int) (y : Nat)
    (D : Res (List Byte) × Res Unit → ℚ) (v : Fin db.info.numColumns → G) : ℚ :=
  avg (fun τ => D (ok (elementMessage g.enc (shifted v y (t τ • hashIndexToGroup g y))),
    expected g db F (shifted v y (t τ • hashIndexToGroup g y))))

/-- The test for the Diffie-Hellman problem that says yes when the server finds the element added at position `y`. -/
noncomputable def hitTest {T : Type} [Fintype T] (g : Grp G) (db : Elliptic) (F : List Byte → Res (List Byte)) (t : T → Int)
    (y : Nat) (v : Fin db.info.numColumns → G) : ℚ :=
  avg (fun τ => indicator (Hits g db F (shifted v y (t τ • hashIndexToGroup g y)) (t τ • hashIndexToGroup g y)))

/-- The advantage of the test `B` in telling the common multiple of the column generators from uniform elements. -/
def dhGap {Ω : Type} [Fintype Ω] [Fintype G] (g : Grp G) (db : Elliptic) (r : Ω → Int)
    (B : (Fin db.info.numColumns → G) → ℚ) : ℚ :=
  advantage (fun ω => fun j : Fin db.info.numColumns => r ω • hashIndexToGroup g j) id B

/-- No element is the random multiple of a column generator with probability above `ε`. -/
def Spread {T : Type} [Fintype T] (g : Grp G) (cols : Nat) (t : T → Int) (ε : ℚ) : Prop :=
  ∀ y, y < cols → ∀ x, avg (fun τ => indicator (t τ • hashIndexToGroup g y = x)) ≤ ε

end Verif.Dh.Spec
