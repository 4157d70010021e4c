import Verif.Spec.ReactionLwe

/-! # Specification vocabulary for a lying server of the amplified LWE client -/

namespace Verif.Lwe.Spec
open Res Verif.Matrix Verif.Lwe Verif.Privacy Verif.Reaction Finset

/-! ### Several samples -/

/-- The test for one sample made from a test `B` on `n` samples: the samples before `k` are drawn from `Q`, the given one
takes place `k`, the others are drawn from `P`. -/
def mixed {Ω Ω' X : Type} [Fintype Ω] [Fintype Ω'] {n : Nat} (P : Ω → X) (Q : Ω' → X) (B : (Fin n → X) → ℚ) (k : Fin n)
    (x : X) : ℚ :=
  avg (fun y : (Fin n → Ω) × (Fin n → Ω') => B (fun j => if j.val < k then Q (y.2 j) else if j = k then x else P (y.1 j)))

/-- The advantages in telling single vectors `s A + e` from uniform ones, of the tests made from a test on `n` of them. -/
def lweGaps {w : Nat} {Ω : Type} [Fintype Ω] {n l : Nat} (v : Ω → Fin l → BitVec w)
    (B : (Fin n → Fin l → BitVec w) → ℚ) : ℚ :=
  ∑ k, lweGap v (mixed v id B k)

/-- The same when the tests may use what `near` reveals of the noise. -/
def hintGaps {w : Nat} {Ω : Type} [Fintype Ω] {n l : Nat} (v : Ω → Fin l → BitVec w) (near : Ω → Nat → BitVec w → Bool)
    (B : (Fin n → (Fin l → BitVec w) × (Nat → BitVec w → Bool)) → ℚ) : ℚ :=
  ∑ k, hintGap v near
    (mixed (fun ω => (v ω, near ω)) (fun x : (Fin l → BitVec w) × Ω => (x.1, near x.2)) B k)

/-! ### The amplified client and its server -/

/-- The coins of the repetitions of a retrieval. -/
def coinsAll {T Ω : Type} {n : Nat} (tB : T → List Byte) (sB : Ω → List Byte) (noise : Ω → List Int)
    (x : (Fin n → T) × (Fin n → Ω)) : List Coins :=
  List.ofFn (fun k => ⟨tB (x.1 k), sB (x.2 k), noise (x.2 k)⟩)

/-- The message of an amplified retrieval as the server sees it. -/
def sentAll (aesctr : List Byte → Nat → Byte) (p : Params) (numColumns : Nat) (digest : Mat 32) (index : Nat)
    (coins : List Coins) : Res (List Byte) := do
  let r ← amplifyQueryBytes aesctr p numColumns digest coins index
  ok r.2

/-- What the server sees of an amplified retrieval when it answers by `F`: the message, and how the client ends. -/
def viewAll (aesctr : List Byte → Nat → Byte) (p : Params) (db : Db 32) (F : List Byte → Res (List Byte))
    (index : Nat) (coins : List Coins) : Res (List Byte) × Res Unit :=
  match amplifyQueryBytes aesctr p db.numColumns db.digest coins index with
  | ok (sts, q) => (ok q, ending (F q >>= amplifyReconstructBytes p sts))
  | err m => (err m, err m)
  | crash m => (crash m, crash m)

/-- The message carrying several vectors. -/
def rowsMessage {n l : Nat} (v : Fin n → Fin l → U32) : Res (List Byte) :=
  matricesToBytes (List.ofFn (fun k => ⟨1, l, List.ofFn (v k)⟩))

/-- How a client ends that compares answer matrices with the honest ones one after the other. -/
def compareAll : List ((Nat → U32 → Bool) × Mat 32) → List (Mat 32) → Res Unit
  | [], _ => ok ()
  | _ :: _, [] => crash "index out of range"
  | (near, h) :: hs, m :: ms => do
    compare near h m
    compareAll hs ms

/-- How a client ends that compares the answers to the queries `v` with the honest ones. -/
def expectedAll (db : Db 32) (F : List Byte → Res (List Byte)) {n l : Nat} (v : Fin n → Fin l → U32)
    (near : Fin n → Nat → U32 → Bool) : Res Unit := do
  let q ← rowsMessage v
  let a ← F q
  let ms ← bytesToMatrices a
  let hs ← (List.ofFn (fun k => (⟨1, l, List.ofFn (v k)⟩ : Mat 32))).mapM (answer lwe32 db)
  compareAll ((List.ofFn near).zip hs) ms

/-- In one of the columns `ks` of its answer to repetition `k` the server changes the honest answer by the multiplier or its
negative, up to `d`. -/
def HitsAt (db : Db 32) (F : List Byte → Res (List Byte)) (d : Int) (ks : Finset Nat) {n l : Nat} (v : Fin n → Fin l → U32)
    (k : Fin n) (t : U32) : Prop :=
  ∃ q a ms m h, rowsMessage v = ok q ∧ F q = ok a ∧ bytesToMatrices a = ok ms ∧ ms[k.val]? = some m ∧
    answer lwe32 db ⟨1, l, List.ofFn (v k)⟩ = ok h ∧
    ∃ c ∈ ks, Within d (m.entry 0 c - h.entry 0 c - t) ∨ Within d (m.entry 0 c - h.entry 0 c + t)

/-- The server does so in one of the repetitions. -/
def HitsOne (db : Db 32) (F : List Byte → Res (List Byte)) (d : Int) (ks : Finset Nat) {n l : Nat} (v : Fin n → Fin l → U32)
    (t : Fin n → U32) : Prop := ∃ k, HitsAt db F d ks v k (t k)

open Classical in
/-- The server does so in the first and in more than half of the `2t+1` repetitions. -/
def HitsMost (db : Db 32) (F : List Byte → Res (List Byte)) (d : Int) (ks : Finset Nat) {r l : Nat}
    (v : Fin (2 * r + 1) → Fin l → U32) (t : Fin (2 * r + 1) → U32) : Prop :=
  HitsAt db F d ks v 0 (t 0) ∧ r < (univ.filter (fun k => HitsAt db F d ks v k (t k))).card

/-- The given vectors with random multipliers added at position `i`. -/
def shiftedAll {T : Type} {n l : Nat} (t : T → U32) (i : Nat) (v : Fin n → Fin l → U32) (τ : Fin n → T) (k : Fin n) :
    Fin l → U32 := shifted (v k) i (t (τ k))

/-- The test that adds random multipliers at position `i` and shows `D` the message. -/
def rowsTest {T : Type} [Fintype T] {n l : Nat} (t : T → U32) (i : Nat) (D : Res (List Byte) → ℚ)
    (v : Fin n → Fin l → U32) : ℚ :=
  avg (fun τ : Fin n → T => D (rowsMessage (shiftedAll t i v τ)))

/-- The test that also shows `D` the comparison of the answers with the honest ones. Of the noise it uses just this. -/
def seeAllTest {T : Type} [Fintype T] (db : Db 32) (F : List Byte → Res (List Byte)) {n l : Nat} (t : T → U32) (i : Nat)
    (D : Res (List Byte) × Res Unit → ℚ) (x : Fin n → (Fin l → U32) × (Nat → U32 → Bool)) : ℚ :=
  avg (fun τ : Fin n → T => D (rowsMessage (shiftedAll t i (fun k => (x k).1) τ),
    expectedAll db F (shiftedAll t i (fun k => (x k).1) τ) (fun k => (x k).2)))

/-- The test that says yes when the server finds one of the multipliers added at position `i`, up to `d`. -/
noncomputable def oneTest {T : Type} [Fintype T] (db : Db 32) (F : List Byte → Res (List Byte)) (d : Int)
    (ks : Finset Nat) {n l : Nat} (t : T → U32) (i : Nat) (v : Fin n → Fin l → U32) : ℚ :=
  avg (fun τ : Fin n → T => indicator (HitsOne db F d ks (shiftedAll t i v τ) (fun k => t (τ k))))

/-- The test that says yes when the server finds the first and most of the multipliers added at position `i`, up to `d`. -/
noncomputable def mostTest {T : Type} [Fintype T] (db : Db 32) (F : List Byte → Res (List Byte)) (d : Int)
    (ks : Finset Nat) {r l : Nat} (t : T → U32) (i : Nat) (v : Fin (2 * r + 1) → Fin l → U32) : ℚ :=
  avg (fun τ : Fin (2 * r + 1) → T => indicator (HitsMost db F d ks (shiftedAll t i v τ) (fun k => t (τ k))))

end Verif.Lwe.Spec
