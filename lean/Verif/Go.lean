import Mathlib.Data.BitVec
import Mathlib.Data.List.Basic
import Mathlib.Tactic.Ring
import Mathlib.Tactic.Linarith

/-!
# A small Go run-time for the model

`Res` is the outcome of a Go call: a value, a returned `error`, or a crash of the process
(run-time panic, explicit `panic`, `log.Fatal`, or undefined behaviour of the C kernels).
Slices are lists; indexing and slicing are bounds checked as in the Go specification
(slicing is checked against the length, Go checks against the capacity).
-/

namespace Verif

/-- Go `byte`. -/
abbrev Byte := BitVec 8
/-- Go `uint32`, arithmetic wraps modulo 2^32 as in Go. -/
abbrev U32 := BitVec 32
/-- `uint128.Uint128` (lukechampine.com/uint128); the `Wrap` operations wrap modulo 2^128. -/
abbrev U128 := BitVec 128

/-- Outcome of a Go call. -/
inductive Res (α : Type _) where
  | ok (a : α)
  | err (msg : String)
  | crash (msg : String)
deriving DecidableEq, Repr

namespace Res

/-- Sequencing: the first error or crash ends the call. -/
def bind {α β : Type _} (x : Res α) (f : α → Res β) : Res β :=
  match x with
  | ok a => f a
  | err m => err m
  | crash m => crash m

instance : Monad Res where
  pure := ok
  bind := bind

@[simp] theorem ok_bind {α β : Type _} (a : α) (f : α → Res β) : (ok a >>= f) = f a := rfl
@[simp] theorem err_bind {α β : Type _} (m : String) (f : α → Res β) : ((err m : Res α) >>= f) = err m := rfl
@[simp] theorem crash_bind {α β : Type _} (m : String) (f : α → Res β) :
    ((crash m : Res α) >>= f) = crash m := rfl
@[simp] theorem pure_eq {α : Type _} (a : α) : (pure a : Res α) = ok a := rfl
@[simp] theorem map_ok {α β : Type _} (f : α → β) (a : α) : f <$> (ok a : Res α) = ok (f a) := rfl
@[simp] theorem map_err {α β : Type _} (f : α → β) (m : String) : f <$> (err m : Res α) = err m := rfl
@[simp] theorem map_crash {α β : Type _} (f : α → β) (m : String) :
    f <$> (crash m : Res α) = crash m := rfl

instance : LawfulMonad Res := LawfulMonad.mk'
  (id_map := fun x => by cases x <;> rfl)
  (pure_bind := fun _ _ => rfl)
  (bind_assoc := fun x _ _ => by cases x <;> rfl)

/-- The call crashed. -/
def isCrash {α : Type _} : Res α → Prop
  | crash _ => True
  | _ => False

/-- The call returned a Go `error`. -/
def isErr {α : Type _} : Res α → Prop
  | err _ => True
  | _ => False

instance {α : Type _} (r : Res α) : Decidable r.isCrash := by
  cases r <;> simp only [isCrash] <;> infer_instance

instance {α : Type _} (r : Res α) : Decidable r.isErr := by
  cases r <;> simp only [isErr] <;> infer_instance

@[simp] theorem isCrash_ok {α : Type _} (a : α) : ¬ (ok a).isCrash := by simp [isCrash]
@[simp] theorem isCrash_err {α : Type _} (m : String) : ¬ (err m : Res α).isCrash := by simp [isCrash]
@[simp] theorem isCrash_crash {α : Type _} (m : String) : (crash m : Res α).isCrash := by simp [isCrash]
@[simp] theorem isErr_ok {α : Type _} (a : α) : ¬ (ok a).isErr := by simp [isErr]
@[simp] theorem isErr_err {α : Type _} (m : String) : (err m : Res α).isErr := by simp [isErr]
@[simp] theorem isErr_crash {α : Type _} (m : String) : ¬ (crash m : Res α).isErr := by simp [isErr]

theorem bind_eq_ok {α β : Type _} {x : Res α} {f : α → Res β} {b : β} :
    (x >>= f) = ok b ↔ ∃ a, x = ok a ∧ f a = ok b := by
  cases x <;> simp

theorem isCrash_bind {α β : Type _} {x : Res α} {f : α → Res β} :
    (x >>= f).isCrash ↔ x.isCrash ∨ ∃ a, x = ok a ∧ (f a).isCrash := by
  cases x <;> simp

end Res

open Res

/-! ### Loops -/

/-- `for i := 0; i < n; i++ { s = body(i, s) }`, ended early by an error or a crash. -/
def forLoop {σ : Type _} : Nat → (Nat → σ → Res σ) → σ → Res σ
  | 0, _, s => ok s
  | n + 1, body, s => forLoop n body s >>= body n

@[simp] theorem forLoop_zero {σ : Type _} (body : Nat → σ → Res σ) (s : σ) :
    forLoop 0 body s = ok s := rfl

theorem forLoop_succ {σ : Type _} (n : Nat) (body : Nat → σ → Res σ) (s : σ) :
    forLoop (n + 1) body s = (forLoop n body s >>= body n) := rfl

/-- Loop-invariant rule. -/
theorem forLoop_inv {σ : Type _} {n : Nat} {body : Nat → σ → Res σ} {s : σ}
    (P : Nat → σ → Prop) (h0 : P 0 s)
    (hs : ∀ i t, i < n → P i t → ∃ t', body i t = ok t' ∧ P (i + 1) t') :
    ∃ t, forLoop n body s = ok t ∧ P n t := by
  induction n with
  | zero => exact ⟨s, rfl, h0⟩
  | succ n ih =>
    obtain ⟨t, ht, hP⟩ := ih (fun i t hi => hs i t (by omega))
    obtain ⟨t', ht', hP'⟩ := hs n t (by omega) hP
    exact ⟨t', by rw [forLoop_succ, ht]; exact ht', hP'⟩

/-- A loop whose states are known. -/
theorem forLoop_eq {σ : Type _} {n : Nat} {body : Nat → σ → Res σ} (g : Nat → σ)
    (h : ∀ i, i < n → body i (g i) = ok (g (i + 1))) : forLoop n body (g 0) = ok (g n) := by
  induction n with
  | zero => rfl
  | succ n ih =>
    rw [forLoop_succ, ih (fun i hi => h i (by omega))]
    exact h n (by omega)

/-- Invariant rule for partial correctness (whatever the loop returned normally). -/
theorem forLoop_inv_ok {σ : Type _} {n : Nat} {body : Nat → σ → Res σ} {s t : σ}
    (P : Nat → σ → Prop) (h0 : P 0 s)
    (hs : ∀ i t t', i < n → P i t → body i t = ok t' → P (i + 1) t')
    (h : forLoop n body s = ok t) : P n t := by
  induction n generalizing t with
  | zero => simp at h; exact h ▸ h0
  | succ n ih =>
    rw [forLoop_succ, Res.bind_eq_ok] at h
    obtain ⟨u, hu, hb⟩ := h
    exact hs n u t (by omega) (ih (fun i t t' hi => hs i t t' (by omega)) hu) hb

/-- A loop whose body never fails is a fold. -/
theorem forLoop_pure {σ : Type _} (n : Nat) (f : Nat → σ → σ) (body : Nat → σ → Res σ) (s : σ)
    (h : ∀ i t, i < n → body i t = ok (f i t)) :
    forLoop n body s = ok ((List.range n).foldl (fun t i => f i t) s) := by
  induction n with
  | zero => rfl
  | succ n ih =>
    rw [forLoop_succ, ih (fun i t hi => h i t (by omega)), List.range_succ, List.foldl_append]
    exact h n _ (by omega)

theorem forLoop_congr {σ : Type _} {n : Nat} {f g : Nat → σ → Res σ} {s : σ}
    (h : ∀ i t, i < n → f i t = g i t) : forLoop n f s = forLoop n g s := by
  induction n with
  | zero => rfl
  | succ n ih =>
    rw [forLoop_succ, forLoop_succ, ih (fun i t hi => h i t (by omega))]
    cases forLoop n g s with
    | ok a => exact h n a (by omega)
    | err m => rfl
    | crash m => rfl

/-- First iterations first: peel iteration 0. -/
theorem forLoop_succ' {σ : Type _} (n : Nat) (body : Nat → σ → Res σ) (s : σ) :
    forLoop (n + 1) body s = (body 0 s >>= forLoop n (fun i => body (i + 1))) := by
  induction n with
  | zero => show body 0 s = (body 0 s >>= ok); cases body 0 s <;> rfl
  | succ n ih =>
    rw [forLoop_succ, ih]
    cases body 0 s <;> simp [forLoop_succ]

/-! ### Slices -/

/-- `l[i]`. -/
def idx {α : Type _} (l : List α) (i : Nat) : Res α :=
  match l[i]? with
  | some a => ok a
  | none => crash "index out of range"

/-- `l[i] = a`. -/
def setAt {α : Type _} (l : List α) (i : Nat) (a : α) : Res (List α) :=
  if i < l.length then ok (l.set i a) else crash "index out of range"

/-- `l[i:j]`. -/
def slice {α : Type _} (l : List α) (i j : Nat) : Res (List α) :=
  if i ≤ j ∧ j ≤ l.length then ok ((l.drop i).take (j - i)) else crash "slice bounds out of range"

/-- `copy(dst[off:], src)`: the number of bytes copied is the smaller length. -/
def copyAt {α : Type _} (dst : List α) (off : Nat) (src : List α) : Res (List α) :=
  if off ≤ dst.length then
    ok (dst.take off ++ src.take (dst.length - off) ++ dst.drop (off + src.length))
  else crash "slice bounds out of range"

@[simp] theorem idx_of_lt {α : Type _} {l : List α} {i : Nat} (h : i < l.length) : idx l i = ok l[i] := by
  simp [idx, h]

theorem idx_cons_zero {α : Type _} (a : α) (l : List α) : idx (a :: l) 0 = ok a := rfl
theorem idx_cons_succ {α : Type _} (a : α) (l : List α) (i : Nat) : idx (a :: l) (i + 1) = idx l i := rfl

theorem idx_eq_ok {α : Type _} {l : List α} {i : Nat} {a : α} : idx l i = ok a ↔ l[i]? = some a := by
  unfold idx; cases l[i]? <;> simp

theorem idx_of_ge {α : Type _} {l : List α} {i : Nat} (h : l.length ≤ i) :
    idx l i = crash "index out of range" := by
  simp [idx, h]

theorem idx_getD {α : Type _} {l : List α} {i : Nat} (d : α) (h : i < l.length) :
    idx l i = ok (l.getD i d) := by
  simp [h]

theorem setAt_of_lt {α : Type _} {l : List α} {i : Nat} {a : α} (h : i < l.length) :
    setAt l i a = ok (l.set i a) := by
  simp [setAt, h]

theorem slice_of_le {α : Type _} {l : List α} {i j : Nat} (h : i ≤ j) (h' : j ≤ l.length) :
    slice l i j = ok ((l.drop i).take (j - i)) := by
  simp [slice, h, h']

theorem slice_eq_ok {α : Type _} {l r : List α} {i j : Nat} :
    slice l i j = ok r ↔ i ≤ j ∧ j ≤ l.length ∧ r = (l.drop i).take (j - i) := by
  unfold slice; split
  · rename_i h; simp [h, eq_comm]
  · rename_i h; simp; tauto

theorem slice_length {α : Type _} {l r : List α} {i j : Nat} (h : slice l i j = ok r) :
    r.length = j - i := by
  rw [slice_eq_ok] at h
  obtain ⟨h1, h2, rfl⟩ := h
  simp; omega

theorem copyAt_of_le {α : Type _} {dst src : List α} {off : Nat} (h : off + src.length ≤ dst.length) :
    copyAt dst off src = ok (dst.take off ++ src ++ dst.drop (off + src.length)) := by
  have : off ≤ dst.length := by omega
  simp [copyAt, this, List.take_of_length_le (show src.length ≤ dst.length - off by omega)]

/-! ### Integers as bytes -/

/-- `k` little-endian bytes of `n` (the `encoding/binary` LittleEndian.PutUintX). -/
def leBytes : Nat → Nat → List Byte
  | 0, _ => []
  | k + 1, n => BitVec.ofNat 8 n :: leBytes k (n / 256)

/-- Value of little-endian bytes. -/
def ofLE : List Byte → Nat
  | [] => 0
  | b :: bs => b.toNat + 256 * ofLE bs

/-- `k` big-endian bytes of `n`. -/
def beBytes (k n : Nat) : List Byte := (leBytes k n).reverse

/-- Value of big-endian bytes. -/
def ofBE (l : List Byte) : Nat := ofLE l.reverse

@[simp] theorem leBytes_length (k n : Nat) : (leBytes k n).length = k := by
  induction k generalizing n with
  | zero => rfl
  | succ k ih => simp [leBytes, ih]

@[simp] theorem beBytes_length (k n : Nat) : (beBytes k n).length = k := by simp [beBytes]

theorem ofLE_leBytes (k n : Nat) : ofLE (leBytes k n) = n % 256 ^ k := by
  induction k generalizing n with
  | zero => simp [leBytes, ofLE, Nat.mod_one]
  | succ k ih =>
    rw [leBytes, ofLE, ih, BitVec.toNat_ofNat, pow_succ 256 k, Nat.mul_comm (256 ^ k) 256,
      Nat.mod_mul]

theorem ofBE_beBytes (k n : Nat) : ofBE (beBytes k n) = n % 256 ^ k := by
  simp [ofBE, beBytes, ofLE_leBytes]

theorem ofLE_lt (l : List Byte) : ofLE l < 256 ^ l.length := by
  induction l with
  | nil => simp [ofLE]
  | cons b bs ih =>
    simp only [ofLE, List.length_cons, pow_succ]
    have := b.isLt
    omega

theorem leBytes_ofLE (l : List Byte) : leBytes l.length (ofLE l) = l := by
  induction l with
  | nil => rfl
  | cons b bs ih =>
    simp only [ofLE, List.length_cons, leBytes]
    have hb := b.isLt
    have h1 : (b.toNat + 256 * ofLE bs) / 256 = ofLE bs := by omega
    rw [h1, ih]
    congr 1
    apply BitVec.eq_of_toNat_eq
    simp only [BitVec.toNat_ofNat]
    omega

theorem beBytes_ofBE (l : List Byte) : beBytes l.length (ofBE l) = l := by
  have := leBytes_ofLE l.reverse
  simp only [List.length_reverse] at this
  simp [beBytes, ofBE, this]

theorem ofBE_lt (l : List Byte) : ofBE l < 256 ^ l.length := by
  have := ofLE_lt l.reverse
  simpa [ofBE] using this

theorem ofLE_inj {l l' : List Byte} (hl : l.length = l'.length) (h : ofLE l = ofLE l') : l = l' := by
  rw [← leBytes_ofLE l, ← leBytes_ofLE l', hl, h]

theorem ofBE_inj {l l' : List Byte} (hl : l.length = l'.length) (h : ofBE l = ofBE l') : l = l' := by
  rw [← beBytes_ofBE l, ← beBytes_ofBE l', hl, h]

/-- `binary.BigEndian.PutUint32`. -/
def putBE32 (x : U32) : List Byte := beBytes 4 x.toNat
/-- `binary.LittleEndian.PutUint32`. -/
def putLE32 (x : U32) : List Byte := leBytes 4 x.toNat

/-- `binary.BigEndian.Uint32(b)`: reads the first four bytes, panics on shorter input. -/
def getBE32 (b : List Byte) : Res U32 :=
  if 4 ≤ b.length then ok (BitVec.ofNat 32 (ofBE (b.take 4))) else crash "index out of range"

/-- `binary.LittleEndian.Uint32(b)`. -/
def getLE32 (b : List Byte) : Res U32 :=
  if 4 ≤ b.length then ok (BitVec.ofNat 32 (ofLE (b.take 4))) else crash "index out of range"

@[simp] theorem putBE32_length (x : U32) : (putBE32 x).length = 4 := by simp [putBE32]
@[simp] theorem putLE32_length (x : U32) : (putLE32 x).length = 4 := by simp [putLE32]

theorem getBE32_put (x : U32) (rest : List Byte) : getBE32 (putBE32 x ++ rest) = ok x := by
  unfold getBE32
  rw [if_pos (by simp)]
  congr 1
  rw [List.take_append_of_le_length (by simp), List.take_of_length_le (by simp)]
  apply BitVec.eq_of_toNat_eq
  rw [putBE32, ofBE_beBytes]
  have := x.isLt
  simp only [BitVec.toNat_ofNat]
  omega

theorem getLE32_put (x : U32) (rest : List Byte) : getLE32 (putLE32 x ++ rest) = ok x := by
  unfold getLE32
  rw [if_pos (by simp)]
  congr 1
  rw [List.take_append_of_le_length (by simp), List.take_of_length_le (by simp)]
  apply BitVec.eq_of_toNat_eq
  rw [putLE32, ofLE_leBytes]
  have := x.isLt
  simp only [BitVec.toNat_ofNat]
  omega

theorem putBE32_get {b : List Byte} {x : U32} (hb : b.length = 4) (h : getBE32 b = ok x) :
    putBE32 x = b := by
  unfold getBE32 at h
  rw [if_pos (by omega)] at h
  simp only [ok.injEq] at h
  subst h
  rw [List.take_of_length_le (by omega)]
  have h1 := ofBE_lt b
  rw [hb] at h1
  have : (BitVec.ofNat 32 (ofBE b)).toNat = ofBE b := by
    simp only [BitVec.toNat_ofNat]; omega
  rw [putBE32, this, ← hb]
  exact beBytes_ofBE b

theorem putLE32_inj {x y : U32} (h : putLE32 x = putLE32 y) : x = y := by
  have h1 := getLE32_put x []
  have h2 := getLE32_put y []
  rw [h] at h1
  simp_all

theorem putBE32_inj {x y : U32} (h : putBE32 x = putBE32 y) : x = y := by
  have h1 := getBE32_put x []
  have h2 := getBE32_put y []
  rw [h] at h1
  simp_all

/-! ### XOR of byte slices -/

/-- `fastxor.Bytes(dst, a, b)`: writes `a xor b` to the front of `dst`, stopping at the end of the
shortest of the three slices (github.com/lukechampine/fastxor documentation). -/
def fastxor (dst a b : List Byte) : List Byte :=
  let n := min dst.length (min a.length b.length)
  (List.zipWith (· ^^^ ·) a b).take n ++ dst.drop n

@[simp] theorem fastxor_length (dst a b : List Byte) : (fastxor dst a b).length = dst.length := by
  simp [fastxor]

theorem fastxor_eq {dst a b : List Byte} (h1 : a.length = dst.length) (h2 : b.length = dst.length) :
    fastxor dst a b = List.zipWith (· ^^^ ·) a b := by
  unfold fastxor
  simp only [h1, h2, min_self, List.drop_length, List.append_nil]
  exact List.take_of_length_le (by simp [h1, h2])

/-- `fastxor.Bytes(d, d, s)` with `s` no longer than `d` xors `s` into the front of `d`. -/
theorem fastxor_self {d s : List Byte} (h : s.length ≤ d.length) :
    fastxor d d s = List.zipWith (· ^^^ ·) (d.take s.length) s ++ d.drop s.length := by
  unfold fastxor
  have : min d.length (min d.length s.length) = s.length := by omega
  simp only [this]
  congr 1
  rw [List.take_zipWith, List.take_of_length_le (le_refl s.length)]

end Verif
