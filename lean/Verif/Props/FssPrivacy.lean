import Verif.Props.Fss

/-! # C59: what a server learns from a query without authentication (lib/client/predicate_pir.go, lib/fss)

The client without authentication shares the single value 1 (lib/client/predicate_pir.go:18-28, lib/client/fss.go:57-73).
With fewer than four values no block of the final seeds is converted (lib/fss/common.go:68-72), and the final correction
word is 1 or -1 in the clear. Its sign is the control bit of the second server at the queried point. -/

namespace Verif.Fss
open Res Verif.Field Verif.Field.Spec Verif.Fss.Spec

/-- The test of a server for a candidate `x`: it evaluates its own key at `x` and compares the share with the value that
the final correction word prescribes for the queried point. -/
def Compatible (env : Env) (sn : Byte) (k : Key) (x : List Bool) : Prop :=
  ∃ y o, evaluatePF env (initFss 1) sn k x [0] = ok ([y], o) ∧
    y.toNat % p = if (k.finalCW = [1] ↔ sn = 0) then 1 else 0

/-- C59, full statement (the weakest form of hiding): whatever key a server receives for the predicate `a`, it could also
have received it, with other randomness, for any other predicate `a'` of the same kind. -/
def C59_Statement : Prop :=
  ∀ (env : Env), BlockCipher env.E → ∀ (a a' : List Bool), a.length = a'.length → a.length ≤ 256 →
  ∀ (r1 r2 : List Byte), r1.length = 17 → r2.length = 16 →
  ∀ k0 k1 o, generateTreePF env (initFss 1) r1 r2 a [1] = ok (k0, k1, o) →
  ∃ r1' r2', r1'.length = 17 ∧ r2'.length = 16 ∧
    ∃ k1' o', generateTreePF env (initFss 1) r1' r2' a' [1] = ok (k0, k1', o')

theorem noHit_one (E : Cipher) (s : List Byte) : NoHit E 1 s := by
  intro i hi; omega

theorem convC_one (E : Cipher) (s : List Byte) : convC E s 1 = [0] := by
  unfold convC
  rfl

/-- C59: in every run, for every cipher, all randomness and every predicate of at most 256 bits, the queried predicate
passes the test of both servers, and the final correction word is 1 or -1. -/
theorem C59_queried_point_compatible (env : Env) (hE : BlockCipher env.E) (r1 r2 : List Byte) (a : List Bool)
    (h1 : r1.length = 17) (h2 : r2.length = 16) (ha : a.length ≤ 256) :
    ∃ k0 k1 o, generateTreePF env (initFss 1) r1 r2 a [1] = ok (k0, k1, o) ∧
      (k0.finalCW = [1] ∨ k0.finalCW = [modP - 1]) ∧ k1.finalCW = k0.finalCW ∧
      Compatible env 0 k0 a ∧ Compatible env 1 k1 a := by
  obtain ⟨c0, c1, cne⟩ := init_bits (r1.getD 16 0)
  have hl0 : (r1.take 16).length = 16 := by simp [h1]
  have hgl := genLoop_eq hE a hl0 h2 c0 c1 cne
  have hgb := genRec_bits hE a hl0 h2 c0 c1 cne
  have hgc := genRec_cw hE a hl0 h2 c0 c1 cne
  have hon := evalRec_on hE a hl0 h2 c0 c1 cne
  set r := genRec env.E a (r1.take 16) r2 (r1.getD 16 0 % 2) (r1.getD 16 0 % 2 ^^^ 1) with hr
  simp only at hgl hgb hon
  obtain ⟨ocb', ho', eg⟩ := generate_eq (b := [1]) hE (initFss_ok 1) h1 h2 (by simp) _ hgl (noHit_one _ _)
    (noHit_one _ _)
  refine ⟨_, _, ocb', eg, ?_, rfl, ?_, ?_⟩
  · simp only [List.length_singleton, convC_one, fcwC]
    rcases hgb.2.2.2.1 with h | h <;> rw [h] <;> decide
  · obtain ⟨o, -, e⟩ := evaluate_eq (env := env) (x := a) (ocb := initFss 1) (out := [0])
      (k := ⟨r1.take 16, r1.getD 16 0 % 2, r.1, fcwC [1] (convC env.E r.2.1 1) (convC env.E r.2.2.1 1) r.2.2.2.2⟩)
      hE 0 (by simp) (initFss_ok 1) hl0 c0 hgc.1 hgc.2 (by simp [fcwC]) (fun _ _ _ => noHit_one _ _)
    refine ⟨_, o, e, ?_⟩
    simp only [clear256_of_le ha, hon.1, shareC_zero, List.length_singleton, convC_one, fcwC]
    rcases hgb.2.2.2.1 with h | h <;> rcases hgb.2.2.1 with h' | h' <;>
      simp only [h, h'] <;> first | exact absurd (h'.trans h.symm) hgb.2.2.2.2 | decide
  · obtain ⟨o, -, e⟩ := evaluate_eq (env := env) (x := a) (ocb := initFss 1) (out := [0])
      (k := ⟨r2, r1.getD 16 0 % 2 ^^^ 1, r.1, fcwC [1] (convC env.E r.2.1 1) (convC env.E r.2.2.1 1) r.2.2.2.2⟩)
      hE 1 (by simp) (initFss_ok 1) h2 c1 hgc.1 hgc.2 (by simp [fcwC]) (fun _ _ _ => noHit_one _ _)
    refine ⟨_, o, e, ?_⟩
    simp only [clear256_of_le ha, hon.2, shareC_one, List.length_singleton, convC_one, fcwC]
    rcases hgb.2.2.2.1 with h | h <;> rcases hgb.2.2.1 with h' | h' <;>
      simp only [h] <;> first | exact absurd (h'.trans h.symm) hgb.2.2.2.2 | decide

/-- C59: a candidate that fails the test of a server is not the queried predicate: no randomness of the client leads to
that key for this candidate. -/
theorem C59_incompatible_excluded (env : Env) (hE : BlockCipher env.E) (x : List Bool) (hx : x.length ≤ 256)
    (k0 k1 : Key) (hc : ¬ Compatible env 0 k0 x ∨ ¬ Compatible env 1 k1 x)
    (r1 r2 : List Byte) (h1 : r1.length = 17) (h2 : r2.length = 16) (o : List Byte) :
    generateTreePF env (initFss 1) r1 r2 x [1] ≠ ok (k0, k1, o) := by
  intro h
  obtain ⟨k0', k1', o', e, -, -, hc0, hc1⟩ := C59_queried_point_compatible env hE r1 r2 x h1 h2 hx
  rw [h] at e
  simp only [ok.injEq, Prod.mk.injEq] at e
  obtain ⟨rfl, rfl, -⟩ := e
  exact hc.elim (· hc0) (· hc1)

/-- One run: does the first server's share at the candidate `[true]` differ from the one prescribed, when the queried
predicate is `[false]`? -/
def leakRun : Bool :=
  match generateTreePF ⟨parityCipher, fun _ => 0, 0⟩ (initFss 1) (List.replicate 17 3) (List.replicate 16 4)
      [false] [1] with
  | ok (k0, _, _) =>
    match evaluatePF ⟨parityCipher, fun _ => 0, 0⟩ (initFss 1) 0 k0 [true] [0] with
    | ok ([y], _) => decide (y.toNat % p ≠ if (k0.finalCW = [1] ↔ (0 : Byte) = 0) then 1 else 0)
    | _ => false
  | _ => false

/-- A key and a candidate that fails the test. -/
theorem leakRun_incompatible (k0 k1 : Key) (o : List Byte)
    (e : generateTreePF ⟨parityCipher, fun _ => 0, 0⟩ (initFss 1) (List.replicate 17 3) (List.replicate 16 4)
      [false] [1] = ok (k0, k1, o)) : ¬ Compatible ⟨parityCipher, fun _ => 0, 0⟩ 0 k0 [true] := by
  rintro ⟨y, o', ey, hy⟩
  have eg : leakRun = true := by decide +kernel
  unfold leakRun at eg
  rw [e] at eg
  simp only [ey, decide_eq_true_eq] at eg
  exact eg (by simpa using hy)

example : ∃ k0 k1 o, generateTreePF ⟨parityCipher, fun _ => 0, 0⟩ (initFss 1) (List.replicate 17 3)
    (List.replicate 16 4) [false] [1] = ok (k0, k1, o) ∧ ¬ Compatible ⟨parityCipher, fun _ => 0, 0⟩ 0 k0 [true] := by
  obtain ⟨k0, k1, o, e, -⟩ := C59_queried_point_compatible ⟨parityCipher, fun _ => 0, 0⟩ parityCipher_block
    (List.replicate 17 3) (List.replicate 16 4) [false] (by simp) (by simp) (by simp)
  exact ⟨k0, k1, o, e, leakRun_incompatible k0 k1 o e⟩

/-- C59: the full statement fails: a server can rule out predicates. -/
theorem C59_refuted : ¬ C59_Statement := by
  intro H
  obtain ⟨k0, k1, o, e, -⟩ := C59_queried_point_compatible ⟨parityCipher, fun _ => 0, 0⟩ parityCipher_block
    (List.replicate 17 3) (List.replicate 16 4) [false] (by simp) (by simp) (by simp)
  obtain ⟨r1, r2, h1, h2, k1', o', e'⟩ := H ⟨parityCipher, fun _ => 0, 0⟩ parityCipher_block [false] [true] rfl
    (by simp) _ _ (by simp) (by simp) k0 k1 o e
  exact C59_incompatible_excluded ⟨parityCipher, fun _ => 0, 0⟩ parityCipher_block [true] (by simp) k0 k1'
    (Or.inl (leakRun_incompatible k0 k1 o e)) r1 r2 h1 h2 o' e'

end Verif.Fss
