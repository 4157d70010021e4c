import Verif.Spec.FssPrivacy

/-! # Specification vocabulary for what a query without authentication reveals

The client without authentication shares the single value 1 (lib/client/predicate_pir.go:18-28, lib/client/fss.go:57-73). -/

namespace Verif.Fss
open Res Verif.Field Verif.Field.Spec Verif.Fss.Spec Verif.Privacy Finset

/-- What party `second` (0 or 1) receives in a run of key generation for the value 1. -/
def plainReceived (env : Env) (second : Bool) (a : List Bool) (s0 s1 : Fin 16 → Byte) (tb : Byte) : Res Key :=
  (generateTreePF env (initFss 1) (List.ofFn s0 ++ [tb]) (List.ofFn s1) a [1]).bind
    (fun r => ok (if second then r.2.1 else r.1))

/-- The mean of a test on what party `second` receives, over random seeds and control bit. -/
def plainMean (env : Env) (second : Bool) (a : List Bool) (T : Res Key → ℚ) : ℚ :=
  avg (fun s0 : Fin 16 → Byte => avg (fun s1 : Fin 16 → Byte => avg (fun tb : Byte =>
    T (plainReceived env second a s0 s1 tb))))

/-- The final correction word, 1 or -1, when party `second` ends with the control bit `t`. -/
def signOf (second : Bool) (t : Byte) : List U32 := if (if second then t else t ^^^ 1) = 1 then [modP - 1] else [1]

/-- The test for the generator at level `k` made from a test `T` on keys. -/
def plainLevelTest (E : Cipher) (second : Bool) (a : List Bool) (T : Res Key → ℚ) (k : Nat) (u : List Byte) : ℚ :=
  avg (fun s : Fin 16 → Byte => avg (fun tb : Byte => levelTest E a k (ownOf second s tb)
    (fun cws own _ => T (ok ⟨(ownOf second s tb).1, (ownOf second s tb).2, cws, signOf second own.2⟩)) u))

/-- The mean of a test on a key made of random bytes only, with `n` random correction words and a random sign. -/
def randomPlainMean (second : Bool) (n : Nat) (T : Res Key → ℚ) : ℚ :=
  avg (fun s : Fin 16 → Byte => avg (fun tb : Byte => wordsMean n (fun cws =>
    avg (fun b : Bool => T (ok ⟨List.ofFn s, (ownOf second s tb).2, cws, if b then [modP - 1] else [1]⟩)))))

end Verif.Fss
