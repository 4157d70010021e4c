import Verif.Spec.Privacy
import Verif.Lemmas.FssLeak

/-! # Specification vocabulary for the privacy of function-secret-sharing keys

The view of one party, the gap of a test against the generator `s ↦ E_0(s) xor s, E_1(s) xor s, E_2(s) xor s`, and the
tests that arise from a test on keys by replacing the generator's output by random bytes level by level. -/

namespace Verif.Fss
open Res Verif.Field Verif.Field.Spec Verif.Fss.Spec Verif.Privacy Finset

/-- What a party knows while walking down the tree: its seed and its control bit. -/
abbrev Own := List Byte × Byte

/-- Difference between the mean of the test on 48 bytes expanded from a random seed and on 48 random bytes. -/
def prgGap (E : Cipher) (B : List Byte → ℚ) : ℚ :=
  avg (fun s : Fin 16 → Byte => B (stream E (List.ofFn s) 3)) - avg (fun u : Fin 48 → Byte => B (List.ofFn u))

/-- Left (`false`) or right half of an expanded seed. -/
def halfU (x : Bool) (u : List Byte) : List Byte := if x then (u.drop 17).take 16 else u.take 16

/-- Control byte of a half. -/
def ctlU (x : Bool) (u : List Byte) : Byte := if x then u.getD 33 0 else u.getD 16 0

/-- One level of key generation from the expanded seeds `ub` of a party with control bit `tb` and `uo` of the other
one: correction word, new state of the party, new seed of the other one. -/
def stepU (a : Bool) (ub uo : List Byte) (tb : Byte) : List Byte × Own × List Byte :=
  let cs := List.zipWith (· ^^^ ·) (halfU (!a) ub) (halfU (!a) uo)
  let aBit : Byte := if a then 1 else 0
  let cwL := ctlU false ub % 2 ^^^ ctlU false uo % 2 ^^^ aBit ^^^ 1
  let cwR := ctlU true ub % 2 ^^^ ctlU true uo % 2 ^^^ aBit
  let cwK := if a then cwR else cwL
  (cs ++ [cwL, cwR], (corr (halfU a ub) tb cs, ctlU a ub % 2 ^^^ cwK * tb), corr (halfU a uo) (tb ^^^ 1) cs)

/-- Key generation from the point of view of one party: correction words, its last state, the last seed of the other. -/
def runReal (E : Cipher) : List Bool → Own → List Byte → List (List Byte) × Own × List Byte
  | [], own, so => ([], own, so)
  | a :: as, own, so =>
    let st := stepU a (stream E own.1 3) (stream E so 3) own.2
    let r := runReal E as st.2.1 st.2.2
    (st.1 :: r.1, r.2)

/-- A correction word read from random bytes. -/
def cwOf (v : Fin 48 → Byte) : List Byte := (List.ofFn v).take 16 ++ [v 16 % 2, v 33 % 2]

/-- A test on correction words, the party's last state and the other one's last seed. -/
abbrev Cont := List (List Byte) → Own → List Byte → ℚ

/-- The test for the generator at level `k`: the correction words above are random, the one at level `k` uses the 48
bytes `u` of the challenge, those below are generated as the client does. -/
def levelTest (E : Cipher) : List Bool → Nat → Own → Cont → List Byte → ℚ
  | [], _, _, _, _ => 0
  | a :: as, 0, own, F, u =>
    let st := stepU a (stream E own.1 3) u own.2
    let r := runReal E as st.2.1 st.2.2
    F (st.1 :: r.1) r.2.1 r.2.2
  | a :: as, k + 1, own, F, u => avg (fun v : Fin 48 → Byte =>
      levelTest E as k (evalStepC E a (cwOf v) own.1 own.2) (fun cws => F (cwOf v :: cws)) u)

/-- The mean of the test when all correction words and the other party's last seed are random. -/
def idealMean (E : Cipher) : List Bool → Own → Cont → ℚ
  | [], own, F => avg (fun so : Fin 16 → Byte => F [] own (List.ofFn so))
  | a :: as, own, F => avg (fun v : Fin 48 → Byte =>
      idealMean E as (evalStepC E a (cwOf v) own.1 own.2) (fun cws => F (cwOf v :: cws)))

/-- The four 31-bit values taken from the bytes derived from a last seed (lib/field/field.go:31-36). -/
def words (E : Cipher) (s : List Byte) : Fin 4 → Fin (2 ^ 31) := fun i =>
  ⟨low31 (((stream E s 1).drop (i.1 * 4)).take 4), Nat.mod_lt _ (by norm_num)⟩

/-- Difference between the mean of the test on the four values taken from a random seed and on four random values. -/
def convGap (E : Cipher) (C : (Fin 4 → Fin (2 ^ 31)) → ℚ) : ℚ :=
  avg (fun s : Fin 16 → Byte => C (words E (List.ofFn s))) - avg C

/-- The test for the four values when all correction words are random. -/
def wordTest (E : Cipher) : List Bool → Own → (List (List Byte) → Own → (Fin 4 → Fin (2 ^ 31)) → ℚ) →
    (Fin 4 → Fin (2 ^ 31)) → ℚ
  | [], own, F, z => F [] own z
  | a :: as, own, F, z => avg (fun v : Fin 48 → Byte =>
      wordTest E as (evalStepC E a (cwOf v) own.1 own.2) (fun cws => F (cwOf v :: cws)) z)

/-- The mean of a test on `n` random correction words. -/
def wordsMean : Nat → (List (List Byte) → ℚ) → ℚ
  | 0, H => H []
  | n + 1, H => avg (fun v : Fin 48 → Byte => wordsMean n (fun cws => H (cwOf v :: cws)))

/-- A value taken from a seed, with the replacement `e` when it equals the modulus (lib/field/field.go:38-45). -/
def orFresh (e : U32) (z : Fin (2 ^ 31)) : U32 := if z.1 = p then e else BitVec.ofNat 32 z.1

/-- The elements obtained from the four values of a seed: the fifth is 0. -/
def elems (e : U32) (z : Fin 4 → Fin (2 ^ 31)) : List U32 :=
  [orFresh e (z 0), orFresh e (z 1), orFresh e (z 2), orFresh e (z 3), 0]

/-- The values shared by the client with authentication, the last one being `α`. -/
def vals (β : Fin 4 → U32) (α : Fin p) : List U32 := [β 0, β 1, β 2, β 3, BitVec.ofNat 32 α.1]

/-- What party `second` (0 or 1) receives in a run of key generation. -/
def received (env : Env) (second : Bool) (a : List Bool) (β : Fin 4 → U32) (s0 s1 : Fin 16 → Byte) (tb : Byte)
    (α : Fin p) : Res Key :=
  (generateTreePF env (initFss 5) (List.ofFn s0 ++ [tb]) (List.ofFn s1) a (vals β α)).bind
    (fun r => ok (if second then r.2.1 else r.1))

/-- The mean of a test on what party `second` receives, over random seeds, control bit and last value. -/
def viewMean (env : Env) (second : Bool) (a : List Bool) (β : Fin 4 → U32) (T : Res Key → ℚ) : ℚ :=
  avg (fun s0 : Fin 16 → Byte => avg (fun s1 : Fin 16 → Byte => avg (fun tb : Byte => avg (fun α : Fin p =>
    T (received env second a β s0 s1 tb α)))))

/-- The initial state of party `second` with seed `s` when the client's control byte is `tb`. -/
def ownOf (second : Bool) (s : Fin 16 → Byte) (tb : Byte) : Own :=
  (List.ofFn s, if second then tb % 2 ^^^ 1 else tb % 2)

/-- The final correction word when party `second` ends in state `own` and the values of the other party's last seed are
`z`. -/
def fcwOf (E : Cipher) (e : U32) (second : Bool) (b : List U32) (own : Own) (z : Fin 4 → Fin (2 ^ 31)) : List U32 :=
  if second then fcwC b (elems e z) (elems e (words E own.1)) own.2
  else fcwC b (elems e (words E own.1)) (elems e z) (own.2 ^^^ 1)

/-- The test on a key with initial state `init`, as a test on correction words, last state and the other party's values. -/
def keyCont (E : Cipher) (e : U32) (second : Bool) (β : Fin 4 → U32) (T : Res Key → ℚ) (init : Own) :
    List (List Byte) → Own → (Fin 4 → Fin (2 ^ 31)) → ℚ := fun cws own z =>
  avg (fun α : Fin p => T (ok ⟨init.1, init.2, cws, fcwOf E e second (vals β α) own z⟩))

/-- The test for the generator at level `k` made from a test `T` on keys. -/
def keyLevelTest (E : Cipher) (e : U32) (second : Bool) (a : List Bool) (β : Fin 4 → U32) (T : Res Key → ℚ) (k : Nat)
    (u : List Byte) : ℚ :=
  avg (fun s : Fin 16 → Byte => avg (fun tb : Byte => levelTest E a k (ownOf second s tb)
    (fun cws own so => keyCont E e second β T (ownOf second s tb) cws own (words E so)) u))

/-- The test for the values of the last seed made from a test `T` on keys. -/
def keyWordTest (E : Cipher) (e : U32) (second : Bool) (a : List Bool) (β : Fin 4 → U32) (T : Res Key → ℚ)
    (z : Fin 4 → Fin (2 ^ 31)) : ℚ :=
  avg (fun s : Fin 16 → Byte => avg (fun tb : Byte => wordTest E a (ownOf second s tb)
    (keyCont E e second β T (ownOf second s tb)) z))

/-- The mean of a test on a key made of random bytes only: `n` random correction words and five random 31-bit values. -/
def randomKeyMean (second : Bool) (n : Nat) (T : Res Key → ℚ) : ℚ :=
  avg (fun s : Fin 16 → Byte => avg (fun tb : Byte => wordsMean n (fun cws =>
    avg (fun z : Fin 4 → Fin (2 ^ 31) => avg (fun y : Fin (2 ^ 31) =>
      T (ok ⟨List.ofFn s, (ownOf second s tb).2, cws,
        [BitVec.ofNat 32 (z 0).1, BitVec.ofNat 32 (z 1).1, BitVec.ofNat 32 (z 2).1, BitVec.ofNat 32 (z 3).1,
          BitVec.ofNat 32 y.1]⟩))))))

end Verif.Fss
