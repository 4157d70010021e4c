import Verif.Lemmas.FssLeak

/-! # C19, C20, C24: function secret sharing (lib/fss) -/

namespace Verif.Fss
open Res Verif.Field Verif.Field.Spec Verif.Fss.Spec

/-- None of the values derived from the seeds reached while generating the keys equals the modulus. -/
def GenNoHit (E : Cipher) (n : Nat) (r1 r2 : List Byte) (a : List Bool) : Prop :=
  ∀ g, genLoop E a (r1.take 16) r2 (r1.getD 16 0 % 2) (r1.getD 16 0 % 2 ^^^ 1) = ok g →
    NoHit E n g.s0 ∧ NoHit E n g.s1

/-- None of the values derived from the seed reached when evaluating key `k` at `x` equals the modulus. -/
def EvalNoHit (E : Cipher) (n : Nat) (k : Key) (x : List Bool) : Prop :=
  ∀ s t, evalPath E k x = ok (s, t) → NoHit E n s

/-- The two keys `k0`, `k1`, evaluated by two servers in any state of their scratch buffers and with any
fresh randomness, give shares of the values `v`. -/
def SharesOf (E : Cipher) (n : Nat) (k0 k1 : Key) (x : List Bool) (v : List Nat) : Prop :=
  ∀ (env0 env1 : Env), env0.E = E → env1.E = E →
  ∀ (buf0 buf1 : List Byte) (out0 out1 : List U32), out0.length = n → out1.length = n →
  BufferReady n buf0 → BufferReady n buf1 →
  ∃ y0 b0 y1 b1, evaluatePF env0 buf0 0 k0 x out0 = ok (y0, b0) ∧
    evaluatePF env1 buf1 1 k1 x out1 = ok (y1, b1) ∧ BufferReady n b0 ∧ BufferReady n b1 ∧
    combine y0 y1 = v

/-- A cipher whose derived bytes are the parities of the seed's bytes: no value ever equals the modulus. -/
def parityCipher : Cipher := fun _ s => s.map (fun b => b ^^^ (b &&& 1))

theorem parityCipher_block : BlockCipher parityCipher := by
  intro i s hs; simpa [parityCipher] using hs

theorem parityCipher_stream (s : List Byte) (nb : Nat) : ∀ b ∈ stream parityCipher s nb, b.toNat ≤ 1 := by
  intro b hb
  simp only [stream, List.mem_flatMap, List.mem_range] at hb
  obtain ⟨i, -, hb⟩ := hb
  simp only [parityCipher, List.zipWith_map_left, List.zipWith_self, List.mem_map] at hb
  obtain ⟨c, -, rfl⟩ := hb
  have : c ^^^ (c &&& 1) ^^^ c = c &&& 1 := by
    rw [BitVec.xor_comm, ← BitVec.xor_assoc]; simp
  rw [this, BitVec.toNat_and]
  exact Nat.and_le_right

theorem parityCipher_noHit (n : Nat) (s : List Byte) : NoHit parityCipher n s := by
  intro i _ h
  set c := ((stream parityCipher s (n / 4)).drop (i * 4)).take 4 with hc
  have hle : ∀ b ∈ c, b.toNat ≤ 1 := fun b hb =>
    parityCipher_stream s _ b (List.mem_of_mem_drop (List.mem_of_mem_take hb))
  have hb : ∀ (l : List Byte), (∀ b ∈ l, b.toNat ≤ 1) → 255 * ofLE l < 256 ^ l.length := by
    intro l
    induction l with
    | nil => intro _; simp [ofLE]
    | cons b l ih =>
      intro hl
      have h1 := ih (fun b hb => hl b (by simp [hb]))
      have h2 := hl b (by simp)
      simp only [ofLE, List.length_cons, pow_succ]
      omega
  have := hb c.reverse (by intro b hb; exact hle b (by simpa using hb))
  have hl : c.reverse.length ≤ 4 := by simp [hc]
  have h4 : 256 ^ c.reverse.length ≤ 256 ^ 4 := Nat.pow_le_pow_right (by norm_num) hl
  rw [p_val, low31, ofBE] at h
  omega

/-- C19, full statement: generation succeeds and for every input of the same bit length (at most 256) the two
evaluations are shares of the point function. -/
def C19_Statement : Prop :=
  ∀ (env : Env), BlockCipher env.E →
  ∀ (buf r1 r2 : List Byte) (a : List Bool) (b : List U32), r1.length = 17 → r2.length = 16 →
  a.length ≤ 256 → b.length < 20 → BufferReady b.length buf → (∀ v ∈ b, Canonical v) →
  ∃ k0 k1 buf', generateTreePF env buf r1 r2 a b = ok (k0, k1, buf') ∧
    ∀ x, x.length = a.length → SharesOf env.E b.length k0 k1 x (point a (b.map BitVec.toNat) x)

/-- C19 (positive part): keys generated by `GenerateTreePF(a, b)` evaluate to shares of the point function at
every input of the same bit length, for every cipher, seed, point, value and length up to 256 bits, provided
no 31-bit value derived from the seeds reached equals the modulus. Missing with respect to the full
statement: exactly those runs, in which the code replaces the value by fresh randomness (see
`C19_refuted`). -/
theorem C19_point_function_partial (env : Env) (hE : BlockCipher env.E)
    (buf r1 r2 : List Byte) (a : List Bool) (b : List U32) (h1 : r1.length = 17) (h2 : r2.length = 16)
    (ha : a.length ≤ 256) (hbl : b.length < 20) (hbuf : BufferReady b.length buf)
    (hb : ∀ v ∈ b, Canonical v) (hno : GenNoHit env.E b.length r1 r2 a) :
    ∃ k0 k1 buf', generateTreePF env buf r1 r2 a b = ok (k0, k1, buf') ∧ BufferReady b.length buf' ∧
      ∀ x, x.length = a.length → EvalNoHit env.E b.length k0 x → EvalNoHit env.E b.length k1 x →
        SharesOf env.E b.length k0 k1 x (point a (b.map BitVec.toNat) x) := by
  obtain ⟨k0, k1, buf', e, hbuf', -⟩ := fss_correct (envG := env) (env0 := env) (env1 := env) hE rfl rfl
    hbuf h1 h2 hbl hb hno
  refine ⟨k0, k1, buf', e, hbuf', ?_⟩
  intro x hx hn0 hn1 env0 env1 he0 he1 buf0 buf1 out0 out1 ho0 ho1 hb0 hb1
  obtain ⟨k0', k1', buf'', e', -, H⟩ := fss_correct (envG := env) (env0 := env0) (env1 := env1) hE he0 he1
    hbuf h1 h2 hbl hb hno
  rw [e] at e'
  simp only [ok.injEq, Prod.mk.injEq] at e'
  obtain ⟨rfl, rfl, -⟩ := e'
  have := H x hx hn0 hn1 buf0 buf1 out0 out1 ho0 ho1 hb0 hb1
  rwa [clear256_of_le (by omega)] at this

/-- A fresh client satisfies the buffer hypothesis. -/
example (n : Nat) : BufferReady n (initFss n) := initFss_ok n

/-- The hypotheses are met by a concrete cipher and a five-element value, at a three-bit point. -/
example : ∃ k0 k1 buf', generateTreePF ⟨parityCipher, fun _ => 0, 0⟩ (initFss 5) (List.replicate 17 3)
      (List.replicate 16 4) [true, false, true] [1, 7, 8, 9, 10] = ok (k0, k1, buf') ∧
    SharesOf parityCipher 5 k0 k1 [true, false, true] [1, 7, 8, 9, 10] ∧
    SharesOf parityCipher 5 k0 k1 [true, true, true] [0, 0, 0, 0, 0] := by
  obtain ⟨k0, k1, buf', e, -, H⟩ := C19_point_function_partial ⟨parityCipher, fun _ => 0, 0⟩ parityCipher_block
    (initFss 5) (List.replicate 17 3) (List.replicate 16 4) [true, false, true] [1, 7, 8, 9, 10]
    (by simp) (by simp) (by simp) (by simp) (initFss_ok 5) (by simp [Canonical, p])
    (fun g _ => ⟨parityCipher_noHit _ _, parityCipher_noHit _ _⟩)
  refine ⟨k0, k1, buf', e, ?_, ?_⟩
  · simpa [point, p] using H [true, false, true] rfl (fun _ _ _ => parityCipher_noHit _ _)
      (fun _ _ _ => parityCipher_noHit _ _)
  · simpa [point] using H [true, true, true] rfl (fun _ _ _ => parityCipher_noHit _ _)
      (fun _ _ _ => parityCipher_noHit _ _)

/-- A cipher all of whose derived values equal the modulus. -/
def hitCipher : Cipher := fun _ s =>
  List.zipWith (· ^^^ ·) ((List.range s.length).map (fun i => if i % 4 = 0 then (127 : Byte) else 255)) s

/-- One run with `hitCipher`: are the combined shares at a non-matching input different from 0? -/
def hitRun : Bool :=
  match generateTreePF ⟨hitCipher, fun _ => 0, 1⟩ (initFss 4) (List.replicate 17 0)
      (List.replicate 16 0) [true] [1, 0, 0, 0] with
  | ok (k0, k1, _) =>
    match evaluatePF ⟨hitCipher, fun _ => 1, 1⟩ (initFss 4) 0 k0 [false] [0, 0, 0, 0],
      evaluatePF ⟨hitCipher, fun _ => 2, 1⟩ (initFss 4) 1 k1 [false] [0, 0, 0, 0] with
    | ok (z0, _), ok (z1, _) => decide (combine z0 z1 ≠ [0, 0, 0, 0])
    | _, _ => false
  | _ => false

/-- C19: the full statement fails. When a derived value equals the modulus each server replaces it by its own
fresh randomness, and the shares of a non-matching input do not cancel. -/
theorem C19_refuted : ¬ C19_Statement := by
  intro H
  obtain ⟨k0, k1, buf', e, h⟩ := H ⟨hitCipher, fun _ => 0, 1⟩ (by intro i s hs; simp [hitCipher, hs])
    (initFss 4) (List.replicate 17 0) (List.replicate 16 0) [true] [1, 0, 0, 0] (by simp) (by simp)
    (by simp) (by simp) (initFss_ok 4) (by simp [Canonical, p])
  have hs := h [false] rfl ⟨hitCipher, fun _ => 1, 1⟩ ⟨hitCipher, fun _ => 2, 1⟩ rfl rfl (initFss 4) (initFss 4)
    [0, 0, 0, 0] [0, 0, 0, 0] rfl rfl (initFss_ok 4) (initFss_ok 4)
  obtain ⟨y0, b0, y1, b1, e0, e1, -, -, hc⟩ := hs
  have eg : hitRun = true := by decide +kernel
  unfold hitRun at eg
  rw [e] at eg
  simp only at eg
  rw [e0, e1] at eg
  simp only [hc] at eg
  revert eg
  decide

/-- C19: values with 20 or more components are not supported: generation panics. -/
theorem C19_long_values_crash (env : Env) (hE : BlockCipher env.E) (buf r1 r2 : List Byte) (a : List Bool)
    (b : List U32) (h1 : r1.length = 17) (h2 : r2.length = 16) (hbl : 20 ≤ b.length)
    (hbuf : buf.length = b.length * 4) :
    (generateTreePF env buf r1 r2 a b).isCrash := by
  obtain ⟨c0, c1, cne⟩ := init_bits (r1.getD 16 0)
  have hl0 : (r1.take 16).length = 16 := by simp [h1]
  have hgl := genLoop_eq hE a hl0 h2 c0 c1 cne
  have hgb := genRec_bits hE a hl0 h2 c0 c1 cne
  unfold generateTreePF
  rw [slice_of_le (by omega) (by omega), idx_getD 0 (by omega)]
  simp only [ok_bind, List.drop_zero, Nat.sub_zero]
  rw [copyAt_of_le (by simp [hl0]), copyAt_of_le (by simp [h2])]
  simp only [ok_bind, List.take_zero, List.nil_append, Nat.zero_add, List.drop_replicate, hl0, h2, Nat.sub_self,
    List.replicate_zero, List.append_nil]
  rw [hgl]
  simp only [ok_bind]
  obtain ⟨d, hd⟩ : ∃ d, b.length / 4 = 5 + d := ⟨b.length / 4 - 5, by omega⟩
  have h4 := prf_eq hE hgb.1 (nb := 4) (out := buf) (by omega) (by omega)
  unfold convertBlock prf
  unfold prf at h4
  rw [List.length_replicate, hd, forLoop_append, forLoop_succ, h4]
  simp

example : (generateTreePF ⟨parityCipher, fun _ => 0, 0⟩ (initFss 20) (List.replicate 17 3)
    (List.replicate 16 4) [true] (List.replicate 20 1)).isCrash :=
  C19_long_values_crash _ parityCipher_block _ _ _ _ _ (by simp) (by simp) (by simp) (by simp [initFss])

/-- C20, full statement: as C19 (for runs in which no derived value equals the modulus), without the bound on
the number of input bits. -/
def C20_Statement : Prop :=
  ∀ (env : Env), BlockCipher env.E → (∀ n s, NoHit env.E n s) →
  ∀ (buf r1 r2 : List Byte) (a : List Bool) (b : List U32), r1.length = 17 → r2.length = 16 →
  b.length < 20 → BufferReady b.length buf → (∀ v ∈ b, Canonical v) →
  ∃ k0 k1 buf', generateTreePF env buf r1 r2 a b = ok (k0, k1, buf') ∧
    ∀ x, x.length = a.length → SharesOf env.E b.length k0 k1 x (point a (b.map BitVec.toNat) x)

/-- C20 (what actually holds for every length): the two evaluations are shares of the point function at the
input with bit number 256 replaced by 0. For at most 256 bits this is the point function itself; for longer
inputs it differs from it. -/
theorem C20_bit256_ignored_partial (env : Env) (hE : BlockCipher env.E)
    (buf r1 r2 : List Byte) (a : List Bool) (b : List U32) (h1 : r1.length = 17) (h2 : r2.length = 16)
    (hbl : b.length < 20) (hbuf : BufferReady b.length buf)
    (hb : ∀ v ∈ b, Canonical v) (hno : GenNoHit env.E b.length r1 r2 a) :
    ∃ k0 k1 buf', generateTreePF env buf r1 r2 a b = ok (k0, k1, buf') ∧
      ∀ x, x.length = a.length → EvalNoHit env.E b.length k0 x → EvalNoHit env.E b.length k1 x →
        SharesOf env.E b.length k0 k1 x (point a (b.map BitVec.toNat) (x.set 256 false)) := by
  obtain ⟨k0, k1, buf', e, hbuf', -⟩ := fss_correct (envG := env) (env0 := env) (env1 := env) hE rfl rfl
    hbuf h1 h2 hbl hb hno
  refine ⟨k0, k1, buf', e, ?_⟩
  intro x hx hn0 hn1 env0 env1 he0 he1 buf0 buf1 out0 out1 ho0 ho1 hb0 hb1
  obtain ⟨k0', k1', buf'', e', -, H⟩ := fss_correct (envG := env) (env0 := env0) (env1 := env1) hE he0 he1
    hbuf h1 h2 hbl hb hno
  rw [e] at e'
  simp only [ok.injEq, Prod.mk.injEq] at e'
  obtain ⟨rfl, rfl, -⟩ := e'
  exact H x hx hn0 hn1 buf0 buf1 out0 out1 ho0 ho1 hb0 hb1

/-- A point of 300 bits meets the hypotheses. -/
example : ∃ k0 k1 buf', generateTreePF ⟨parityCipher, fun _ => 0, 0⟩ (initFss 1) (List.replicate 17 3)
      (List.replicate 16 4) (List.replicate 300 false) [1] = ok (k0, k1, buf') ∧
    SharesOf parityCipher 1 k0 k1 (List.replicate 300 false)
      (point (List.replicate 300 false) [1] ((List.replicate 300 false).set 256 false)) := by
  obtain ⟨k0, k1, buf', e, H⟩ := C20_bit256_ignored_partial ⟨parityCipher, fun _ => 0, 0⟩ parityCipher_block
    (initFss 1) (List.replicate 17 3) (List.replicate 16 4) (List.replicate 300 false) [1]
    (by simp) (by simp) (by simp) (initFss_ok 1) (by simp [Canonical, p])
    (fun g _ => ⟨parityCipher_noHit _ _, parityCipher_noHit _ _⟩)
  exact ⟨k0, k1, buf', e, H _ rfl (fun _ _ _ => parityCipher_noHit _ _) (fun _ _ _ => parityCipher_noHit _ _)⟩

/-- C20: for every point of more than 256 bits whose bit number 256 is set, the point itself never matches:
the shares at `a` add up to 0 instead of `b`. -/
theorem C20_long_point_never_matches (env : Env) (hE : BlockCipher env.E)
    (buf r1 r2 : List Byte) (a : List Bool) (b : List U32) (h1 : r1.length = 17) (h2 : r2.length = 16)
    (hbl : b.length < 20) (hbuf : BufferReady b.length buf) (hb : ∀ v ∈ b, Canonical v)
    (hno : GenNoHit env.E b.length r1 r2 a) (hbit : a[256]? = some true) :
    ∃ k0 k1 buf', generateTreePF env buf r1 r2 a b = ok (k0, k1, buf') ∧
      ∀ x, x.length = a.length → EvalNoHit env.E b.length k0 x → EvalNoHit env.E b.length k1 x →
        SharesOf env.E b.length k0 k1 x (b.map (fun _ => 0)) := by
  obtain ⟨k0, k1, buf', e, H⟩ := C20_bit256_ignored_partial env hE buf r1 r2 a b h1 h2 hbl hbuf hb hno
  refine ⟨k0, k1, buf', e, ?_⟩
  intro x hx hn0 hn1
  have := H x hx hn0 hn1
  have hne : x.set 256 false ≠ a := by
    intro hxa
    rw [← hxa] at hbit
    have hl : 256 < x.length := by
      have := (List.getElem?_eq_some_iff.1 hbit).1
      simpa using this
    rw [List.getElem?_set_self hl] at hbit
    simp at hbit
  unfold point at this
  rw [if_neg hne, List.map_map] at this
  exact this

example : (List.replicate 300 true)[256]? = some true :=
  List.getElem?_replicate_of_lt (by norm_num)

/-- C20: the full statement fails: a prefix of 264 bits (33 characters) with bit 256 set. -/
theorem C20_refuted : ¬ C20_Statement := by
  intro H
  have hno : GenNoHit parityCipher 1 (List.replicate 17 3) (List.replicate 16 4) (List.replicate 264 true) :=
    fun g _ => ⟨parityCipher_noHit _ _, parityCipher_noHit _ _⟩
  obtain ⟨k0, k1, buf', e, h⟩ := H ⟨parityCipher, fun _ => 0, 0⟩ parityCipher_block parityCipher_noHit
    (initFss 1) (List.replicate 17 3) (List.replicate 16 4) (List.replicate 264 true) [1]
    (by simp) (by simp) (by simp) (initFss_ok 1) (by simp [Canonical, p])
  obtain ⟨k0', k1', buf'', e', h'⟩ := C20_long_point_never_matches ⟨parityCipher, fun _ => 0, 0⟩ parityCipher_block
    (initFss 1) (List.replicate 17 3) (List.replicate 16 4) (List.replicate 264 true) [1]
    (by simp) (by simp) (by simp) (initFss_ok 1) (by simp [Canonical, p]) hno
    (List.getElem?_replicate_of_lt (by norm_num))
  rw [e] at e'
  simp only [ok.injEq, Prod.mk.injEq] at e'
  obtain ⟨rfl, rfl, -⟩ := e'
  have a1 := h (List.replicate 264 true) rfl ⟨parityCipher, fun _ => 0, 0⟩ ⟨parityCipher, fun _ => 0, 0⟩ rfl rfl
    (initFss 1) (initFss 1) [0] [0] rfl rfl (initFss_ok 1) (initFss_ok 1)
  have a2 := h' (List.replicate 264 true) rfl (fun _ _ _ => parityCipher_noHit _ _)
    (fun _ _ _ => parityCipher_noHit _ _) ⟨parityCipher, fun _ => 0, 0⟩ ⟨parityCipher, fun _ => 0, 0⟩ rfl rfl
    (initFss 1) (initFss 1) [0] [0] rfl rfl (initFss_ok 1) (initFss_ok 1)
  obtain ⟨y0, b0, y1, b1, e0, e1, -, -, hc⟩ := a1
  obtain ⟨z0, c0, z1, c1, f0, f1, -, -, hc'⟩ := a2
  rw [e0] at f0
  rw [e1] at f1
  simp only [ok.injEq, Prod.mk.injEq] at f0 f1
  rw [← f0.1, ← f1.1, hc] at hc'
  simp [point, p] at hc'

/-! ### C24 -/

/-- C24, full statement (the weakest form of hiding): whatever key a server receives when the client uses MAC
key `b`, it could also have received it, with other randomness, when the client uses MAC key `b'`. -/
def C24_Statement : Prop :=
  ∀ (env : Env), BlockCipher env.E → ∀ (a : List Bool) (b b' : List U32), b.length = 5 → b'.length = 5 →
  b[0]? = some 1 → b'[0]? = some 1 → (∀ v ∈ b, Canonical v) → (∀ v ∈ b', Canonical v) →
  ∀ (r1 r2 : List Byte), r1.length = 17 → r2.length = 16 →
  ∀ k0 k1 o, generateTreePF env (initFss 5) r1 r2 a b = ok (k0, k1, o) →
  ∃ r1' r2', r1'.length = 17 ∧ r2'.length = 16 ∧
    ∃ k1' o', generateTreePF env (initFss 5) r1' r2' a b' = ok (k0, k1', o')

/-- C24: in every run, for every cipher and all randomness, the components of the final correction word beyond
the last multiple of four are the client's secret values in clear, up to sign. With the five components of
the authenticated scheme, both servers see the last MAC key (or its negative). -/
theorem C24_last_components_in_clear (env : Env) (hE : BlockCipher env.E) (buf r1 r2 : List Byte)
    (a : List Bool) (b : List U32) (hbuf : BufferReady b.length buf) (h1 : r1.length = 17)
    (h2 : r2.length = 16) (k0 k1 : Key) (buf' : List Byte)
    (h : generateTreePF env buf r1 r2 a b = ok (k0, k1, buf'))
    (i : Nat) (hi : b.length / 4 * 4 ≤ i) (hib : i < b.length) (hb : Canonical b[i]) :
    (∃ c, k0.finalCW[i]? = some c ∧ (c.toNat = b[i].toNat ∨ c.toNat = p - b[i].toNat)) ∧
    (∃ c, k1.finalCW[i]? = some c ∧ (c.toNat = b[i].toNat ∨ c.toNat = p - b[i].toNat)) := by
  obtain ⟨he, hc⟩ := generate_leak hE hbuf h1 h2 h i hi hib hb
  have hsub : (modP - b[i]).toNat = p - b[i].toNat := by
    unfold Canonical at hb
    rw [BitVec.toNat_sub, modP_toNat, p_val] at *
    omega
  rw [← he]
  rcases hc with hc | hc
  · exact ⟨⟨_, hc, Or.inl rfl⟩, ⟨_, hc, Or.inl rfl⟩⟩
  · exact ⟨⟨_, hc, Or.inr hsub⟩, ⟨_, hc, Or.inr hsub⟩⟩

/-- Component 4 of a five-element value is not masked. -/
example : ([1, 7, 8, 9, 10] : List U32).length / 4 * 4 ≤ 4 ∧ Canonical (([1, 7, 8, 9, 10] : List U32)[4]) := by
  simp [Canonical, p]

/-- C24: the full statement fails: a server's key is never compatible with two MAC keys whose last components
differ by more than the sign. -/
theorem C24_refuted : ¬ C24_Statement := by
  intro H
  obtain ⟨k0, k1, buf', e, -⟩ := C19_point_function_partial ⟨parityCipher, fun _ => 0, 0⟩ parityCipher_block
    (initFss 5) (List.replicate 17 3) (List.replicate 16 4) [true, false, true] [1, 7, 8, 9, 10]
    (by simp) (by simp) (by simp) (by simp) (initFss_ok 5) (by simp [Canonical, p])
    (fun g _ => ⟨parityCipher_noHit _ _, parityCipher_noHit _ _⟩)
  obtain ⟨r1, r2, h1, h2, k1', o', e'⟩ := H ⟨parityCipher, fun _ => 0, 0⟩ parityCipher_block [true, false, true]
    [1, 7, 8, 9, 10] [1, 7, 8, 9, 11] rfl rfl rfl rfl (by simp [Canonical, p]) (by simp [Canonical, p])
    (List.replicate 17 3) (List.replicate 16 4) (by simp) (by simp) k0 k1 buf' e
  obtain ⟨⟨c, hc, hv⟩, -⟩ := C24_last_components_in_clear _ parityCipher_block (initFss 5) _ _ _ [1, 7, 8, 9, 10]
    (initFss_ok 5) (by simp) (by simp) _ _ _ e 4 (by simp) (by simp) (by simp [Canonical, p])
  obtain ⟨⟨c', hc', hv'⟩, -⟩ := C24_last_components_in_clear _ parityCipher_block (initFss 5) _ _ _ [1, 7, 8, 9, 11]
    (initFss_ok 5) h1 h2 _ _ _ e' 4 (by simp) (by simp) (by simp [Canonical, p])
  rw [hc] at hc'
  simp only [Option.some.injEq] at hc'
  subst hc'
  simp [p_val] at hv hv'
  omega

end Verif.Fss
