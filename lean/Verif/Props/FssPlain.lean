import Verif.Spec.FssPlain
import Verif.Props.FssHiding
import Verif.Props.FssPrivacy

/-! # C123: how much a query without authentication reveals at most; C24: what stays hidden of the authentication keys -/

namespace Verif.Fss
open Res Verif.Field Verif.Field.Spec Verif.Fss.Spec Verif.Privacy Finset

theorem plainReceived_eq {env : Env} (hE : BlockCipher env.E) (second : Bool) (a : List Bool) (s so : Fin 16 → Byte)
    (tb : Byte) :
    plainReceived env second a (if second then so else s) (if second then s else so) tb =
      (let r := runReal env.E a (ownOf second s tb) (List.ofFn so)
       ok ⟨(ownOf second s tb).1, (ownOf second s tb).2, r.1, signOf second r.2.1.2⟩) := by
  obtain ⟨c0, c1, cne⟩ := init_bits tb
  have hsign : ∀ t1 : Byte, fcwC [1] [0] [0] t1 = if t1 = 1 then [modP - 1] else [1] := by
    intro t1
    unfold fcwC
    by_cases h : t1 = 1
    · rw [if_pos h]; simp only [if_pos h]; decide
    · rw [if_neg h]; simp only [if_neg h]; decide
  have key : ∀ s0 s1 : Fin 16 → Byte, ∃ o, generateTreePF env (initFss 1) (List.ofFn s0 ++ [tb]) (List.ofFn s1) a [1]
      = (let g := genRec env.E a (List.ofFn s0) (List.ofFn s1) (tb % 2) (tb % 2 ^^^ 1)
         ok (⟨List.ofFn s0, tb % 2, g.1, if g.2.2.2.2 = 1 then [modP - 1] else [1]⟩,
          ⟨List.ofFn s1, tb % 2 ^^^ 1, g.1, if g.2.2.2.2 = 1 then [modP - 1] else [1]⟩, o)) := by
    intro s0 s1
    have ht : (List.ofFn s0 ++ [tb]).take 16 = List.ofFn s0 := by
      rw [List.take_append_of_le_length (by simp), List.take_of_length_le (by simp)]
    have hg : (List.ofFn s0 ++ [tb]).getD 16 0 = tb := by
      rw [List.getD_eq_getElem?_getD, List.getElem?_append_right (by simp)]
      simp
    have hl := genLoop_eq hE a (s0 := List.ofFn s0) (s1 := List.ofFn s1) (by simp) (by simp) c0 c1 cne
    obtain ⟨o, -, ho⟩ := generate_eq (b := [1]) hE (initFss_ok 1) (r1 := List.ofFn s0 ++ [tb]) (r2 := List.ofFn s1) (a := a)
      (by simp) (by simp) (by simp) _ (by rw [ht, hg]; exact hl) (noHit_one _ _) (noHit_one _ _)
    rw [ht, hg] at ho
    simp only [List.length_singleton, convC_one, hsign] at ho
    exact ⟨o, ho⟩
  cases second with
  | false =>
    simp only [Bool.false_eq_true, if_false]
    obtain ⟨o, ho⟩ := key s so
    have hr := genRec_first hE a (s0 := List.ofFn s) (s1 := List.ofFn so) (by simp) (by simp) c0 c1 cne
    have hb := genRec_bits hE a (s0 := List.ofFn s) (s1 := List.ofFn so) (by simp) (by simp) c0 c1 cne
    unfold plainReceived
    rw [ho]
    simp only at hr hb
    simp only [ownOf, Bool.false_eq_true, if_false, hr, signOf, Res.bind]
    rw [← (bit_other hb.2.2.1 hb.2.2.2.1 hb.2.2.2.2).1]
  | true =>
    simp only [if_true]
    obtain ⟨o, ho⟩ := key so s
    have hr := genRec_second hE a (s0 := List.ofFn so) (s1 := List.ofFn s) (by simp) (by simp) c0 c1 cne
    unfold plainReceived
    rw [ho]
    simp only at hr
    simp only [ownOf, if_true, hr, signOf, Res.bind]

theorem ideal_le (E : Cipher) : ∀ (a : List Bool) (own : Own) (F : Cont) (H : List (List Byte) → ℚ),
    (∀ cws o so, F cws o so ≤ H cws) → idealMean E a own F ≤ wordsMean a.length H := by
  intro a
  induction a with
  | nil =>
    intro own F H h
    have := avg_mono (f := fun so : Fin 16 → Byte => F [] own (List.ofFn so)) (g := fun _ => H []) (fun so => h _ _ _)
    rwa [avg_const] at this
  | cons a as ih =>
    intro own F H h
    exact avg_mono (fun v => ih _ _ _ (fun cws o so => h _ o so))

theorem ideal_eq (E : Cipher) : ∀ (a : List Bool) (own : Own) (F : Cont) (H : List (List Byte) → ℚ),
    (∀ cws o so, F cws o so = H cws) → idealMean E a own F = wordsMean a.length H := by
  intro a
  induction a with
  | nil =>
    intro own F H h
    show avg (fun so : Fin 16 → Byte => F [] own (List.ofFn so)) = H []
    rw [avg_congr (fun so => h _ _ _), avg_const]
  | cons a as ih =>
    intro own F H h
    exact avg_congr (fun v => ih _ _ _ (fun cws o so => h _ o so))

/-- The mean of a test on the key a party receives, as the mean over random correction words and the gaps of tests. -/
theorem plain_hybrid {env : Env} (hE : BlockCipher env.E) (second : Bool) (a : List Bool) (T : Res Key → ℚ) :
    plainMean env second a T = avg (fun s : Fin 16 → Byte => avg (fun tb : Byte => idealMean env.E a (ownOf second s tb)
        (fun cws own _ => T (ok ⟨(ownOf second s tb).1, (ownOf second s tb).2, cws, signOf second own.2⟩))))
      + ∑ k ∈ range a.length, prgGap env.E (plainLevelTest env.E second a T k) := by
  have e0 : plainMean env second a T = avg (fun s : Fin 16 → Byte => avg (fun tb : Byte =>
      avg (fun so : Fin 16 → Byte =>
        T (plainReceived env second a (if second then so else s) (if second then s else so) tb)))) := by
    unfold plainMean
    cases second
    · exact avg_congr (fun s => avg_comm _)
    · rw [avg_comm]
      exact avg_congr (fun s => avg_comm _)
  have hpg : ∀ k, prgGap env.E (plainLevelTest env.E second a T k) = avg (fun s : Fin 16 → Byte => avg (fun tb : Byte =>
      prgGap env.E (levelTest env.E a k (ownOf second s tb)
        (fun cws own _ => T (ok ⟨(ownOf second s tb).1, (ownOf second s tb).2, cws, signOf second own.2⟩))))) := by
    intro k
    unfold plainLevelTest
    rw [prgGap_avg]
    exact avg_congr (fun s => prgGap_avg _ _)
  simp only [hpg]
  rw [e0, ← avg_sum, avg_add]
  refine avg_congr (fun s => ?_)
  rw [← avg_sum, avg_add]
  refine avg_congr (fun tb => ?_)
  rw [← hybrid hE a _ (ownOf_ok second s tb).1 (ownOf_ok second s tb).2]
  refine avg_congr (fun so => ?_)
  rw [plainReceived_eq hE]

theorem avg_bool (f : Bool → ℚ) : avg f = (f true + f false) / 2 := by
  unfold avg
  rw [Fintype.sum_bool, Fintype.card_bool]
  norm_num

theorem wordsMean_scale (c : ℚ) : ∀ (n : Nat) (H : List (List Byte) → ℚ),
    wordsMean n (fun cws => c * H cws) = c * wordsMean n H := by
  intro n
  induction n with
  | zero => intro H; rfl
  | succ n ih =>
    intro H
    show avg (fun v : Fin 48 → Byte => wordsMean n (fun cws => c * H (cwOf v :: cws)))
      = c * avg (fun v : Fin 48 → Byte => wordsMean n (fun cws => H (cwOf v :: cws)))
    rw [avg_congr (fun v => ih (fun cws => H (cwOf v :: cws)))]
    unfold avg
    rw [← Finset.mul_sum, mul_div_assoc]

theorem avg_scale {Ω : Type} [Fintype Ω] (c : ℚ) (f : Ω → ℚ) : avg (fun x => c * f x) = c * avg f := by
  unfold avg
  rw [← Finset.mul_sum, mul_div_assoc]

/-- C123: an unauthenticated predicate query reveals at most one bit. Whatever a server concludes from the key it receives,
it concludes it at most twice as often as from a key of random bytes that has nothing to do with the predicate, up to the
gaps of explicit tests against the generator, one for each bit of the predicate. -/
theorem C123_one_bit (env : Env) (hE : BlockCipher env.E) (second : Bool) (a : List Bool) (T : Res Key → ℚ)
    (h0 : ∀ k, 0 ≤ T k) :
    plainMean env second a T ≤ 2 * randomPlainMean second a.length T
      + ∑ k ∈ range a.length, |prgGap env.E (plainLevelTest env.E second a T k)| := by
  rw [plain_hybrid hE]
  refine add_le_add ?_ (Finset.sum_le_sum fun k _ => le_abs_self _)
  unfold randomPlainMean
  rw [← avg_scale]
  refine avg_mono (fun s => ?_)
  rw [← avg_scale]
  refine avg_mono (fun tb => ?_)
  rw [← wordsMean_scale]
  refine ideal_le _ _ _ _ _ (fun cws o so => ?_)
  rw [avg_bool]
  have hp := h0 (ok ⟨List.ofFn s, (ownOf second s tb).2, cws, [modP - 1]⟩)
  have hm := h0 (ok ⟨List.ofFn s, (ownOf second s tb).2, cws, [1]⟩)
  unfold signOf
  show T (ok ⟨List.ofFn s, _, cws, if _ = 1 then [modP - 1] else [1]⟩) ≤ 2 * ((T (ok ⟨List.ofFn s, _, cws, [modP - 1]⟩) +
    T (ok ⟨List.ofFn s, _, cws, [1]⟩)) / 2)
  generalize (if second then o.2 else o.2 ^^^ 1) = t
  split <;> linarith

/-- C123: without the final correction word nothing is revealed: a test that does not use it tells two predicates of the
same length apart with an advantage of at most the gaps of explicit tests against the generator. -/
theorem C123_without_sign (env : Env) (hE : BlockCipher env.E) (second : Bool) (a a' : List Bool)
    (hl : a.length = a'.length) (T : Res Key → ℚ)
    (hT : ∀ s t cws w w', T (ok ⟨s, t, cws, w⟩) = T (ok ⟨s, t, cws, w'⟩)) :
    |plainMean env second a T - plainMean env second a' T|
      ≤ ∑ k ∈ range a.length, (|prgGap env.E (plainLevelTest env.E second a T k)|
          + |prgGap env.E (plainLevelTest env.E second a' T k)|) := by
  have hid : ∀ b : List Bool, avg (fun s : Fin 16 → Byte => avg (fun tb : Byte => idealMean env.E b (ownOf second s tb)
        (fun cws own _ => T (ok ⟨(ownOf second s tb).1, (ownOf second s tb).2, cws, signOf second own.2⟩))))
      = avg (fun s : Fin 16 → Byte => avg (fun tb : Byte => wordsMean b.length
        (fun cws => T (ok ⟨(ownOf second s tb).1, (ownOf second s tb).2, cws, []⟩)))) :=
    fun b => avg_congr (fun s => avg_congr (fun tb => ideal_eq _ _ _ _ _ (fun cws o so => hT _ _ _ _ _)))
  rw [plain_hybrid hE, plain_hybrid hE, hid, hid, ← hl, add_sub_add_left_eq_sub, Finset.sum_add_distrib]
  refine (abs_sub _ _).trans (add_le_add ?_ ?_) <;> exact Finset.abs_sum_le_sum_abs _ _

theorem wordsMean_le_one : ∀ (n : Nat) (H : List (List Byte) → ℚ), (∀ cws, H cws ≤ 1) → wordsMean n H ≤ 1 := by
  intro n
  induction n with
  | zero => intro H h; exact h []
  | succ n ih =>
    intro H h
    have := avg_mono (f := fun v : Fin 48 → Byte => wordsMean n (fun cws => H (cwOf v :: cws))) (g := fun _ => 1)
      (fun v => ih _ (fun cws => h _))
    rwa [avg_const] at this

theorem wordsMean_sum {ι : Type} (S : Finset ι) : ∀ (n : Nat) (H : ι → List (List Byte) → ℚ),
    ∑ i ∈ S, wordsMean n (H i) = wordsMean n (fun cws => ∑ i ∈ S, H i cws) := by
  intro n
  induction n with
  | zero => intro H; rfl
  | succ n ih =>
    intro H
    show ∑ i ∈ S, avg (fun v : Fin 48 → Byte => wordsMean n (fun cws => H i (cwOf v :: cws)))
      = avg (fun v : Fin 48 → Byte => wordsMean n (fun cws => ∑ i ∈ S, H i (cwOf v :: cws)))
    rw [← avg_congr (fun v => ih (fun i cws => H i (cwOf v :: cws)))]
    unfold avg
    rw [← Finset.sum_div, Finset.sum_comm]

theorem avg_finset_sum {Ω ι : Type} [Fintype Ω] (S : Finset ι) (f : ι → Ω → ℚ) :
    ∑ i ∈ S, avg (f i) = avg (fun x => ∑ i ∈ S, f i x) := by
  unfold avg
  rw [← Finset.sum_div, Finset.sum_comm]

/-- C123: if the client asks for one of `N` predicates of the same length, all equally likely, then however a server guesses
from the key it receives which one it is, it is right with a probability of at most 2/N, up to the means of the gaps of
explicit tests against the generator. -/
theorem C123_guess (env : Env) (hE : BlockCipher env.E) (second : Bool) (n : Nat) (S : Finset (List Bool)) (hS : S.Nonempty)
    (hn : ∀ a ∈ S, a.length = n) (guess : Res Key → List Bool) :
    (∑ a ∈ S, plainMean env second a (fun k => if guess k = a then 1 else 0)) / S.card
      ≤ 2 / S.card + (∑ a ∈ S, ∑ k ∈ range n,
          |prgGap env.E (plainLevelTest env.E second a (fun k => if guess k = a then 1 else 0) k)|) / S.card := by
  have hc : (0 : ℚ) < S.card := by exact_mod_cast hS.card_pos
  rw [← add_div]
  refine div_le_div_of_nonneg_right ?_ hc.le
  have h1 : ∑ a ∈ S, plainMean env second a (fun k => if guess k = a then 1 else 0)
      ≤ ∑ a ∈ S, (2 * randomPlainMean second n (fun k => if guess k = a then 1 else 0)
        + ∑ k ∈ range n, |prgGap env.E (plainLevelTest env.E second a (fun k => if guess k = a then 1 else 0) k)|) := by
    refine Finset.sum_le_sum (fun a ha => ?_)
    have := C123_one_bit env hE second a (fun k => if guess k = a then 1 else 0) (fun k => by split <;> norm_num)
    rwa [hn a ha] at this
  refine h1.trans ?_
  rw [Finset.sum_add_distrib, ← Finset.mul_sum]
  have h2 : ∑ a ∈ S, randomPlainMean second n (fun k => if guess k = a then 1 else 0) ≤ 1 := by
    unfold randomPlainMean
    rw [avg_finset_sum]
    have hone : ∀ {Ω : Type} [Fintype Ω] [Nonempty Ω] (f : Ω → ℚ), (∀ x, f x ≤ 1) → avg f ≤ 1 := by
      intro Ω _ _ f hf
      have := avg_mono (f := f) (g := fun _ => 1) hf
      rwa [avg_const] at this
    refine hone _ (fun s => ?_)
    rw [avg_finset_sum]
    refine hone _ (fun tb => ?_)
    rw [wordsMean_sum]
    refine wordsMean_le_one _ _ (fun cws => ?_)
    rw [avg_finset_sum]
    refine hone _ (fun b => ?_)
    rw [Finset.sum_ite_eq]
    generalize guess _ = g
    by_cases hg : g ∈ S
    · rw [if_pos hg]
    · rw [if_neg hg]; norm_num
  linarith

/-- C123: the messages of the client without authentication carry exactly the keys that `plainReceived` describes; nothing
else is random in them. -/
theorem C123_query (env : Env) (fuel : Nat) (rnd rnd' : Rand.Prg) (s0 s1 : Fin 16 → Byte) (tb : Byte)
    (q : Query.ClientFSS) (numServers : Int) (msgs : List Predicate.Msg) (st : Predicate.State) (buf' : List Byte)
    (h : Predicate.query env fuel 1 rnd (initFss 1) (List.ofFn s0 ++ [tb]) (List.ofFn s1) q numServers
      = ok (msgs, st, rnd', buf')) :
    numServers = 2 ∧ ∃ k0 k1 : Key, msgs = [⟨q.info, k0⟩, ⟨q.info, k1⟩] ∧
      plainReceived env false q.input s0 s1 tb = ok k0 ∧ plainReceived env true q.input s0 s1 tb = ok k1 := by
  unfold Predicate.query at h
  split at h
  · cases h
  rename_i hn
  refine ⟨by omega, ?_⟩
  simp only [bind_eq_ok] at h
  obtain ⟨⟨st', r'⟩, hd, ⟨k0, k1, b'⟩, hg, heq⟩ := h
  simp only [ok.injEq, Prod.mk.injEq] at heq
  obtain ⟨rfl, rfl, rfl, rfl⟩ := heq
  obtain ⟨αs, hl, -, ha, -⟩ := Predicate.drawKeys_spec (by omega) hd
  rw [List.length_eq_zero_iff.mp hl] at ha
  refine ⟨k0, k1, rfl, ?_, ?_⟩ <;>
  · unfold plainReceived
    rw [← ha, hg]
    rfl

/-- The tests in the bounds of C123 are tests: their values lie between 0 and 1. -/
theorem C123_tests (E : Cipher) (second : Bool) (a : List Bool) (T : Res Key → ℚ) (h0 : ∀ k, 0 ≤ T k) (h1 : ∀ k, T k ≤ 1)
    (k : Nat) (u : List Byte) : 0 ≤ plainLevelTest E second a T k u ∧ plainLevelTest E second a T k u ≤ 1 :=
  avg_unit (fun _ => avg_unit (fun _ => levelTest_unit E a k _ _ u (fun _ _ _ => ⟨h0 _, h1 _⟩)))

/-- The hypotheses of C123 are met by a cipher and the 65536 predicates of two bytes. -/
example (guess : Res Key → List Bool) :=
  C123_guess ⟨parityCipher, fun _ => 7, 1⟩ parityCipher_block true 16
    (Finset.univ.image (fun v : List.Vector Bool 16 => v.1)) ⟨_, Finset.mem_image_of_mem _ (Finset.mem_univ ⟨List.replicate 16 true, rfl⟩)⟩
    (by intro a ha; obtain ⟨v, -, rfl⟩ := Finset.mem_image.mp ha; exact v.2) guess

/-- C24, what holds: the other three keys stay hidden. For every test on the message of a server and every two choices of the
first three authentication keys, the advantage in telling the one from the other is at most the sum of the gaps of explicit
tests against the generator and 10 / 2^31. What is missing is the fourth key, which the message contains up to its sign. -/
theorem C24_three_keys_hidden_partial (env : Env) (hE : BlockCipher env.E) (e : U32)
    (he : resample env.fresh env.fuel 0 modP = ok e) (hc : Canonical e) (second : Bool) (a : List Bool)
    (α α' : Fin 3 → U32) (hα : ∀ i, Canonical (α i)) (hα' : ∀ i, Canonical (α' i))
    (T : Res Key → ℚ) (h0 : ∀ k, 0 ≤ T k) (h1 : ∀ k, T k ≤ 1) :
    |viewMean env second a ![1, α 0, α 1, α 2] T - viewMean env second a ![1, α' 0, α' 1, α' 2] T|
      ≤ ∑ k ∈ range a.length, (|prgGap env.E (keyLevelTest env.E e second a ![1, α 0, α 1, α 2] T k)|
          + |prgGap env.E (keyLevelTest env.E e second a ![1, α' 0, α' 1, α' 2] T k)|)
        + (|convGap env.E (keyWordTest env.E e second a ![1, α 0, α 1, α 2] T)|
          + |convGap env.E (keyWordTest env.E e second a ![1, α' 0, α' 1, α' 2] T)|)
        + 10 / 2 ^ 31 := by
  have hv : ∀ γ : Fin 3 → U32, (∀ i, Canonical (γ i)) → ∀ i, Canonical ((![1, γ 0, γ 1, γ 2] : Fin 4 → U32) i) := by
    intro γ hγ i
    match i with
    | 0 => simp [Canonical, p]
    | 1 => exact hγ 0
    | 2 => exact hγ 1
    | 3 => exact hγ 2
  exact C53_fss env hE e he hc second a a rfl _ _ (hv α hα) (hv α' hα') T h0 h1

example (T : Res Key → ℚ) (h0 : ∀ k, 0 ≤ T k) (h1 : ∀ k, T k ≤ 1) :=
  C24_three_keys_hidden_partial ⟨parityCipher, fun _ => 7, 1⟩ parityCipher_block 7
    (by unfold resample; rw [if_pos rfl]; exact resample_ok (by decide)) (canonical_of_small (by decide)) true
    (List.replicate 256 false) ![2, 3, 4] ![5, 6, 7] (fun i => canonical_of_small (by revert i; decide))
    (fun i => canonical_of_small (by revert i; decide)) T h0 h1

end Verif.Fss
