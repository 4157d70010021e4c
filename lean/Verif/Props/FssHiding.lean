import Verif.Lemmas.FssView
import Verif.Props.Predicate
import Verif.Props.Privacy

/-! # C53 for the predicate client with authentication: the keys hide the predicate (lib/fss/client.go, lib/client/fss.go)

For every test a server may apply to the key it receives, the advantage in telling two predicates of the same length
apart is at most the sum of the gaps of explicit tests for the generator of lib/fss/common.go:59-66 (one for each bit of
the predicate and one for the last seed), plus 10 / 2^31. The last term comes from the rare values equal to the modulus
and from the unmasked fifth component of the final correction word. -/

namespace Verif.Fss
open Res Verif.Field Verif.Field.Spec Verif.Fss.Spec Verif.Privacy Finset

/-- C53 for the client with authentication: for every block cipher, every two predicates of the same length, all values
and both servers, a test on the received key has advantage at most the sum of the gaps of the tests `keyLevelTest` and
`keyWordTest` and 10 / 2^31. The tests apply the given test to a key simulated from the challenge. The word that replaces a
value equal to the modulus (drawn from the system, lib/field/field.go:38-45) is assumed to be reduced. -/
theorem C53_fss (env : Env) (hE : BlockCipher env.E) (e : U32) (he : resample env.fresh env.fuel 0 modP = ok e)
    (hc : Canonical e) (second : Bool) (a a' : List Bool) (hl : a.length = a'.length) (β β' : Fin 4 → U32)
    (hβ : ∀ i, Canonical (β i)) (hβ' : ∀ i, Canonical (β' i))
    (T : Res Key → ℚ) (h0 : ∀ k, 0 ≤ T k) (h1 : ∀ k, T k ≤ 1) :
    |viewMean env second a β T - viewMean env second a' β' T|
      ≤ ∑ k ∈ range a.length, (|prgGap env.E (keyLevelTest env.E e second a β T k)|
          + |prgGap env.E (keyLevelTest env.E e second a' β' T k)|)
        + (|convGap env.E (keyWordTest env.E e second a β T)| + |convGap env.E (keyWordTest env.E e second a' β' T)|)
        + 10 / 2 ^ 31 := by
  have v1 := view_close hE he hc second a hβ T h0 h1
  have v2 := view_close hE he hc second a' hβ' T h0 h1
  rw [← hl] at v2
  rw [Finset.sum_add_distrib]
  rw [abs_le] at v1 v2 ⊢
  have h10 : (10 : ℚ) / 2 ^ 31 = 5 / 2 ^ 31 + 5 / 2 ^ 31 := by norm_num
  rw [h10]
  constructor <;> linarith [v1.1, v1.2, v2.1, v2.2]

theorem avg_unit {Ω : Type} [Fintype Ω] [Nonempty Ω] {f : Ω → ℚ} (h : ∀ x, 0 ≤ f x ∧ f x ≤ 1) :
    0 ≤ avg f ∧ avg f ≤ 1 := by
  refine ⟨avg_nonneg (fun x => (h x).1), ?_⟩
  have := avg_mono (f := f) (g := fun _ => 1) (fun x => (h x).2)
  rwa [avg_const] at this

theorem levelTest_unit (E : Cipher) : ∀ (a : List Bool) (k : Nat) (own : Own) (F : Cont) (u : List Byte),
    (∀ cws o so, 0 ≤ F cws o so ∧ F cws o so ≤ 1) →
    0 ≤ levelTest E a k own F u ∧ levelTest E a k own F u ≤ 1 := by
  intro a
  induction a with
  | nil => intro k own F u _; simp [levelTest]
  | cons a as ih =>
    intro k own F u h
    cases k with
    | zero => exact h _ _ _
    | succ k => exact avg_unit (fun v => ih k _ _ u (fun cws o so => h _ o so))

theorem wordTest_unit (E : Cipher) : ∀ (a : List Bool) (own : Own)
    (F : List (List Byte) → Own → (Fin 4 → Fin (2 ^ 31)) → ℚ) (z : Fin 4 → Fin (2 ^ 31)),
    (∀ cws o z, 0 ≤ F cws o z ∧ F cws o z ≤ 1) → 0 ≤ wordTest E a own F z ∧ wordTest E a own F z ≤ 1 := by
  intro a
  induction a with
  | nil => intro own F z h; exact h _ _ _
  | cons a as ih => intro own F z h; exact avg_unit (fun v => ih _ _ z (fun cws o z => h _ o z))

/-- The tests in the bound of C53 are tests: their values lie between 0 and 1. -/
theorem C53_fss_tests (E : Cipher) (e : U32) (second : Bool) (a : List Bool) (β : Fin 4 → U32) (T : Res Key → ℚ)
    (h0 : ∀ k, 0 ≤ T k) (h1 : ∀ k, T k ≤ 1) :
    (∀ k u, 0 ≤ keyLevelTest E e second a β T k u ∧ keyLevelTest E e second a β T k u ≤ 1) ∧
    (∀ z, 0 ≤ keyWordTest E e second a β T z ∧ keyWordTest E e second a β T z ≤ 1) := by
  have hne : Nonempty (Fin p) := ⟨⟨0, by norm_num [p]⟩⟩
  have hk : ∀ init cws o z, 0 ≤ keyCont E e second β T init cws o z ∧ keyCont E e second β T init cws o z ≤ 1 :=
    fun init cws o z => avg_unit (fun α => ⟨h0 _, h1 _⟩)
  exact ⟨fun k u => avg_unit (fun s => avg_unit (fun tb => levelTest_unit E a k _ _ u (fun cws o so => hk _ _ _ _))),
    fun z => avg_unit (fun s => avg_unit (fun tb => wordTest_unit E a _ _ z (fun cws o z => hk _ _ _ _)))⟩

/-- The messages of the client with authentication carry exactly the keys that `received` describes, for the value 1 and
the four random values it draws: its seeds are the 33 random bytes of key generation. A query is made for two servers
only. -/
theorem C53_fss_query (env : Env) (fuel : Nat) (rnd rnd' : Rand.Prg) (s0 s1 : Fin 16 → Byte) (tb : Byte)
    (q : Query.ClientFSS) (numServers : Int) (msgs : List Predicate.Msg) (st : Predicate.State) (buf' : List Byte)
    (h : Predicate.query env fuel 5 rnd (initFss 5) (List.ofFn s0 ++ [tb]) (List.ofFn s1) q numServers
      = ok (msgs, st, rnd', buf')) :
    numServers = 2 ∧ ∃ (β : Fin 4 → U32) (α : Fin p) (k0 k1 : Key), β 0 = 1 ∧ (∀ i, Canonical (β i)) ∧ st.a = vals β α ∧
      msgs = [⟨q.info, k0⟩, ⟨q.info, k1⟩] ∧
      received env false q.input β s0 s1 tb α = ok k0 ∧ received env true q.input β s0 s1 tb α = ok k1 := by
  unfold Predicate.query at h
  split at h
  · cases h
  rename_i hn
  refine ⟨by omega, ?_⟩
  simp only [bind_eq_ok] at h
  obtain ⟨⟨st', r'⟩, hd, ⟨k0, k1, b'⟩, hg, heq⟩ := h
  simp only [ok.injEq, Prod.mk.injEq] at heq
  obtain ⟨rfl, rfl, rfl, rfl⟩ := heq
  obtain ⟨αs, hl, hca, ha, -⟩ := Predicate.drawKeys_spec (by omega) hd
  match αs, hl with
  | [x1, x2, x3, x4], _ =>
    simp only [List.mem_cons, List.not_mem_nil, or_false, forall_eq_or_imp, forall_eq] at hca
    obtain ⟨c1, c2, c3, c4⟩ := hca
    have hv : st'.a = vals ![1, x1, x2, x3] ⟨x4.toNat, c4⟩ := by
      rw [ha]
      simp [vals]
    refine ⟨![1, x1, x2, x3], ⟨x4.toNat, c4⟩, k0, k1, rfl, ?_, hv, rfl, ?_, ?_⟩
    · intro i
      match i with
      | 0 => simp [Canonical, p]
      | 1 => exact c1
      | 2 => exact c2
      | 3 => exact c3
    · unfold received
      rw [← hv, hg]
      rfl
    · unfold received
      rw [← hv, hg]
      rfl

theorem canonical_of_small {v : U32} (h : v.toNat < 8) : Canonical v := by
  unfold Canonical
  rw [p_val]
  omega

/-- The hypotheses of C53 are met by a cipher, a replacement word and predicates of 256 bits. -/
example (T : Res Key → ℚ) (h0 : ∀ k, 0 ≤ T k) (h1 : ∀ k, T k ≤ 1) :=
  C53_fss ⟨parityCipher, fun _ => 7, 1⟩ parityCipher_block 7
    (by unfold resample; rw [if_pos rfl]; exact resample_ok (by decide)) (canonical_of_small (by decide)) true
    (List.replicate 256 false) (List.replicate 256 true) (by rw [List.length_replicate, List.length_replicate])
    ![1, 2, 3, 4] ![1, 5, 6, 7] (fun i => canonical_of_small (by revert i; decide))
    (fun i => canonical_of_small (by revert i; decide)) T h0 h1

end Verif.Fss
