import Verif.Props.FssPlain
import Verif.Spec.FssSession

/-! # C125: what several predicate queries without authentication reveal together -/

namespace Verif.Fss
open Res Verif.Field Verif.Field.Spec Verif.Fss.Spec Verif.Privacy Finset

theorem wordsMean_mono : ∀ (n : Nat) {H K : List (List Byte) → ℚ}, (∀ c, H c ≤ K c) → wordsMean n H ≤ wordsMean n K := by
  intro n
  induction n with
  | zero => intro H K h; exact h []
  | succ n ih => intro H K h; exact avg_mono (fun v => ih (fun c => h _))

theorem wordsMean_add : ∀ (n : Nat) (H K : List (List Byte) → ℚ),
    wordsMean n H + wordsMean n K = wordsMean n (fun c => H c + K c) := by
  intro n
  induction n with
  | zero => intro H K; rfl
  | succ n ih =>
    intro H K
    show avg _ + avg _ = avg _
    rw [avg_add]
    exact avg_congr (fun v => ih _ _)

theorem wordsMean_const : ∀ (n : Nat) (c : ℚ), wordsMean n (fun _ => c) = c := by
  intro n
  induction n with
  | zero => intro c; rfl
  | succ n ih =>
    intro c
    show avg (fun v : Fin 48 → Byte => wordsMean n (fun _ => c)) = c
    rw [avg_congr (fun v => ih c), avg_const]

theorem random_mono (second : Bool) (n : Nat) {T U : Res Key → ℚ} (h : ∀ k, T k ≤ U k) :
    randomPlainMean second n T ≤ randomPlainMean second n U :=
  avg_mono (fun _ => avg_mono (fun _ => wordsMean_mono n (fun _ => avg_mono (fun _ => h _))))

theorem random_add (second : Bool) (n : Nat) (T U : Res Key → ℚ) :
    randomPlainMean second n T + randomPlainMean second n U = randomPlainMean second n (fun k => T k + U k) := by
  unfold randomPlainMean
  rw [avg_add]
  refine avg_congr (fun s => ?_)
  rw [avg_add]
  refine avg_congr (fun tb => ?_)
  rw [wordsMean_add]
  congr 1
  funext c
  rw [avg_add]

theorem random_scale (second : Bool) (n : Nat) (c : ℚ) (T : Res Key → ℚ) :
    randomPlainMean second n (fun k => c * T k) = c * randomPlainMean second n T := by
  unfold randomPlainMean
  rw [← avg_scale]
  refine avg_congr (fun s => ?_)
  rw [← avg_scale]
  refine avg_congr (fun tb => ?_)
  rw [← wordsMean_scale]
  congr 1
  funext cws
  rw [← avg_scale]

theorem random_const (second : Bool) (n : Nat) (c : ℚ) : randomPlainMean second n (fun _ => c) = c := by
  unfold randomPlainMean
  simp only [avg_const, wordsMean_const]

theorem random_sum {ι : Type} (S : Finset ι) (second : Bool) (n : Nat) (T : ι → Res Key → ℚ) :
    ∑ i ∈ S, randomPlainMean second n (T i) = randomPlainMean second n (fun k => ∑ i ∈ S, T i k) := by
  unfold randomPlainMean
  rw [avg_finset_sum]
  refine avg_congr (fun s => ?_)
  rw [avg_finset_sum]
  refine avg_congr (fun tb => ?_)
  rw [wordsMean_sum]
  congr 1
  funext cws
  rw [avg_finset_sum]

theorem session_nonneg (env : Env) (second : Bool) : ∀ (as : List (List Bool)) (T : List (Res Key) → ℚ), (∀ ks, 0 ≤ T ks) →
    0 ≤ sessionMean env second as T := by
  intro as
  induction as with
  | nil => intro T h; exact h []
  | cons a as ih => intro T h; exact avg_nonneg (fun _ => avg_nonneg (fun _ => avg_nonneg (fun _ => ih _ (fun _ => h _))))

/-- C125: what a server concludes from the keys of `m` queries it would conclude at least `2^-m` times as often from keys of
random bytes that have nothing to do with the predicates, up to the advantages of explicit tests against the generator. -/
theorem C125_session (env : Env) (hE : BlockCipher env.E) (second : Bool) :
    ∀ (as : List (List Bool)) (T : List (Res Key) → ℚ), (∀ ks, 0 ≤ T ks) →
    sessionMean env second as T
      ≤ 2 ^ as.length * randomSessionMean second (as.map List.length) T + sessionGap env second as T := by
  intro as
  induction as with
  | nil => intro T _; simp [sessionMean, randomSessionMean, sessionGap]
  | cons a as ih =>
    intro T h
    have h1 := C123_one_bit env hE second a (fun k => sessionMean env second as (fun ks => T (k :: ks)))
      (fun k => session_nonneg env second as _ (fun _ => h _))
    have h2 := random_mono second a.length (fun k => ih (fun ks => T (k :: ks)) (fun _ => h _))
    rw [← random_add, random_scale] at h2
    show plainMean env second a _ ≤ 2 ^ (as.length + 1) * randomPlainMean second a.length _ + (_ + 2 * _)
    rw [pow_succ]
    linarith

/-- C125: if no test with values between 0 and 1 has an advantage of more than `ε` against the generator, the error of a
session of `m` queries for predicates of `n` bits is at most `(2^m - 1) n ε`. -/
theorem C125_gap (env : Env) (second : Bool) (n : Nat) (ε : ℚ)
    (hε : ∀ t : List Byte → ℚ, (∀ u, 0 ≤ t u ∧ t u ≤ 1) → |prgGap env.E t| ≤ ε) :
    ∀ (as : List (List Bool)), (∀ a ∈ as, a.length = n) → ∀ T : List (Res Key) → ℚ, (∀ ks, 0 ≤ T ks ∧ T ks ≤ 1) →
    sessionGap env second as T ≤ (2 ^ as.length - 1) * (n * ε) ∧
      0 ≤ sessionMean env second as T ∧ sessionMean env second as T ≤ 1 := by
  intro as
  induction as with
  | nil =>
    intro _ T hT
    exact ⟨by simp [sessionGap], hT []⟩
  | cons a as ih =>
    intro hn T hT
    have ih' := fun k => ih (fun b hb => hn b (List.mem_cons_of_mem _ hb)) (fun ks => T (k :: ks)) (fun _ => hT _)
    refine ⟨?_, avg_unit (fun _ => avg_unit (fun _ => avg_unit (fun _ => (ih' _).2)))⟩
    have hl : a.length = n := hn a (List.mem_cons_self ..)
    have h1 : ∑ k ∈ range a.length, |prgGap env.E (plainLevelTest env.E second a
        (fun key => sessionMean env second as (fun ks => T (key :: ks))) k)| ≤ n * ε := by
      refine (Finset.sum_le_sum (fun k _ => hε _ (fun u => C123_tests env.E second a _ (fun key => (ih' key).2.1)
        (fun key => (ih' key).2.2) k u))).trans ?_
      rw [Finset.sum_const, Finset.card_range, nsmul_eq_mul, hl]
    have h2 := random_mono second a.length (fun k => (ih' k).1)
    rw [random_const] at h2
    show _ + 2 * _ ≤ (2 ^ (as.length + 1) - 1) * (n * ε)
    rw [pow_succ]
    linarith

/-- The hypothesis on the generator is met with `ε = 1` by every cipher; how small it is for AES is the usual assumption. -/
example (env : Env) (t : List Byte → ℚ) (h : ∀ u, 0 ≤ t u ∧ t u ≤ 1) : |prgGap env.E t| ≤ 1 := by
  have h1 := avg_unit (f := fun s : Fin 16 → Byte => t (stream env.E (List.ofFn s) 3)) (fun _ => h _)
  have h2 := avg_unit (f := fun u : Fin 48 → Byte => t (List.ofFn u)) (fun _ => h _)
  unfold prgGap
  rw [abs_le]
  constructor <;> linarith [h1.1, h1.2, h2.1, h2.2]

theorem randomSession_sum {ι : Type} (S : Finset ι) (second : Bool) : ∀ (ns : List Nat) (T : ι → List (Res Key) → ℚ),
    ∑ i ∈ S, randomSessionMean second ns (T i) = randomSessionMean second ns (fun ks => ∑ i ∈ S, T i ks) := by
  intro ns
  induction ns with
  | nil => intro T; rfl
  | cons n ns ih =>
    intro T
    show ∑ i ∈ S, randomPlainMean second n _ = randomPlainMean second n _
    rw [random_sum]
    congr 1
    funext k
    exact ih _

theorem randomSession_le_one (second : Bool) : ∀ (ns : List Nat) (T : List (Res Key) → ℚ), (∀ ks, T ks ≤ 1) →
    randomSessionMean second ns T ≤ 1 := by
  intro ns
  induction ns with
  | nil => intro T h; exact h []
  | cons n ns ih =>
    intro T h
    have := random_mono second n (fun k => ih (fun ks => T (k :: ks)) (fun _ => h _))
    rwa [random_const] at this

/-- C125: a secret, one of `N` equally likely ones, decides which `m` predicates a client asks for one after the other;
the lengths of the predicates do not depend on the secret. However a server guesses the secret from all the keys it
receives, it is right with a probability of at most `2^m/N`, up to the means of the advantages against the generator. -/
theorem C125_guess {σ : Type} [DecidableEq σ] (env : Env) (hE : BlockCipher env.E) (second : Bool) (ns : List Nat)
    (S : Finset σ) (hS : S.Nonempty) (asks : σ → List (List Bool)) (hn : ∀ s ∈ S, (asks s).map List.length = ns)
    (guess : List (Res Key) → σ) :
    (∑ s ∈ S, sessionMean env second (asks s) (fun ks => if guess ks = s then 1 else 0)) / S.card
      ≤ 2 ^ ns.length / S.card
        + (∑ s ∈ S, sessionGap env second (asks s) (fun ks => if guess ks = s then 1 else 0)) / S.card := by
  have hc : (0 : ℚ) < S.card := by exact_mod_cast hS.card_pos
  rw [← add_div]
  refine div_le_div_of_nonneg_right ?_ hc.le
  have h1 : ∑ s ∈ S, sessionMean env second (asks s) (fun ks => if guess ks = s then 1 else 0)
      ≤ ∑ s ∈ S, (2 ^ ns.length * randomSessionMean second ns (fun ks => if guess ks = s then 1 else 0)
        + sessionGap env second (asks s) (fun ks => if guess ks = s then 1 else 0)) := by
    refine Finset.sum_le_sum (fun s hs => ?_)
    have := C125_session env hE second (asks s) (fun ks => if guess ks = s then 1 else 0)
      (fun k => by split <;> norm_num)
    rwa [hn s hs, ← List.length_map (f := List.length), hn s hs] at this
  refine h1.trans ?_
  rw [Finset.sum_add_distrib, ← Finset.mul_sum, randomSession_sum]
  have h2 : randomSessionMean second ns (fun ks => ∑ s ∈ S, if guess ks = s then 1 else 0) ≤ 1 := by
    refine randomSession_le_one _ _ _ (fun ks => ?_)
    rw [Finset.sum_ite_eq]
    split <;> norm_num
  have h3 := mul_le_mul_of_nonneg_left h2 (show (0 : ℚ) ≤ 2 ^ ns.length by positivity)
  linarith

/-- The hypotheses of C125 are met by a cipher and a client that asks three times for the same one of the 65536 predicates
of two bytes. -/
example (guess : List (Res Key) → List.Vector Bool 16) :=
  C125_guess ⟨parityCipher, fun _ => 7, 1⟩ parityCipher_block true [16, 16, 16] (Finset.univ : Finset (List.Vector Bool 16))
    ⟨⟨List.replicate 16 true, rfl⟩, Finset.mem_univ _⟩ (fun v => [v.1, v.1, v.1])
    (fun s _ => by simp) guess

end Verif.Fss
