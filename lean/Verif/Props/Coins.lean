import Verif.Lemmas.Coins
import Verif.Props.Lwe

/-! # C105: a lattice query is a fresh sample of the learning-with-errors distribution -/

namespace Verif.Coins
open Res Verif.Rand Verif.Matrix Verif.Lwe Verif.Gauss Verif.Gauss.Spec Verif.Privacy Verif.Coins.Spec Verif.Monitor.Spec

/-- C105: whatever the two generators delivered before, the multiplier and the secret of a query are exactly uniform and its
noise is made of independent draws from a distribution near the Gaussian, all independent of each other, up to the chance
that `c` random words per noise value do not suffice. The draws never crash. -/
def C105_Statement : Prop :=
  ∀ fl : ℚ → ℚ, Nearest fl → ∃ q : Int → ℚ, NearGaussian q ∧
    ∀ (P : Past) (k c : Nat), 0 < k → k ≤ 16 → 4 ≤ c →
      (∀ (t : BitVec (8 * k)) (s : List (BitVec (8 * k))) (gs : List Int), 16 + k * s.length ≤ P.M → c * gs.length ≤ P.N →
        (1 - 11 / 10 * (97 / 100) ^ c) ^ gs.length * ((gs.map q).prod / 2 ^ (8 * k * (s.length + 1)))
          ≤ part P fl k s.length gs.length (Are t s gs) ∧
        part P fl k s.length gs.length (Are t s gs) ≤ (gs.map q).prod / 2 ^ (8 * k * (s.length + 1))) ∧
      ∀ n l, c * l ≤ P.N → part P fl k n l (fun r => ¬ ∃ d, r = ok d) ≤ l * (11 / 10 * (97 / 100) ^ c) ∧
        ∀ B B', ¬ (draws P fl k n l B B').isCrash

open Classical in
theorem part_are (P : Past) (fl : ℚ → ℚ) (k : Nat) (hk : 0 < k) (hk16 : k ≤ 16) (t : BitVec (8 * k)) (s : List (BitVec (8 * k)))
    (gs : List Int) (hM : 16 + k * s.length ≤ P.M) :
    Coins.Spec.part P fl k s.length gs.length (Are t s gs)
      = 1 / 2 ^ (8 * k * (s.length + 1)) * Gauss.Spec.part P.N (Yields fl gs) := by
  have h := avg_draws P fl k s.length gs.length hk16
    (fun tb sb => if ofRandom (8 * k) k 1 1 tb = ⟨1, 1, [t]⟩ ∧ ofRandom (8 * k) k 1 s.length sb = ⟨1, s.length, s⟩ then 1 else 0)
    (fun gs' => if gs' = gs then 1 else 0)
  rw [avg_secrets hk hk16 t s P.rest P.pos P.M hM] at h
  have e : mean P.N (fun ws => weigh (fun gs' => if gs' = gs then 1 else 0) (gaussSamples fl gs.length ws))
      = Gauss.Spec.part P.N (Yields fl gs) := by
    rw [part_yields, ← samples_value]
    refine mean_congr _ (fun ws => ?_)
    cases gaussSamples fl gs.length ws <;> rfl
  rw [e] at h
  rw [← h]
  refine avg_congr (fun B => ?_)
  unfold Are
  cases draws P fl k s.length gs.length B.1 B.2 with
  | ok c =>
    simp only [ok.injEq, exists_eq_left']
    by_cases h1 : ofRandom (8 * k) k 1 1 c.tBytes = ⟨1, 1, [t]⟩ ∧ ofRandom (8 * k) k 1 s.length c.sBytes = ⟨1, s.length, s⟩
    · by_cases h2 : c.noise = gs
      · rw [if_pos ⟨h1.1, h1.2, h2⟩, if_pos h1, if_pos h2, mul_one]
      · rw [if_neg (fun h => h2 h.2.2), if_neg h2, mul_zero]
    · rw [if_neg (fun h => h1 ⟨h.1, h.2.1⟩), if_neg h1, zero_mul]
  | err e => simp
  | crash e => simp

open Classical in
theorem part_words (P : Past) (fl : ℚ → ℚ) (k n l : Nat) (A : Res Coins → Prop) (A' : List (BitVec 64) → Prop)
    (h : ∀ B B', A (draws P fl k n l B B') ↔
      A' (List.ofFn (fun i : Fin P.N => servedWord (tape P.rest' (8 * P.m) (8 * P.N) B') bufSize (8 * P.m) i))) :
    Coins.Spec.part P fl k n l A = Gauss.Spec.part P.N A' := by
  refine Eq.trans ?_ (avg_served P.rest' bufSize (8 * P.m) P.N (by decide) (fun ws => if A' ws then 1 else 0))
  have h1 := avg_split (A := Fin P.M → Byte) (fun _ => 1) (fun B : Fin (8 * P.N) → Byte =>
    if A' (List.ofFn (fun i : Fin P.N => servedWord (tape P.rest' (8 * P.m) (8 * P.N) B) bufSize (8 * P.m) i))
      then (1 : ℚ) else 0)
  rw [avg_const, one_mul] at h1
  rw [← h1]
  refine avg_congr (fun B => ?_)
  rw [one_mul]
  exact if_congr (h B.1 B.2) rfl rfl

theorem part_short (P : Past) (fl : ℚ → ℚ) (k n l : Nat) (hk16 : k ≤ 16) :
    Coins.Spec.part P fl k n l (fun r => ¬ ∃ d, r = ok d)
      = Gauss.Spec.part P.N (fun ws => ¬ ∃ gs rest, gaussSamples fl l ws = ok (gs, rest)) := by
  refine part_words P fl k n l _ _ (fun B B' => not_congr ?_)
  rw [draws_eq P fl k n l hk16]
  constructor
  · rintro ⟨d, h⟩
    obtain ⟨r, h1, -⟩ := bind_eq_ok.1 h
    exact ⟨r.1, r.2, h1⟩
  · rintro ⟨gs, rest, h⟩
    rw [h]
    exact ⟨_, rfl⟩

open Classical in
theorem part_none (P : Past) (fl : ℚ → ℚ) (k n l : Nat) (A : Res Coins → Prop) (h : ∀ B B', ¬ A (draws P fl k n l B B')) :
    Coins.Spec.part P fl k n l A = 0 := by
  have e : ∀ B : (Fin P.M → Byte) × (Fin (8 * P.N) → Byte),
      (if A (draws P fl k n l B.1 B.2) then (1 : ℚ) else 0) = 0 := fun B => if_neg (h B.1 B.2)
  exact (avg_congr e).trans (avg_const 0)

/-- C105: the draws of a query. -/
theorem C105_draws : C105_Statement := by
  intro fl hf
  obtain ⟨q, hq, h⟩ := C104_noise fl hf
  refine ⟨q, hq, fun P k c hk hk16 hc => ⟨fun t s gs hM hN => ?_, fun n l hN => ⟨?_, fun B B' => ?_⟩⟩⟩
  · obtain ⟨h1, h2⟩ := (h c P.N hc).1 gs hN
    rw [part_are P fl k hk hk16 t s gs hM]
    have hp : (0 : ℚ) ≤ 1 / 2 ^ (8 * k * (s.length + 1)) := by positivity
    constructor
    · refine le_trans (le_of_eq ?_) (mul_le_mul_of_nonneg_left h1 hp)
      ring
    · refine (mul_le_mul_of_nonneg_left h2 hp).trans (le_of_eq ?_)
      ring
  · rw [part_short P fl k n l hk16]
    exact ((h c P.N hc).2 l hN).1
  · rw [draws_eq P fl k n l hk16, isCrash_bind]
    rintro (h1 | ⟨r, -, h1⟩)
    · exact C104_no_crash fl l _ h1
    · exact h1

/-- What has been drawn decides the state of the 32-bit client and its query: the secret times the public matrix, plus the
noise, plus the multiplier in the cell of the row asked for. -/
theorem C105_query (aesctr : List Byte → Nat → Byte) (p : Params) (dg : Mat 32) (i j : Nat) (hb : 0 < p.b.toNat)
    (hf : FitsInt 1 p.n p.l) (hi : i < p.l) (t : U32) (s : List U32) (gs : List Int) (hs : s.length = p.n)
    (hgs : gs.length = p.l) (P : Past) (fl : ℚ → ℚ) (B : Fin P.M → Byte) (B' : Fin (8 * P.N) → Byte)
    (h : Are (k := 4) t s gs (draws P fl 4 p.n p.l B B')) :
    ∃ coins q, draws P fl 4 p.n p.l B B' = ok coins ∧
      query lwe32 aesctr p dg coins i j = ok (⟨seedMatrix aesctr 32 4 p.seedA p.n p.l, dg, ⟨1, p.n, s⟩, i, j, t⟩, q) ∧
      q.rows = 1 ∧ q.cols = p.l ∧ q.WellFormed ∧
      ∀ r, r < p.l → q.entry 0 r = (∑ a ∈ Finset.range p.n, s.getD a 0 * (seedMatrix aesctr 32 4 p.seedA p.n p.l).entry a r)
        + BitVec.ofInt 32 (gs.getD r 0) + (if r = i then t else 0) := by
  obtain ⟨c, h0, h1, h2, h3⟩ := h
  rw [hs] at h2
  have hno : ∀ g ∈ c.noise, |g| ≤ 128 := by
    have := draws_eq P fl 4 p.n p.l (by norm_num) B B'
    rw [h0] at this
    obtain ⟨r, hr, hc⟩ := bind_eq_ok.1 this.symm
    simp only [ok.injEq] at hc
    intro g hg
    rw [← hc] at hg
    have := samples_bound fl _ _ _ _ (show gaussSamples fl p.l _ = ok (r.1, r.2) from hr) g hg
    rw [Int.abs_eq_natAbs]
    exact_mod_cast this
  obtain ⟨q, hq, r1, c1, w1, e1⟩ := query_spec (S := lwe32) aesctr p (good32 p.b hb) dg c i j hf (by rw [h3, hgs]) hno hi
  have ht : coinT lwe32 c = t := by
    have := congrArg (fun m : Mat 32 => m.data.getD 0 0) h1
    simpa [ofRandom, coinT, show lwe32.k = 4 from rfl] using this
  have h2' : ofRandom 32 lwe32.k 1 p.n c.sBytes = ⟨1, p.n, s⟩ := h2
  rw [ht, h2'] at hq
  refine ⟨c, q, h0, hq, r1, c1, w1, fun r hr => ?_⟩
  rw [e1 r hr, ht, h2', h3]
  unfold queryEntry
  simp only [id, Mat.entry, Nat.zero_mul, Nat.zero_add]
  rfl

/-- Such draws exist: any multiplier and any secret, with noise 0. -/
example {fl : ℚ → ℚ} (hf : Nearest fl) (t : U32) (s : List U32) (rest rest' : Nat → Byte) :
    ∃ B B', Are (k := 4) t s [0] (draws ⟨rest, 0, 16 + 4 * s.length, rest', 0, 4⟩ fl 4 s.length 1 B B') := by
  classical
  obtain ⟨q, hq, h⟩ := C105_draws fl hf
  have h1 := (((h ⟨rest, 0, 16 + 4 * s.length, rest', 0, 4⟩ 4 4 (by norm_num) (by norm_num) le_rfl).1 t s [0] le_rfl le_rfl)).1
  by_contra hc
  push Not at hc
  have h0 := part_none ⟨rest, 0, 16 + 4 * s.length, rest', 0, 4⟩ fl 4 s.length 1 (Are (k := 4) t s [0]) hc
  have hq0 : 0 < q 0 := by
    have := (hq.near 0 (by norm_num)).1
    have hg : 0 < gaussian 0 := div_pos (rho_pos 0) (Finset.sum_pos (fun i _ => rho_pos i) ⟨0, by simp⟩)
    have : (0 : ℝ) < q 0 := by nlinarith
    exact_mod_cast this
  have hp : (0 : ℚ) < (1 - 11 / 10 * (97 / 100) ^ 4) ^ [(0 : Int)].length
      * (([(0 : Int)].map q).prod / 2 ^ (8 * 4 * (s.length + 1))) := by
    refine mul_pos (by norm_num) (div_pos (by simpa using hq0) (by positivity))
  exact absurd (lt_of_lt_of_le hp h1) (by rw [show [(0 : Int)].length = 1 from rfl, h0]; exact lt_irrefl _)

end Verif.Coins
