import Verif.Lemmas.Uniform
import Verif.Props.PredicateMac

/-! # C103: the MAC keys of a count are uniformly distributed -/

namespace Verif.Uniform
open Res Verif.Rand Verif.Field Verif.Field.Spec Verif.Privacy Verif.Predicate Verif.Fss

/-- C103: whatever was read from the generator before, a client that may redraw a key `fuel - 1` times draws every vector
of keys below the modulus for the same part of all random bytes, draws no other vector, and fails to draw its keys for at
most the part `(ex - 1) / 2^(31 * fuel)`. -/
def C103_Statement : Prop :=
  ∀ (fuel ex pos n : Nat) (rest : Nat → Byte), 0 < ex → fuel * (ex - 1) ≤ n →
    (∀ ks : List U32, ks.length = ex - 1 → (∀ k ∈ ks, Canonical k) →
      part rest pos n (Draws fuel ex pos ks) = ((1 - 1 / 2 ^ (31 * fuel)) / p) ^ (ex - 1)) ∧
    (∀ ks stream, Draws fuel ex pos ks stream → ks.length = ex - 1 ∧ ∀ k ∈ ks, Canonical k) ∧
    part rest pos n (fun stream => ¬ ∃ ks, Draws fuel ex pos ks stream) ≤ (ex - 1 : ℕ) / 2 ^ (31 * fuel)

theorem draws_iff {fuel ex pos : Nat} (hex : 0 < ex) {ks : List U32} {stream : Nat → Byte} :
    Draws fuel ex pos ks stream ↔ ∃ g, drawList fuel (ex - 1) ⟨stream, pos⟩ = ok (ks, g) := by
  unfold Draws
  rw [drawKeys_eq fuel ex hex]
  cases drawList fuel (ex - 1) ⟨stream, pos⟩ with
  | ok r =>
    obtain ⟨ks', g'⟩ := r
    constructor
    · rintro ⟨g, h⟩
      simp only [ok_bind, ok.injEq, Prod.mk.injEq, State.mk.injEq, List.cons.injEq, true_and] at h
      exact ⟨g', by rw [h.1.2]⟩
    · rintro ⟨g, h⟩
      simp only [ok.injEq, Prod.mk.injEq] at h
      exact ⟨g, by rw [h.1, h.2]; rfl⟩
  | err m => exact ⟨fun ⟨g, h⟩ => by simp at h, fun ⟨g, h⟩ => by simp at h⟩
  | crash m => exact ⟨fun ⟨g, h⟩ => by simp at h, fun ⟨g, h⟩ => by simp at h⟩

/-- C103: the keys drawn are below the modulus, and there is one for every execution but the first. -/
theorem C103_canonical (fuel ex pos : Nat) (hex : 0 < ex) (ks : List U32) (stream : Nat → Byte)
    (h : Draws fuel ex pos ks stream) : ks.length = ex - 1 ∧ ∀ k ∈ ks, Canonical k := by
  obtain ⟨g, h⟩ := (draws_iff hex).1 h
  exact drawList_length h

/-- C103: every vector of keys is drawn for the same part of all random bytes. -/
theorem C103_uniform (fuel ex pos n : Nat) (rest : Nat → Byte) (hex : 0 < ex) (hn : fuel * (ex - 1) ≤ n)
    (ks : List U32) (hl : ks.length = ex - 1) (hc : ∀ k ∈ ks, Canonical k) :
    part rest pos n (Draws fuel ex pos ks) = ((1 - 1 / 2 ^ (31 * fuel)) / p) ^ (ex - 1) := by
  have h := list_value fuel ks hc const_mean rest pos n (by rw [hl]; exact hn)
  rw [hl, mul_one] at h
  refine Eq.trans (avg_congr (fun B => ?_)) h
  by_cases hd : Draws fuel ex pos ks (tape rest pos n B)
  · rw [if_pos hd]
    obtain ⟨g, e⟩ := (draws_iff hex).1 hd
    show _ = afterList (drawList fuel (ex - 1) _) _ _
    rw [e]
    simp [afterList]
  · rw [if_neg hd]
    show _ = afterList (drawList fuel (ex - 1) ⟨tape rest pos n B, pos⟩) _ _
    cases e : drawList fuel (ex - 1) ⟨tape rest pos n B, pos⟩ with
    | ok r =>
      obtain ⟨ks', g⟩ := r
      have : ¬ ks' = ks := fun h => hd ((draws_iff hex).2 ⟨g, by rw [e, h]⟩)
      simp [afterList, this]
    | err m => rfl
    | crash m => rfl

/-- C103: the part of the random bytes for which the client draws its keys. -/
theorem C103_ends (fuel ex pos n : Nat) (rest : Nat → Byte) (hex : 0 < ex) (hn : fuel * (ex - 1) ≤ n) :
    part rest pos n (fun stream => ¬ ∃ ks, Draws fuel ex pos ks stream) = 1 - (1 - 1 / 2 ^ (31 * fuel)) ^ (ex - 1) := by
  have h := list_done fuel (ex - 1) const_mean rest pos n hn
  rw [mul_one] at h
  unfold fail at h
  rw [eq_sub_iff_add_eq, ← h]
  refine Eq.trans (avg_add _ _) (Eq.trans (avg_congr (g := fun _ => (1 : ℚ)) (fun B => ?_)) (avg_const 1))
  by_cases hd : ∃ ks, Draws fuel ex pos ks (tape rest pos n B)
  · rw [if_neg (not_not.2 hd)]
    obtain ⟨ks, hd⟩ := hd
    obtain ⟨g, e⟩ := (draws_iff hex).1 hd
    show _ + afterList (drawList fuel (ex - 1) _) _ _ = _
    rw [e]
    simp [afterList]
  · rw [if_pos hd]
    show _ + afterList (drawList fuel (ex - 1) ⟨tape rest pos n B, pos⟩) _ _ = _
    cases e : drawList fuel (ex - 1) ⟨tape rest pos n B, pos⟩ with
    | ok r => exact absurd ⟨r.1, (draws_iff hex).2 ⟨r.2, e⟩⟩ hd
    | err m => simp [afterList]
    | crash m => simp [afterList]

/-- C103: the keys are uniformly distributed and drawing them practically always ends. -/
theorem C103_keys : C103_Statement := by
  intro fuel ex pos n rest hex hn
  refine ⟨fun ks hl hc => C103_uniform fuel ex pos n rest hex hn ks hl hc,
    fun ks stream h => C103_canonical fuel ex pos hex ks stream h, ?_⟩
  rw [C103_ends fuel ex pos n rest hex hn]
  have hb := one_add_mul_le_pow (a := -(1 / 2 ^ (31 * fuel) : ℚ)) (by
    have : (1 / 2 ^ (31 * fuel) : ℚ) ≤ 1 := by
      rw [div_le_one (by positivity)]
      exact one_le_pow₀ (by norm_num)
    linarith) (ex - 1)
  rw [← sub_eq_add_neg] at hb
  have : ((ex - 1 : ℕ) : ℚ) / 2 ^ (31 * fuel) = -((ex - 1 : ℕ) * -(1 / 2 ^ (31 * fuel))) := by ring
  rw [this]
  linarith

/-- Four keys, one redraw each, and enough random bytes: the hypotheses of C103 are met. -/
example : part (fun _ => 0) 3 8 (Draws 2 5 3 [1, 2, 3, 4]) = ((1 - 1 / 2 ^ (31 * 2)) / p) ^ (5 - 1) :=
  C103_uniform 2 5 3 8 (fun _ => 0) (by norm_num) (by norm_num) [1, 2, 3, 4] rfl (by
    have h : ∀ k : U32, k ∈ [1, 2, 3, 4] → k.toNat < 5 := by simp
    exact fun k hk => (h k hk).trans (by norm_num [p]))

/-- Keys are drawn: bytes that repeat the modulus once and then give a key. -/
example : Draws 2 2 0 [5] (fun i => [0xFF, 0xFF, 0xFF, 0xFF, 0, 0, 0, 0, 0, 0, 0, 0, 0, 0, 0, 0, 0x80, 0, 0, 5].getD i 0) :=
  ⟨⟨_, 32⟩, rfl⟩

/-- C103: the query of a client that draws these keys carries exactly them, and its state keeps them. -/
theorem C103_query (env : Fss.Env) (fuel ex pos : Nat) (hex : 0 < ex) (stream : Nat → Byte) (buf r1 r2 : List Byte)
    (q : Query.ClientFSS) (ns : Int) (ms : List Msg) (st : State) (g : Prg) (buf' : List Byte)
    (h : query env fuel ex ⟨stream, pos⟩ buf r1 r2 q ns = ok (ms, st, g, buf')) :
    ∃ ks, Draws fuel ex pos ks stream ∧ st = ⟨ks ++ [0], 1 :: ks⟩ ∧
      ∃ k0 k1, Fss.generateTreePF env buf r1 r2 q.input (1 :: ks) = ok (k0, k1, buf') ∧ ms = [⟨q.info, k0⟩, ⟨q.info, k1⟩] := by
  unfold query at h
  split at h
  · simp at h
  · rw [drawKeys_eq fuel ex hex] at h
    simp only [bind_eq_ok, ok.injEq] at h
    obtain ⟨⟨st', g'⟩, ⟨⟨ks, g1⟩, e1, e2⟩, ⟨k0, k1, b⟩, e3, e4⟩ := h
    simp only [Prod.mk.injEq] at e2 e4
    obtain ⟨rfl, rfl⟩ := e2
    obtain ⟨e41, rfl, rfl, rfl⟩ := e4
    exact ⟨ks, (draws_iff hex).2 ⟨_, e1⟩, rfl, k0, k1, e3, e41.symm⟩

open Classical in
theorem part_mono {rest : Nat → Byte} {pos n : Nat} {A A' : (Nat → Byte) → Prop} (h : ∀ s, A s → A' s) :
    part rest pos n A ≤ part rest pos n A' := by
  refine avg_mono (fun B => ?_)
  by_cases ha : A (tape rest pos n B)
  · rw [if_pos ha, if_pos (h _ ha)]
  · rw [if_neg ha]
    split <;> norm_num

/-- C103: a deviation chosen without the keys that changes the count is accepted for at most one part in `p^(ex-1)` of the
random bytes from which the client draws its keys. -/
theorem C103_forged (fuel ex pos n D : Nat) (rest : Nat → Byte) (δ : Nat → Nat) (hex : 0 < ex)
    (hn : fuel * (ex - 1) ≤ n) (h0 : δ 0 % p ≠ 0) :
    part rest pos n (fun stream => ∃ ks r, Draws fuel ex pos ks stream ∧ AcceptsDeviation ex D δ ks r)
      ≤ 1 / (p : ℚ) ^ (ex - 1) := by
  by_cases hex' : ∃ ks r, ks.length = ex - 1 ∧ (∀ k ∈ ks, Canonical k) ∧ AcceptsDeviation ex D δ ks r
  · obtain ⟨ks, r, hl, hc, ha⟩ := hex'
    refine (part_mono (A' := Draws fuel ex pos ks) ?_).trans ?_
    · rintro s ⟨ks', r', hd, ha'⟩
      obtain ⟨hl', hc'⟩ := C103_canonical fuel ex pos hex ks' s hd
      rwa [C23_at_most_one_key_vector ex D r r' δ ks ks' hex hl hl' hc hc' h0 ha ha']
    · rw [C103_uniform fuel ex pos n rest hex hn ks hl hc, div_pow]
      have hp : (0 : ℚ) < p := by norm_num [p]
      have h1 : (1 / 2 ^ (31 * fuel) : ℚ) ≤ 1 := by
        rw [div_le_one (by positivity)]
        exact one_le_pow₀ (by norm_num)
      have h2 : (0 : ℚ) ≤ 1 / 2 ^ (31 * fuel) := by positivity
      exact div_le_div_of_nonneg_right (pow_le_one₀ (by linarith) (by linarith)) (by positivity)
  · have : part rest pos n (fun stream => ∃ ks r, Draws fuel ex pos ks stream ∧ AcceptsDeviation ex D δ ks r) = 0 := by
      refine Eq.trans (avg_congr (g := fun _ => 0) (fun B => ?_)) (avg_const _)
      rw [if_neg]
      rintro ⟨ks, r, hd, ha⟩
      obtain ⟨hl, hc⟩ := C103_canonical fuel ex pos hex ks _ hd
      exact hex' ⟨ks, r, hl, hc, ha⟩
    rw [this]
    have hp : (0 : ℚ) < p := by norm_num [p]
    positivity

/-- The deviation of the example beside C23 changes the count and is accepted for some keys. -/
example : part (fun _ => 0) 0 2 (fun stream => ∃ ks r, Draws 1 3 0 ks stream ∧
    AcceptsDeviation 3 5 (fun j => [1, 7, 9].getD j 0) ks r) ≤ 1 / (p : ℚ) ^ 2 :=
  C103_forged 1 3 0 2 5 (fun _ => 0) _ (by norm_num) (by norm_num) (by norm_num [p])

end Verif.Uniform
