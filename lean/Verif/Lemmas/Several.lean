import Verif.Spec.ReactionAmplify
import Verif.Lemmas.ReactionLwe

/-! # Independent samples, replaced one at a time -/

namespace Verif.Several
open Verif.Privacy Verif.Reaction Finset Verif.Lwe.Spec

variable {Ω Ω' X : Type} [Fintype Ω] [Fintype Ω'] {n : Nat}

/-- Drawing one of the samples again changes nothing. -/
theorem resample [Nonempty Ω] (k : Fin n) (g : (Fin n → Ω) → ℚ) :
    avg (fun x : Ω => avg (fun ω : Fin n → Ω => g (Function.update ω k x))) = avg g := by
  have e : Function.Involutive (fun y : Ω × (Fin n → Ω) => (y.2 k, Function.update y.2 k y.1)) := by
    intro y
    ext1
    · simp
    · simp
  have h := avg_equiv (Function.Involutive.toPerm _ e) (fun y : Ω × (Fin n → Ω) => g y.2)
  have h1 : avg (fun y : Ω × (Fin n → Ω) => g y.2) = avg g := by
    rw [avg_prod']
    exact avg_const (Ω := Ω) (avg g)
  rw [h1] at h
  rw [← h, avg_prod']
  rfl

/-- The samples before `k` are already replaced. -/
def mixture (P : Ω → X) (Q : Ω' → X) (B : (Fin n → X) → ℚ) (k : Nat) : ℚ :=
  avg (fun y : (Fin n → Ω) × (Fin n → Ω') => B (fun j => if j.val < k then Q (y.2 j) else P (y.1 j)))

theorem mixture_step [Nonempty Ω] [Nonempty Ω'] (P : Ω → X) (Q : Ω' → X) (B : (Fin n → X) → ℚ) (k : Fin n) :
    |mixture P Q B k - mixture P Q B (k + 1)| = advantage P Q (mixed P Q B k) := by
  unfold advantage
  congr 1
  congr 1
  · unfold mixture
    rw [avg_prod, ← avg_congr (fun ω' => resample k _)]
    have : ∀ x : Ω, mixed P Q B k (P x) = avg (fun ω' : Fin n → Ω' => avg (fun ω : Fin n → Ω =>
        B (fun j => if j.val < k then Q (ω' j) else P (Function.update ω k x j)))) := by
      intro x
      unfold mixed
      rw [avg_prod]
      refine avg_congr fun ω' => avg_congr fun ω => ?_
      congr 1
      funext j
      by_cases h : j = k
      · subst h; simp
      · simp [h]
    rw [avg_congr this]
    exact (avg_prod (fun y : (Ω × (Fin n → Ω')) => avg (fun ω : Fin n → Ω =>
        B (fun j => if j.val < k then Q (y.2 j) else P (Function.update ω k y.1 j))))).symm.trans (avg_prod' _)
  · unfold mixture
    rw [avg_prod', ← avg_congr (fun ω => resample k _)]
    have : ∀ x : Ω', mixed P Q B k (Q x) = avg (fun ω : Fin n → Ω => avg (fun ω' : Fin n → Ω' =>
        B (fun j => if j.val < k + 1 then Q (Function.update ω' k x j) else P (ω j)))) := by
      intro x
      unfold mixed
      rw [avg_prod']
      refine avg_congr fun ω => avg_congr fun ω' => ?_
      congr 1
      funext j
      by_cases h : j = k
      · subst h; simp
      · have h' : j.val ≠ k.val := fun e => h (Fin.ext e)
        by_cases h2 : j.val < k.val
        · rw [if_pos h2, if_pos (by omega), Function.update_of_ne h]
        · rw [if_neg h2, if_neg h, if_neg (by omega)]
    rw [avg_congr this]
    exact (avg_prod (fun y : (Ω' × (Fin n → Ω)) => avg (fun ω' : Fin n → Ω' =>
        B (fun j => if j.val < k + 1 then Q (Function.update ω' k y.1 j) else P (y.2 j))))).symm.trans (avg_prod' _)

/-- Telling several samples apart is telling one of them apart. -/
theorem several [Nonempty Ω] [Nonempty Ω'] (P : Ω → X) (Q : Ω' → X) (B : (Fin n → X) → ℚ) :
    advantage (fun (ω : Fin n → Ω) k => P (ω k)) (fun (ω' : Fin n → Ω') k => Q (ω' k)) B ≤
      ∑ k, advantage P Q (mixed P Q B k) := by
  have h0 : avg (fun ω : Fin n → Ω => B (fun k => P (ω k))) = mixture P Q B 0 := by
    unfold mixture
    rw [avg_prod']
    refine avg_congr fun ω => ?_
    simp only [Nat.not_lt_zero, if_false]
    exact (avg_const _).symm
  have h1 : avg (fun ω' : Fin n → Ω' => B (fun k => Q (ω' k))) = mixture P Q B n := by
    unfold mixture
    rw [avg_prod]
    refine avg_congr fun ω' => ?_
    simp only [Fin.is_lt, if_true]
    exact (avg_const _).symm
  have key : ∀ m, m ≤ n → |mixture P Q B 0 - mixture P Q B m| ≤
      ∑ k ∈ univ.filter (fun k : Fin n => k.val < m), advantage P Q (mixed P Q B k) := by
    intro m
    induction m with
    | zero => intro _; simp
    | succ m ih =>
      intro hm
      have e : univ.filter (fun k : Fin n => k.val < m + 1) =
          insert ⟨m, hm⟩ (univ.filter (fun k : Fin n => k.val < m)) := by
        ext k
        simp only [mem_filter, mem_univ, true_and, mem_insert, Fin.ext_iff]
        omega
      rw [e, sum_insert (by simp)]
      have := close_trans (ih (by omega)) (le_of_eq (mixture_step P Q B ⟨m, hm⟩))
      linarith
  unfold advantage
  rw [h0, h1]
  refine (key n le_rfl).trans (le_of_eq ?_)
  congr 1
  ext k
  simp

end Verif.Several
