import Mathlib.Data.Fintype.BigOperators
import Mathlib.Data.Fintype.Pi
import Mathlib.Data.Finset.Powerset
import Mathlib.Data.Set.Card
import Mathlib.Algebra.BigOperators.Ring.Finset
import Mathlib.Algebra.Order.BigOperators.Group.Finset
import Mathlib.Algebra.Group.Action.Defs
import Mathlib.Tactic.Ring

/-! # Counting the draws for which the first vote and more than half of all votes fall into small sets -/

namespace Verif.Votes
open Finset

variable {n : Nat} {V : Type} [Fintype V] [DecidableEq V]

/-- Draws that hit the small set on all of `W`. -/
theorem card_hit_le (bad : Fin n → Finset V) (β : Nat) (hβ : ∀ k, (bad k).card ≤ β) (W : Finset (Fin n)) :
    (univ.filter (fun T : Fin n → V => ∀ k ∈ W, T k ∈ bad k)).card ≤ β ^ W.card * Fintype.card V ^ (n - W.card) := by
  have he : univ.filter (fun T : Fin n → V => ∀ k ∈ W, T k ∈ bad k) =
      Fintype.piFinset (fun k => if k ∈ W then bad k else univ) := by
    ext T
    simp only [mem_filter, mem_univ, true_and, Fintype.mem_piFinset]
    refine forall_congr' fun k => ?_
    by_cases hk : k ∈ W <;> simp [hk]
  rw [he, Fintype.card_piFinset]
  have hs : ∀ k, (if k ∈ W then bad k else univ).card = if k ∈ W then (bad k).card else Fintype.card V := by
    intro k; split <;> simp
  simp only [hs]
  rw [prod_ite]
  have e1 : univ.filter (fun k : Fin n => k ∈ W) = W := by ext; simp
  have e2 : (univ.filter (fun k : Fin n => k ∉ W)).card = n - W.card := by
    have : univ.filter (fun k : Fin n => k ∉ W) = Wᶜ := by ext; simp
    rw [this, card_compl, Fintype.card_fin]
  rw [prod_const, e2, e1]
  refine Nat.mul_le_mul_right _ ?_
  calc ∏ k ∈ W, (bad k).card ≤ ∏ _k ∈ W, β := prod_le_prod' (fun k _ => hβ k)
    _ = β ^ W.card := by rw [prod_const]

/-- Draws that hit the small sets exactly on `W`. -/
theorem card_hit_eq (bad : Fin n → Finset V) (β : Nat) (hβ : ∀ k, (bad k).card = β) (W : Finset (Fin n)) :
    (univ.filter (fun T : Fin n → V => ∀ k, T k ∈ bad k ↔ k ∈ W)).card =
      β ^ W.card * (Fintype.card V - β) ^ (n - W.card) := by
  have he : univ.filter (fun T : Fin n → V => ∀ k, T k ∈ bad k ↔ k ∈ W) =
      Fintype.piFinset (fun k => if k ∈ W then bad k else (bad k)ᶜ) := by
    ext T
    simp only [mem_filter, mem_univ, true_and, Fintype.mem_piFinset]
    refine forall_congr' fun k => ?_
    by_cases hk : k ∈ W <;> simp [hk]
  rw [he, Fintype.card_piFinset]
  have hs : ∀ k, (if k ∈ W then bad k else (bad k)ᶜ).card = if k ∈ W then β else Fintype.card V - β := by
    intro k; split <;> simp [card_compl, hβ]
  simp only [hs]
  rw [prod_ite]
  have e1 : univ.filter (fun k : Fin n => k ∈ W) = W := by ext; simp
  have e2 : (univ.filter (fun k : Fin n => k ∉ W)).card = n - W.card := by
    have : univ.filter (fun k : Fin n => k ∉ W) = Wᶜ := by ext; simp
    rw [this, card_compl, Fintype.card_fin]
  rw [prod_const, prod_const, e2, e1]

/-- The first vote and more than half of the `2t+1` votes are in the small sets. -/
def Outvoted {t : Nat} (bad : Fin (2 * t + 1) → Finset V) (T : Fin (2 * t + 1) → V) : Prop :=
  T 0 ∈ bad 0 ∧ t < (univ.filter (fun k => T k ∈ bad k)).card

instance {t : Nat} (bad : Fin (2 * t + 1) → Finset V) (T : Fin (2 * t + 1) → V) : Decidable (Outvoted bad T) := by
  unfold Outvoted; infer_instance

theorem card_outvoted_le {t : Nat} (bad : Fin (2 * t + 1) → Finset V) (β : Nat) (hβ : ∀ k, (bad k).card ≤ β) :
    (univ.filter (Outvoted bad)).card ≤ (2 * t).choose t * (β ^ (t + 1) * Fintype.card V ^ t) := by
  have hsub : univ.filter (Outvoted bad) ⊆
      (powersetCard t (univ.erase (0 : Fin (2 * t + 1)))).biUnion
        (fun W => univ.filter (fun T => ∀ k ∈ insert 0 W, T k ∈ bad k)) := by
    intro T hT
    rw [mem_filter] at hT
    obtain ⟨-, h0, h1⟩ := hT
    have hc : t ≤ ((univ.filter (fun k => T k ∈ bad k)).erase 0).card := by
      rw [card_erase_of_mem (by simp [h0])]
      omega
    obtain ⟨W, hW, hWc⟩ := exists_subset_card_eq hc
    rw [mem_biUnion]
    refine ⟨W, mem_powersetCard.mpr ⟨fun k hk => ?_, hWc⟩, ?_⟩
    · have := hW hk
      rw [mem_erase] at this ⊢
      exact ⟨this.1, mem_univ _⟩
    · rw [mem_filter]
      refine ⟨mem_univ _, fun k hk => ?_⟩
      rcases mem_insert.mp hk with rfl | hk
      · exact h0
      · have := hW hk
        rw [mem_erase, mem_filter] at this
        exact this.2.2
  refine (card_le_card hsub).trans (card_biUnion_le.trans ?_)
  have hone : ∀ W ∈ powersetCard t (univ.erase (0 : Fin (2 * t + 1))),
      (univ.filter (fun T : Fin (2 * t + 1) → V => ∀ k ∈ insert 0 W, T k ∈ bad k)).card ≤
        β ^ (t + 1) * Fintype.card V ^ t := by
    intro W hW
    obtain ⟨h1, h2⟩ := mem_powersetCard.mp hW
    have h0 : (0 : Fin (2 * t + 1)) ∉ W := fun h => by simpa using h1 h
    have := card_hit_le bad β hβ (insert 0 W)
    rw [card_insert_of_notMem h0, h2, show 2 * t + 1 - (t + 1) = t by omega] at this
    exact this
  refine (sum_le_card_nsmul _ _ _ hone).trans ?_
  rw [card_powersetCard, card_erase_of_mem (mem_univ _), card_univ, Fintype.card_fin, nsmul_eq_mul, Nat.cast_id]
  simp

theorem card_outvoted_eq {t : Nat} (bad : Fin (2 * t + 1) → Finset V) (β : Nat) (hβ : ∀ k, (bad k).card = β) :
    (univ.filter (Outvoted bad)).card =
      ∑ m ∈ range (t + 1), (2 * t).choose (t + m) * (β ^ (t + m + 1) * (Fintype.card V - β) ^ (t - m)) := by
  have heq : univ.filter (Outvoted bad) =
      (range (t + 1)).biUnion (fun m => (powersetCard (t + m) (univ.erase (0 : Fin (2 * t + 1)))).biUnion
        (fun W => univ.filter (fun T => ∀ k, T k ∈ bad k ↔ k ∈ insert 0 W))) := by
    ext T
    simp only [mem_filter, mem_univ, true_and, mem_biUnion, mem_range, mem_powersetCard]
    constructor
    · rintro ⟨h0, h1⟩
      have hle : (univ.filter (fun k => T k ∈ bad k)).card ≤ 2 * t + 1 :=
        (card_le_univ _).trans (by simp)
      refine ⟨(univ.filter (fun k => T k ∈ bad k)).card - (t + 1), by omega,
        (univ.filter (fun k => T k ∈ bad k)).erase 0, ⟨erase_subset_erase _ (filter_subset _ _), ?_⟩, fun k => ?_⟩
      · rw [card_erase_of_mem (by simp [h0])]
        omega
      · rw [insert_erase (by simp [h0])]
        simp
    · rintro ⟨m, hm, W, ⟨hW, hc⟩, hk⟩
      have h0 : (0 : Fin (2 * t + 1)) ∉ W := fun h => by simpa using hW h
      refine ⟨(hk 0).mpr (mem_insert_self _ _), ?_⟩
      have : univ.filter (fun k => T k ∈ bad k) = insert 0 W := by
        ext k; simp [hk k]
      rw [this, card_insert_of_notMem h0]
      omega
  rw [heq, card_biUnion]
  · refine sum_congr rfl fun m hm => ?_
    rw [mem_range] at hm
    rw [card_biUnion]
    · have hone : ∀ W ∈ powersetCard (t + m) (univ.erase (0 : Fin (2 * t + 1))),
          (univ.filter (fun T : Fin (2 * t + 1) → V => ∀ k, T k ∈ bad k ↔ k ∈ insert 0 W)).card =
            β ^ (t + m + 1) * (Fintype.card V - β) ^ (t - m) := by
        intro W hW
        obtain ⟨h1, h2⟩ := mem_powersetCard.mp hW
        have h0 : (0 : Fin (2 * t + 1)) ∉ W := fun h => by simpa using h1 h
        rw [card_hit_eq bad β hβ, card_insert_of_notMem h0, h2, show 2 * t + 1 - (t + m + 1) = t - m by omega]
      rw [sum_congr rfl hone, sum_const, card_powersetCard, card_erase_of_mem (mem_univ _), card_univ,
        Fintype.card_fin, nsmul_eq_mul, Nat.cast_id]
      simp
    · intro W hW W' hW' hne
      rw [Function.onFun, disjoint_left]
      intro T h1 h2
      apply hne
      simp only [mem_filter, mem_univ, true_and] at h1 h2
      have g1 : (0 : Fin (2 * t + 1)) ∉ W := fun h => by simpa using (mem_powersetCard.mp hW).1 h
      have g2 : (0 : Fin (2 * t + 1)) ∉ W' := fun h => by simpa using (mem_powersetCard.mp hW').1 h
      have : insert 0 W = insert 0 W' := by ext k; rw [← h1 k, h2 k]
      rw [← erase_insert g1, this, erase_insert g2]
  · intro m hm m' hm' hne
    rw [Function.onFun, disjoint_left]
    intro T h1 h2
    apply hne
    simp only [mem_biUnion, mem_filter, mem_univ, true_and] at h1 h2
    obtain ⟨W, hW, h1⟩ := h1
    obtain ⟨W', hW', h2⟩ := h2
    have g1 : (0 : Fin (2 * t + 1)) ∉ W := fun h => by simpa using (mem_powersetCard.mp hW).1 h
    have g2 : (0 : Fin (2 * t + 1)) ∉ W' := fun h => by simpa using (mem_powersetCard.mp hW').1 h
    have : insert 0 W = insert 0 W' := by ext k; rw [← h1 k, h2 k]
    have := congrArg card this
    rw [card_insert_of_notMem g1, card_insert_of_notMem g2, (mem_powersetCard.mp hW).2, (mem_powersetCard.mp hW').2] at this
    omega

end Verif.Votes
