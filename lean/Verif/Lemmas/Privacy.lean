import Verif.Spec.Privacy
import Mathlib.Algebra.BigOperators.Field
import Mathlib.Algebra.Order.BigOperators.Group.Finset
import Mathlib.Tactic.Linarith
import Mathlib.Tactic.Ring
import Mathlib.Tactic.FieldSimp

/-! # Lemmas about means and advantages -/

namespace Verif.Privacy
open Finset

variable {Ω Ω' T V : Type} [Fintype Ω] [Fintype Ω'] [Fintype T]

theorem avg_equiv (e : Ω' ≃ Ω) (f : Ω → ℚ) : avg (fun x => f (e x)) = avg f := by
  unfold avg
  rw [Fintype.sum_equiv e (fun x => f (e x)) f (fun _ => rfl), Fintype.card_congr e]

theorem avg_prod (f : Ω × T → ℚ) : avg f = avg (fun τ => avg (fun ω => f (ω, τ))) := by
  unfold avg
  rw [Fintype.card_prod, Fintype.sum_prod_type_right, ← Finset.sum_div, div_div]
  congr 1
  push_cast
  ring

theorem avg_prod' (f : Ω × T → ℚ) : avg f = avg (fun ω => avg (fun τ => f (ω, τ))) := by
  unfold avg
  rw [Fintype.card_prod, Fintype.sum_prod_type, ← Finset.sum_div, div_div]
  congr 1
  push_cast
  ring

theorem avg_congr {f g : Ω → ℚ} (h : ∀ x, f x = g x) : avg f = avg g := by
  rw [show f = g from funext h]

theorem avg_sub (f g : Ω → ℚ) : avg f - avg g = avg (fun x => f x - g x) := by
  unfold avg
  rw [Finset.sum_sub_distrib, sub_div]

theorem avg_nonneg {f : Ω → ℚ} (h : ∀ x, 0 ≤ f x) : 0 ≤ avg f := by
  unfold avg
  exact div_nonneg (Finset.sum_nonneg fun x _ => h x) (Nat.cast_nonneg _)

theorem avg_mono {f g : Ω → ℚ} (h : ∀ x, f x ≤ g x) : avg f ≤ avg g := by
  have := avg_nonneg (f := fun x => g x - f x) (fun x => by linarith [h x])
  rw [← avg_sub] at this
  linarith

theorem avg_const [Nonempty Ω] (c : ℚ) : avg (fun _ : Ω => c) = c := by
  unfold avg
  rw [Finset.sum_const, Finset.card_univ, nsmul_eq_mul]
  have : (Fintype.card Ω : ℚ) ≠ 0 := Nat.cast_ne_zero.2 Fintype.card_ne_zero
  field_simp

theorem abs_avg_le {f : Ω → ℚ} {c : ℚ} [Nonempty Ω] (h : ∀ x, |f x| ≤ c) : |avg f| ≤ c := by
  rw [abs_le]
  constructor
  · have := avg_mono (f := fun _ : Ω => -c) (g := f) (fun x => (abs_le.1 (h x)).1)
    rwa [avg_const] at this
  · have := avg_mono (f := f) (g := fun _ : Ω => c) (fun x => (abs_le.1 (h x)).2)
    rwa [avg_const] at this

/-- Two distributions at small distance from a common one. -/
theorem advantage_via {Ω₁ Ω₂ Ω₃ Ω₄ : Type} [Fintype Ω₁] [Fintype Ω₂] [Fintype Ω₃] [Fintype Ω₄]
    {x : Ω₁ → V} {y : Ω₂ → V} {u : Ω₃ → V} {v : Ω₄ → V} {B : V → ℚ}
    (h : avg (fun ω => B (u ω)) = avg (fun ω => B (v ω))) :
    advantage x y B ≤ advantage x u B + advantage y v B := by
  unfold advantage
  have e : avg (fun ω => B (x ω)) - avg (fun ω => B (y ω)) =
    (avg (fun ω => B (x ω)) - avg (fun ω => B (u ω))) + (avg (fun ω => B (v ω)) - avg (fun ω => B (y ω))) := by
    rw [h]; ring
  rw [e, abs_sub_comm (avg (fun ω => B (y ω)))]
  exact abs_add_le _ _

/-- Adding a fixed value at one position permutes the vectors. -/
def shiftEquiv {l : Nat} {V : Type} [AddCommGroup V] (i : Nat) (t : V) : (Fin l → V) ≃ (Fin l → V) where
  toFun v := shifted v i t
  invFun v := shifted v i (-t)
  left_inv v := by
    funext r
    simp only [shifted]
    split <;> simp
  right_inv v := by
    funext r
    simp only [shifted]
    split <;> simp

theorem avg_shifted {l : Nat} {V : Type} [AddCommGroup V] [Fintype V] (i : T → Nat) (t : T → V) (f : (Fin l → V) → ℚ) :
    avg (fun x : T × (Fin l → V) => f (shifted x.2 (i x.1) (t x.1))) = avg (fun x : T × (Fin l → V) => f x.2) := by
  rw [avg_prod', avg_prod']
  exact avg_congr (fun τ => avg_equiv (shiftEquiv (i τ) (t τ)) f)

end Verif.Privacy
