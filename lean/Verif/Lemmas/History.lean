import Verif.Spec.History
import Verif.Lemmas.Reaction

/-! # Sessions: the advantages of the lookups add up -/

namespace Verif.History
open Finset Verif.Privacy Verif.Reaction

variable {I A V Ω : Type} [Fintype Ω]

theorem avg_le_one {f : Ω → ℚ} (h : ∀ x, f x ≤ 1) : avg f ≤ 1 := by
  by_cases hΩ : Nonempty Ω
  · have := avg_mono (f := f) (g := fun _ => 1) h
    rwa [avg_const] at this
  · have : IsEmpty Ω := not_nonempty_iff.mp hΩ
    unfold avg
    simp

theorem session_test (see : I → A → Ω → V) (S : Server I A V) (hD : IsTest S.decide) (right : Bool) :
    ∀ n past, 0 ≤ session see S right n past ∧ session see S right n past ≤ 1 := by
  intro n
  induction n with
  | zero => intro past; exact hD past
  | succ n ih => intro past; exact ⟨avg_nonneg fun ω => (ih _).1, avg_le_one fun ω => (ih _).2⟩

theorem abs_avg_sub_le {f g B : Ω → ℚ} (h : ∀ x, |f x - g x| ≤ B x) : |avg f - avg g| ≤ avg B := by
  rw [avg_sub]
  have h1 := avg_mono (f := fun x => f x - g x) (g := B) (fun x => (abs_le.1 (h x)).2)
  have h2 := avg_mono (f := fun x => -(f x - g x)) (g := B) (fun x => by linarith [(abs_le.1 (h x)).1])
  have h3 : avg (fun x => -(f x - g x)) = - avg (fun x => f x - g x) := by
    unfold avg
    rw [Finset.sum_neg_distrib, neg_div]
  rw [h3] at h2
  rw [abs_le]
  constructor <;> linarith

/-- The hybrid argument. -/
theorem session_close (see : I → A → Ω → V) (S : Server I A V) (hD : IsTest S.decide) (cost : Choice I A → (V → ℚ) → ℚ)
    (Valid : Choice I A → Prop) (hv : ∀ past, Valid (S.choose past))
    (hc : ∀ c D, Valid c → IsTest D → advantage (see c.left c.answer) (see c.right c.answer) D ≤ cost c D) :
    ∀ n past, |session see S false n past - session see S true n past| ≤ total see S cost n past := by
  intro n
  induction n with
  | zero => intro past; simp [session, total]
  | succ n ih =>
    intro past
    have h1 := hc (S.choose past) (fun v => session see S true n (past ++ [v])) (hv past)
      (fun v => session_test see S hD true n _)
    have h2 := abs_avg_sub_le (fun ω : Ω => ih (past ++ [see (S.choose past).left (S.choose past).answer ω]))
    unfold advantage at h1
    have e1 : session see S false (n + 1) past =
        avg fun ω => session see S false n (past ++ [see (S.choose past).left (S.choose past).answer ω]) := rfl
    have e2 : session see S true (n + 1) past =
        avg fun ω => session see S true n (past ++ [see (S.choose past).right (S.choose past).answer ω]) := rfl
    have e3 : total see S cost (n + 1) past =
        cost (S.choose past) (fun v => session see S true n (past ++ [v])) +
          avg fun ω => total see S cost n (past ++ [see (S.choose past).left (S.choose past).answer ω]) := rfl
    rw [e1, e2, e3]
    have h3 := abs_sub_le
      (avg fun ω => session see S false n (past ++ [see (S.choose past).left (S.choose past).answer ω]))
      (avg fun ω => session see S true n (past ++ [see (S.choose past).left (S.choose past).answer ω]))
      (avg fun ω => session see S true n (past ++ [see (S.choose past).right (S.choose past).answer ω]))
    linarith

theorem telling_le {see : I → A → Ω → V} {S : Server I A V} (hD : IsTest S.decide) {cost : Choice I A → (V → ℚ) → ℚ}
    (Valid : Choice I A → Prop) (hv : ∀ past, Valid (S.choose past))
    (hc : ∀ c D, Valid c → IsTest D → advantage (see c.left c.answer) (see c.right c.answer) D ≤ cost c D) (n : Nat) :
    telling see S n ≤ total see S cost n [] := session_close see S hD cost Valid hv hc n []

theorem total_le (see : I → A → Ω → V) (S : Server I A V) (cost : Choice I A → (V → ℚ) → ℚ) (c : ℚ) (h0 : 0 ≤ c)
    (hc : ∀ n past, cost (S.choose past) (fun v => session see S true n (past ++ [v])) ≤ c) :
    ∀ n past, total see S cost n past ≤ n * c := by
  intro n
  induction n with
  | zero => intro past; simp [total]
  | succ n ih =>
    intro past
    have h1 := hc n past
    have h2 : avg (fun ω => total see S cost n (past ++ [see (S.choose past).left (S.choose past).answer ω])) ≤ n * c :=
      by
      by_cases hΩ : Nonempty Ω
      · have := avg_mono (g := fun _ => (n : ℚ) * c)
          (fun ω : Ω => ih (past ++ [see (S.choose past).left (S.choose past).answer ω]))
        rwa [avg_const] at this
      · have : IsEmpty Ω := not_nonempty_iff.mp hΩ
        have e : avg (fun ω => total see S cost n (past ++ [see (S.choose past).left (S.choose past).answer ω])) = 0 := by
          unfold avg
          simp
        rw [e]
        positivity
    unfold total
    push_cast
    linarith

open Classical in
theorem everWrong_le (see : I → A → Ω → V) (wrong : I → A → Ω → Prop) (S : Server I A V) (bound : Choice I A → ℚ)
    (Valid : Choice I A → Prop) (hv : ∀ past, Valid (S.choose past))
    (hb : ∀ c, Valid c → avg (fun ω => indicator (wrong c.left c.answer ω)) ≤ bound c) :
    ∀ n past, everWrong see wrong S n past ≤ total see S (fun c _ => bound c) n past := by
  intro n
  induction n with
  | zero => intro past; simp [everWrong, total]
  | succ n ih =>
    intro past
    have h1 := hb _ (hv past)
    have e1 : everWrong see wrong S (n + 1) past = avg fun ω => if wrong (S.choose past).left (S.choose past).answer ω then 1
      else everWrong see wrong S n (past ++ [see (S.choose past).left (S.choose past).answer ω]) := rfl
    have e3 : total see S (fun c _ => bound c) (n + 1) past = bound (S.choose past) +
          avg fun ω => total see S (fun c _ => bound c) n (past ++ [see (S.choose past).left (S.choose past).answer ω]) := rfl
    have h0 : ∀ n past, 0 ≤ everWrong see wrong S n past := by
      intro n
      induction n with
      | zero => intro past; simp [everWrong]
      | succ n ih =>
        intro past
        exact avg_nonneg fun ω => by split; exacts [zero_le_one, ih _]
    have h2 := avg_mono (f := fun ω => if wrong (S.choose past).left (S.choose past).answer ω then 1
        else everWrong see wrong S n (past ++ [see (S.choose past).left (S.choose past).answer ω]))
      (g := fun ω => indicator (wrong (S.choose past).left (S.choose past).answer ω) +
        total see S (fun c _ => bound c) n (past ++ [see (S.choose past).left (S.choose past).answer ω])) (by
      intro ω
      have := ih (past ++ [see (S.choose past).left (S.choose past).answer ω])
      have h00 := h0 n (past ++ [see (S.choose past).left (S.choose past).answer ω])
      split
      · rename_i hw
        rw [indicator_true hw]
        linarith
      · rename_i hw
        rw [indicator_false hw]
        linarith)
    rw [e1, e3]
    have e4 : avg (fun ω => indicator (wrong (S.choose past).left (S.choose past).answer ω) +
        total see S (fun c _ => bound c) n (past ++ [see (S.choose past).left (S.choose past).answer ω])) =
        avg (fun ω => indicator (wrong (S.choose past).left (S.choose past).answer ω)) +
        avg (fun ω => total see S (fun c _ => bound c) n (past ++ [see (S.choose past).left (S.choose past).answer ω])) := by
      unfold avg
      rw [Finset.sum_add_distrib, add_div]
    rw [e4] at h2
    linarith

theorem everWrong_bound {see : I → A → Ω → V} {wrong : I → A → Ω → Prop} {S : Server I A V} {bound : Choice I A → ℚ}
    (Valid : Choice I A → Prop) (hv : ∀ past, Valid (S.choose past))
    (hb : ∀ c, Valid c → avg (fun ω => indicator (wrong c.left c.answer ω)) ≤ bound c) (n : Nat) :
    everWrong see wrong S n [] ≤ total see S (fun c _ => bound c) n [] := everWrong_le see wrong S bound Valid hv hb n []

end Verif.History
