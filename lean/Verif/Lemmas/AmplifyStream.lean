import Verif.Spec.AmplifyStream
import Verif.Lemmas.LweStream
import Mathlib.Logic.Equiv.Fin.Basic

/-! # Lemmas: sessions of amplified lattice lookups and their draws -/

namespace Verif.AmplifyStream
open Res Verif.Rand Verif.Matrix Verif.Lwe Verif.Lwe.Spec Verif.Gauss Verif.Privacy Verif.Coins Verif.Coins.Spec Verif.Reaction
  Verif.History Verif.LweReal Verif.LweReal.Spec Verif.LweDraws Verif.LweStream Verif.LweStream.Spec Verif.AmplifyStream.Spec

/-- The draws of a group of base clients and of those after it. -/
theorem drawMany_add (fl : ℚ → ℚ) (k n l m : Nat) : ∀ r g ws,
    drawMany fl k n l (r + m) g ws = (do
      let x ← drawGroup fl k n l r g ws
      let cs ← drawMany fl k n l m x.2.1 x.2.2
      ok (x.1 ++ cs)) := by
  intro r
  induction r with
  | zero =>
    intro g ws
    rw [Nat.zero_add, drawGroup, ok_bind]
    cases drawMany fl k n l m g ws <;> rfl
  | succ r ih =>
    intro g ws
    rw [show r + 1 + m = (r + m) + 1 by omega, drawMany_succ, drawGroup]
    cases h1 : drawNext fl k n l g ws with
    | ok x =>
      obtain ⟨c, g', ws'⟩ := x
      simp only [ok_bind, ih]
      cases h2 : drawGroup fl k n l r g' ws' with
      | ok y =>
        obtain ⟨cs, g'', ws''⟩ := y
        simp only [ok_bind]
        cases drawMany fl k n l m g'' ws'' <;> rfl
      | err e => rfl
      | crash e => rfl
    | err e => rfl
    | crash e => rfl

theorem drawGroup_length (fl : ℚ → ℚ) (k n l : Nat) : ∀ r g ws x, drawGroup fl k n l r g ws = ok x → x.1.length = r := by
  intro r
  induction r with
  | zero =>
    intro g ws x h
    rw [drawGroup, ok.injEq] at h
    subst h
    rfl
  | succ r ih =>
    intro g ws x h
    rw [drawGroup] at h
    obtain ⟨⟨c, g', ws'⟩, -, h2⟩ := bind_eq_ok.1 h
    obtain ⟨⟨cs, g'', ws''⟩, h3, h4⟩ := bind_eq_ok.1 h2
    have := ih _ _ _ h3
    dsimp only at h4
    rw [ok.injEq] at h4
    subst h4
    simpa using this

/-- A list cut into `n` pieces of length `r`. -/
def chunks {α : Type} (r n : Nat) (cs : List α) : List (List α) := List.ofFn (fun i : Fin n => (cs.drop (i * r)).take r)

theorem chunks_cons {α : Type} (r n : Nat) (a b : List α) (h : a.length = r) : chunks r (n + 1) (a ++ b) = a :: chunks r n b := by
  unfold chunks
  rw [List.ofFn_succ]
  congr 1
  · rw [Fin.val_zero, Nat.zero_mul, List.drop_zero, List.take_append_of_le_length (by omega), List.take_of_length_le (by omega)]
  · congr 1
    funext i
    rw [Fin.val_succ, Nat.succ_mul, List.drop_append, List.drop_of_length_le (by omega), List.nil_append, h, Nat.add_sub_cancel]

/-- The draws of `n` lookups of `r` base clients each. -/
theorem collect_group (fl : ℚ → ℚ) (k m l r : Nat) : ∀ n g ws cs, drawMany fl k m l (n * r) g ws = ok cs →
    collect (drawGroup fl k m l r) n g ws = ok (chunks r n cs) := by
  intro n
  induction n with
  | zero =>
    intro g ws cs _
    rfl
  | succ n ih =>
    intro g ws cs h
    rw [Nat.succ_mul, Nat.add_comm, drawMany_add] at h
    obtain ⟨x, h1, h2⟩ := bind_eq_ok.1 h
    obtain ⟨cs', h3, h4⟩ := bind_eq_ok.1 h2
    rw [ok.injEq] at h4
    subst h4
    rw [collect, h1, ok_bind, ih _ _ _ h3, ok_bind, chunks_cons r n x.1 cs' (drawGroup_length fl k m l r g ws x h1)]

/-- Functions of two arguments as functions of a number. -/
def flat (n r : Nat) (X : Type) : (Fin n → Fin r → X) ≃ (Fin (n * r) → X) :=
  (Equiv.curry (Fin n) (Fin r) X).symm.trans (Equiv.arrowCongr finProdFinEquiv (Equiv.refl X))

theorem flat_apply (n r : Nat) (X : Type) (z : Fin n → Fin r → X) (i : Fin n) (j : Fin r) (h : i.val * r + j.val < n * r) :
    flat n r X z ⟨i.val * r + j.val, h⟩ = z i j := by
  have : finProdFinEquiv.symm (⟨i.val * r + j.val, h⟩ : Fin (n * r)) = (i, j) := by
    rw [Equiv.symm_apply_eq]
    refine Fin.ext ?_
    simp only [finProdFinEquiv, Equiv.coe_fn_mk]
    rw [Nat.mul_comm, Nat.add_comm]
  show z (finProdFinEquiv.symm _).1 (finProdFinEquiv.symm _).2 = _
  rw [this]

theorem chunks_flat {X α : Type} (n r : Nat) (g : X → α) (z : Fin n → Fin r → X) :
    chunks r n (List.ofFn (fun k => g (flat n r X z k))) = List.ofFn (fun i => List.ofFn (fun j => g (z i j))) := by
  unfold chunks
  congr 1
  funext i
  have hle : i.val * r + r ≤ n * r := by
    have := Nat.mul_le_mul_right r i.isLt
    rw [Nat.succ_mul] at this
    exact this
  refine List.ext_getElem (by simp; omega) fun j h1 h2 => ?_
  have hj : j < r := by simpa using h2
  rw [List.getElem_take, List.getElem_drop, List.getElem_ofFn, List.getElem_ofFn]
  exact congrArg g (flat_apply n r X z i ⟨j, hj⟩ _)

/-- Independent draws one lookup after the other and all at once. -/
theorem ownAvg_groups (fl : ℚ → ℚ) (m l r n N : Nat) (Φ : List (List Coins) → ℚ) :
    ownAvg fl 4 m l (n * r) N (fun cs => Φ (chunks r n cs)) =
      avg (fun z : Fin n → Fin r → Fresh 4 m N => Φ (List.ofFn (fun i => coinsFrom fl l (z i)))) := by
  rw [ownAvg_fresh, ← avg_equiv (flat n r (Fresh 4 m N))]
  refine avg_congr (fun z => ?_)
  rw [chunks_flat n r (fun x : Fresh 4 m N => (⟨List.ofFn x.1, List.ofFn x.2.1, noiseFrom fl l (List.ofFn x.2.2)⟩ : Coins))]
  rfl

/-- An average over the draws of one lookup. -/
theorem avg_group (fl : ℚ → ℚ) (m l r N : Nat) (Φ : List Coins → ℚ) :
    avg (fun z : Fin r → Fresh 4 m N => Φ (coinsFrom fl l z)) = ownAvg fl 4 m l r N Φ := by
  rw [ownAvg_fresh]
  rfl

end Verif.AmplifyStream
