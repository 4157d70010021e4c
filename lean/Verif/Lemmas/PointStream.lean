import Verif.Spec.PointStream
import Verif.Lemmas.Coins
import Verif.Lemmas.LweReal
import Verif.Props.History

/-! # Lemmas: sessions of point lookups with one generator -/

namespace Verif.PointStream
open Res Verif.Rand Verif.Database Verif.Point Verif.Privacy Verif.History Verif.Coins Verif.PointStream.Spec

theorem read_used (g : Prg) (k : Nat) :
    g.read (List.replicate k 0) = (keyStream g.ks g.pos k, ⟨g.ks, g.pos + used k⟩) := by
  unfold Prg.read xorKeyStream used
  by_cases h : k < 16
  · simp only [List.length_replicate, h, if_true]
    rw [zipWith_xor_zero _ _ (by simp), keyStream_take _ _ _ _ (by omega)]
    simp [show k - 16 = 0 by omega]
  · simp only [List.length_replicate, h, if_false]
    rw [zipWith_xor_zero _ _ (by simp)]

/-- Splitting the random bytes in front. -/
theorem tape_append (rest : Nat → Byte) (pos a M : Nat) (B : Fin a → Byte) (B' : Fin M → Byte) :
    Coins.Spec.tape rest pos (a + M) (Fin.append B B')
      = Coins.Spec.tape (Coins.Spec.tape rest pos a B) (pos + a) M B' := by
  funext i
  unfold Coins.Spec.tape
  by_cases h1 : pos ≤ i
  · by_cases h2 : i - pos < a
    · rw [dif_pos ⟨h1, by omega⟩, dif_neg (by omega), dif_pos ⟨h1, h2⟩]
      exact Fin.append_left B B' ⟨i - pos, h2⟩
    · by_cases h3 : i - pos < a + M
      · rw [dif_pos ⟨h1, h3⟩, dif_pos ⟨by omega, by omega⟩]
        have : (⟨i - pos, h3⟩ : Fin (a + M)) = Fin.natAdd a ⟨i - (pos + a), by omega⟩ := Fin.ext (by simp; omega)
        rw [this]
        exact Fin.append_right B B' _
      · rw [dif_neg (by omega), dif_neg (by omega), dif_neg (by omega)]
  · rw [dif_neg (by omega), dif_neg (by omega), dif_neg (by omega)]

theorem avg_append (a M : Nat) (f : (Fin (a + M) → Byte) → ℚ) :
    avg f = avg (fun B : Fin a → Byte => avg (fun B' : Fin M → Byte => f (Fin.append B B'))) := by
  rw [← avg_equiv (Fin.appendEquiv a M) f, avg_prod']
  rfl

/-- One lookup of the session. -/
theorem sees_eq (dpf : Dpf) (info : Info) (n m i : Nat) (hC : 0 < info.numColumns) (hn2 : n ≠ 2) (hn : 0 < n) (g : Prg) :
    sees dpf info n m i g = (coalitionView dpf info n m i (keyStream g.ks g.pos ((n - 1) * (info.numColumns / 8 + 1))),
      ⟨g.ks, g.pos + used ((n - 1) * (info.numColumns / 8 + 1))⟩) := by
  have hv : ¬ (invalidQueryInputsIT (i : Int) (n : Int) = true ∨ info.numColumns = 0 ∨ (n : Int) = 2 ∨ (n : Int) < 1) := by
    unfold invalidQueryInputsIT
    simp only [Bool.and_eq_true, decide_eq_true_eq]
    omega
  have hr : (keyStream g.ks g.pos ((n - 1) * (info.numColumns / 8 + 1))).length = (n - 1) * (info.numColumns / 8 + 1) := by simp
  have hq : Point.query dpf (fun k => ok (g.read (List.replicate k 0)).1) info i n
      = Point.query dpf (fun _ => ok (keyStream g.ks g.pos ((n - 1) * (info.numColumns / 8 + 1)))) info i n := by
    unfold Point.query secretShare
    simp only [read_used, Int.toNat_natCast]
  unfold sees query coalitionView
  rw [hq]
  simp only [if_neg hv, Int.toNat_natCast, read_used]
  cases Point.query dpf (fun _ => ok (keyStream g.ks g.pos ((n - 1) * (info.numColumns / 8 + 1)))) info i n <;> rfl

/-- A session with one generator is a session with new bytes for every lookup. -/
theorem outcome_eq (dpf : Dpf) (info : Info) (n m : Nat) (hC : 0 < info.numColumns) (hn2 : n ≠ 2) (hn : 0 < n)
    (S : Server Nat Unit (Res (List (List Byte)))) (right : Bool) (lookups : Nat) :
    ∀ (past : List (Res (List (List Byte)))) (rest : Nat → Byte) (pos M : Nat),
      lookups * used ((n - 1) * (info.numColumns / 8 + 1)) ≤ M →
      avg (fun B : Fin M → Byte => outcome (sees dpf info n m) S right lookups past ⟨Coins.Spec.tape rest pos M B, pos⟩)
        = session (fun i _ (r : Fin ((n - 1) * (info.numColumns / 8 + 1)) → Byte) => coalitionView dpf info n m i (List.ofFn r))
          S right lookups past := by
  induction lookups with
  | zero =>
    intro past rest pos M _
    exact avg_const (Ω := Fin M → Byte) (S.decide past)
  | succ k ih =>
    intro past rest pos M hM
    set L := (n - 1) * (info.numColumns / 8 + 1) with hL
    obtain ⟨M', rfl⟩ : ∃ M', M = used L + M' := ⟨M - used L, by rw [Nat.succ_mul] at hM; omega⟩
    have hLu : L ≤ used L := by unfold used; split <;> omega
    rw [avg_append]
    have h1 : ∀ B : Fin (used L) → Byte, avg (fun B' : Fin M' → Byte => outcome (sees dpf info n m) S right (k + 1) past
        ⟨Coins.Spec.tape rest pos (used L + M') (Fin.append B B'), pos⟩)
        = session (fun i _ (r : Fin L → Byte) => coalitionView dpf info n m i (List.ofFn r)) S right k
          (past ++ [coalitionView dpf info n m ((S.choose past).asked right) (List.ofFn (fun j : Fin L => B ⟨j, by omega⟩))]) := by
      intro B
      rw [← ih _ (Coins.Spec.tape rest pos (used L) B) (pos + used L) M' (by rw [Nat.succ_mul] at hM; omega)]
      refine avg_congr (fun B' => ?_)
      rw [outcome, sees_eq dpf info n m _ hC hn2 hn, ← hL, ← tape_append]
      have hk : keyStream (Coins.Spec.tape rest pos (used L + M') (Fin.append B B')) pos L
          = List.ofFn (fun j : Fin L => B ⟨j, by omega⟩) := by
        rw [LweReal.keyStream_ofFn]
        congr 1
        funext j
        rw [tape_at _ _ _ _ _ (by omega)]
        exact Fin.append_left B B' ⟨j, by omega⟩
      dsimp only
      rw [hk]
    rw [avg_congr h1]
    exact LweReal.avg_pick (fun j : Fin L => (⟨j, by omega⟩ : Fin (used L))) (fun a b h => Fin.ext (by simpa using h))
      (fun r : Fin L → Byte => session (fun i _ (r : Fin L → Byte) => coalitionView dpf info n m i (List.ofFn r)) S right k
          (past ++ [coalitionView dpf info n m ((S.choose past).asked right) (List.ofFn r)]))

end Verif.PointStream
