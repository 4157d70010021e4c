import Verif.Go

/-! # Generic lemmas about loops over slices (proof helpers only) -/

namespace Verif
open Res

/-- A loop reading `l[i]` for `i = 0 .. len(l)-1` is a monadic fold over `l`. -/
theorem forLoop_idx_foldlM {α σ : Type _} (l : List α) (g : σ → α → Res σ) (s : σ) :
    forLoop l.length (fun i t => idx l i >>= fun x => g t x) s = l.foldlM g s := by
  induction l using List.reverseRecOn generalizing s with
  | nil => rfl
  | append_singleton l a ih =>
    rw [List.length_append, List.length_singleton, forLoop_succ, List.foldlM_append, ← ih]
    have : forLoop l.length (fun i t => idx (l ++ [a]) i >>= fun x => g t x) s
        = forLoop l.length (fun i t => idx l i >>= fun x => g t x) s := by
      apply forLoop_congr
      intro i t hi
      have h1 : i < (l ++ [a]).length := by simp; omega
      rw [idx_of_lt h1, idx_of_lt hi, List.getElem_append_left hi]
    rw [this]
    cases forLoop l.length (fun i t => idx l i >>= fun x => g t x) s with
    | ok b =>
      have h1 : l.length < (l ++ [a]).length := by simp
      simp
      cases g b a <;> rfl
    | err m => rfl
    | crash m => rfl

theorem forLoop_idx_foldl {α σ : Type _} (l : List α) (f : σ → α → σ) (s : σ) :
    forLoop l.length (fun i t => idx l i >>= fun x => ok (f t x)) s = ok (l.foldl f s) := by
  rw [forLoop_idx_foldlM]
  induction l generalizing s with
  | nil => rfl
  | cons a l ih => simp [List.foldlM_cons, ih]

/-- Filling consecutive windows of `k` cells, starting at `off`. -/
theorem forLoop_fill {α : Type _} (n k off : Nat) (g : Nat → List α) (init : List α)
    (body : Nat → List α → Res (List α))
    (hb : ∀ i t, i < n → t.length = init.length → body i t = copyAt t (off + i * k) (g i))
    (hg : ∀ i, i < n → (g i).length = k) (hlen : off + n * k ≤ init.length) :
    forLoop n body init
      = ok (init.take off ++ (List.range n).flatMap g ++ init.drop (off + n * k)) := by
  have key : ∃ t, forLoop n body init = ok t ∧
      t = init.take off ++ (List.range n).flatMap g ++ init.drop (off + n * k) := by
    have hfl : ∀ i, i ≤ n → ((List.range i).flatMap g).length = i * k := by
      intro i hi
      induction i with
      | zero => simp
      | succ i ih =>
        rw [List.range_succ, List.flatMap_append, List.length_append, ih (by omega)]
        simp [hg i (by omega), Nat.succ_mul]
    refine forLoop_inv (fun i t => t = init.take off ++ (List.range i).flatMap g
      ++ init.drop (off + i * k)) (by simp) ?_
    intro i t hi ht
    have hle : (i + 1) * k ≤ n * k := Nat.mul_le_mul_right k hi
    rw [Nat.succ_mul] at hle
    have hl1 : (init.take off ++ (List.range i).flatMap g).length = off + i * k := by
      simp [hfl i (by omega)]; omega
    have htl : t.length = init.length := by
      rw [ht, List.length_append, hl1, List.length_drop]; omega
    have hgi := hg i hi
    refine ⟨_, (hb i t hi htl).trans (copyAt_of_le (by rw [htl]; omega)), ?_⟩
    rw [ht, List.take_append_of_le_length (by omega), List.take_of_length_le (by omega),
      List.drop_append, hgi, hl1, List.drop_eq_nil_of_le (by omega), List.range_succ,
      List.flatMap_append, List.drop_drop, Nat.succ_mul]
    simp only [List.append_assoc, List.nil_append, List.flatMap_cons, List.flatMap_nil,
      List.append_nil]
    have e1 : off + i * k + (off + i * k + k - (off + i * k)) = off + (i * k + k) := by omega
    rw [e1]
  obtain ⟨t, h1, h2⟩ := key
  rw [h1, h2]

/-- Filling consecutive cells, starting at `off`. -/
theorem forLoop_set {α : Type _} (n off : Nat) (g : Nat → α) (init : List α)
    (body : Nat → List α → Res (List α))
    (hb : ∀ i t, i < n → t.length = init.length → body i t = setAt t (off + i) (g i))
    (hlen : off + n ≤ init.length) :
    forLoop n body init
      = ok (init.take off ++ (List.range n).map g ++ init.drop (off + n)) := by
  have := forLoop_fill n 1 off (fun i => [g i]) init body (by
    intro i t hi ht
    rw [hb i t hi ht, copyAt_of_le (by simp; omega), setAt_of_lt (by omega), Nat.mul_one,
      List.set_eq_take_append_cons_drop, if_pos (by omega)]
    simp) (by simp) (by omega)
  rw [this, Nat.mul_one, ← List.map_eq_flatMap]

theorem forLoop_fill_all {α : Type _} (n k : Nat) (g : Nat → List α) (init : List α)
    (body : Nat → List α → Res (List α))
    (hb : ∀ i t, i < n → t.length = init.length → body i t = copyAt t (i * k) (g i))
    (hg : ∀ i, i < n → (g i).length = k) (hlen : n * k = init.length) :
    forLoop n body init = ok ((List.range n).flatMap g) := by
  rw [forLoop_fill n k 0 g init body (by simpa using hb) hg (by omega)]
  simp [hlen]

theorem forLoop_set_all {α : Type _} (n : Nat) (g : Nat → α) (init : List α)
    (body : Nat → List α → Res (List α))
    (hb : ∀ i t, i < n → t.length = init.length → body i t = setAt t i (g i))
    (hlen : n = init.length) :
    forLoop n body init = ok ((List.range n).map g) := by
  rw [forLoop_set n 0 g init body (by simpa using hb) (by omega)]
  simp [hlen]

theorem forLoop_append {σ : Type _} (m n : Nat) (body : Nat → σ → Res σ) (s : σ) :
    forLoop (m + n) body s = (forLoop m body s >>= forLoop n (fun i => body (m + i))) := by
  induction n with
  | zero => cases forLoop m body s <;> simp
  | succ n ih =>
    rw [← Nat.add_assoc, forLoop_succ, ih]
    cases forLoop m body s <;> simp [forLoop_succ]

theorem drop_set_zero {α : Type _} {l : List α} {i : Nat} (h : i < l.length) {v : α} :
    (l.drop i).set 0 v = v :: l.drop (i + 1) := by
  rw [List.drop_eq_getElem_cons h]; rfl

/-- `l[0], ..., l[n-1]` re-listed by index. -/
theorem range_map_getElem? {α : Type _} (l : List α) (g : Nat → α)
    (h : ∀ i, (hi : i < l.length) → g i = l[i]) : (List.range l.length).map g = l := by
  apply List.ext_getElem (by simp)
  intro i h1 h2
  simp [h i h2]

theorem range_map_getElem {α : Type _} (l : List α) (g : Nat → α) (n : Nat) (hn : n = l.length)
    (h : ∀ i, (hi : i < l.length) → g i = l[i]) : (List.range n).map g = l := by
  subst hn; exact range_map_getElem? l g h

end Verif
