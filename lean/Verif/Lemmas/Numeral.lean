import Verif.Spec.Numeral
import Mathlib.Data.Nat.Digits.Lemmas
import Mathlib.Tactic.Ring
import Mathlib.Tactic.Push

/-! # Lemmas on texts of whole numbers -/

namespace Verif.Cmd
open Res Verif.Cmd.Spec

/-! ### Numerals -/

theorem digit_toNat {d : Nat} (h : d < 10) : (Char.ofNat (48 + d)).toNat = 48 + d := by
  have : ∀ d : Fin 10, (Char.ofNat (48 + d.val)).toNat = 48 + d.val := by decide
  exact this ⟨d, h⟩

theorem digit_range {d : Nat} (h : d < 10) : '0' ≤ Char.ofNat (48 + d) ∧ Char.ofNat (48 + d) ≤ '9' := by
  have : ∀ d : Fin 10, '0' ≤ Char.ofNat (48 + d.val) ∧ Char.ofNat (48 + d.val) ≤ '9' := by decide
  exact this ⟨d, h⟩

theorem digit_no_sign {d : Nat} (h : d < 10) : Char.ofNat (48 + d) ≠ '-' ∧ Char.ofNat (48 + d) ≠ '+' := by
  have : ∀ d : Fin 10, Char.ofNat (48 + d.val) ≠ '-' ∧ Char.ofNat (48 + d.val) ≠ '+' := by decide
  exact this ⟨d, h⟩

theorem digit_of_range {c : Char} (h : '0' ≤ c ∧ c ≤ '9') : c.toNat - 48 < 10 ∧ c = Char.ofNat (48 + (c.toNat - 48)) := by
  obtain ⟨h1, h2⟩ := h
  have h1' : 48 ≤ c.toNat := h1
  have h2' : c.toNat ≤ 57 := h2
  refine ⟨by omega, ?_⟩
  rw [show 48 + (c.toNat - 48) = c.toNat by omega, Char.ofNat_toNat]

theorem fold_digits (ds : List Nat) (h : ∀ d ∈ ds, d < 10) (acc : Nat) :
    (ds.map (fun d => Char.ofNat (48 + d))).foldl (fun (n : Nat) c => 10 * n + (c.toNat - '0'.toNat)) acc =
      acc * 10 ^ ds.length + Nat.ofDigits 10 ds.reverse := by
  induction ds generalizing acc with
  | nil => simp
  | cons d ds ih =>
    rw [List.map_cons, List.foldl_cons, ih (fun x hx => h x (by simp [hx])), digit_toNat (h d (by simp)), List.reverse_cons,
      Nat.ofDigits_append, List.length_reverse, Nat.ofDigits_singleton, List.length_cons, Nat.pow_succ,
      show '0'.toNat = 48 from rfl, show 48 + d - 48 = d by omega]
    ring

theorem digits_text (n : Nat) : ∃ ds : List Nat, ds ≠ [] ∧ (∀ d ∈ ds, d < 10) ∧
    Nat.toDigits 10 n = ds.map (fun d => Char.ofNat (48 + d)) ∧ Nat.ofDigits 10 ds.reverse = n := by
  have hc : ∀ d : Fin 10, Nat.digitChar d.val = Char.ofNat (48 + d.val) := by decide
  induction n using Nat.strong_induction_on with
  | _ n ih =>
    by_cases h : n < 10
    · exact ⟨[n], by simp, by simpa using h, by rw [Nat.toDigits_of_lt_base h]; simp [hc ⟨n, h⟩], by simp⟩
    · obtain ⟨ds, -, h2, h3, h4⟩ := ih (n / 10) (by omega)
      refine ⟨ds ++ [n % 10], by simp, ?_, ?_, ?_⟩
      · intro d hd
        rw [List.mem_append, List.mem_singleton] at hd
        rcases hd with hd | rfl
        · exact h2 d hd
        · omega
      · rw [Nat.toDigits_of_base_le (by omega) (by omega), h3, List.map_append]
        simp [hc ⟨n % 10, by omega⟩]
      · rw [List.reverse_append, List.reverse_singleton, List.singleton_append, Nat.ofDigits_cons, h4]
        omega

theorem numeral_toString {n : Nat} (h : n < 2 ^ 63) : Numeral (toString n) n := by
  obtain ⟨ds, h1, h2, h3, h4⟩ := digits_text n
  refine ⟨[], ds, Or.inl rfl, h1, h2, ?_, ?_, by omega, by omega⟩
  · rw [Nat.toString_eq_repr, Nat.repr_eq_ofList_toDigits, String.toList_ofList, h3]
    rfl
  · have h5 := congrArg (Nat.cast : Nat → Int) h4
    rw [Nat.coe_ofDigits] at h5
    simpa using h5.symm

theorem atoi_eq_ok (s : List Char) (y : Int) : atoi s = ok y ↔ IsNumeral s y := by
  have core : ∀ (ds : List Nat), ds ≠ [] → (∀ d ∈ ds, d < 10) → ∀ sign : List Char,
      (sign = [] ∨ sign = ['+'] ∨ sign = ['-']) →
      atoi (sign ++ ds.map (fun d => Char.ofNat (48 + d))) =
        if sign = ['-'] then (if Nat.ofDigits 10 ds.reverse ≤ 2 ^ 63 then ok (-((Nat.ofDigits 10 ds.reverse : Nat) : Int)) else err "value out of range")
        else (if Nat.ofDigits 10 ds.reverse < 2 ^ 63 then ok ((Nat.ofDigits 10 ds.reverse : Nat) : Int) else err "value out of range") := by
    intro ds h0 hd sign hs
    obtain ⟨d, ds', rfl⟩ := List.exists_cons_of_ne_nil h0
    have hall : ((d :: ds').map (fun d => Char.ofNat (48 + d))).all (fun c => decide ('0' ≤ c ∧ c ≤ '9')) = true := by
      rw [List.all_eq_true]
      intro c hc
      obtain ⟨x, hx, rfl⟩ := List.mem_map.mp hc
      exact decide_eq_true (digit_range (hd x hx))
    have hne : (d :: ds').map (fun d => Char.ofNat (48 + d)) ≠ [] := by simp
    have hf := fold_digits (d :: ds') hd 0
    rw [Nat.zero_mul, Nat.zero_add] at hf
    have hn := digit_no_sign (hd d (by simp))
    have hh : ((d :: ds').map (fun d => Char.ofNat (48 + d))).head? = some (Char.ofNat (48 + d)) := rfl
    generalize (d :: ds').map (fun d => Char.ofNat (48 + d)) = rest at hall hne hf hh ⊢
    have hc : ¬ (rest = [] ∨ ¬ rest.all (fun c => decide ('0' ≤ c ∧ c ≤ '9')) = true) := by
      rintro (h | h)
      · exact hne h
      · exact h hall
    rcases hs with rfl | rfl | rfl
    · unfold atoi
      simp only [List.nil_append, hh, Option.some.injEq, hn.1, hn.2, or_self, if_false]
      rw [if_neg hc, hf]
      simp
    · unfold atoi
      simp only [List.cons_append, List.nil_append, List.head?_cons, List.tail_cons, or_true, if_true]
      rw [if_neg hc, hf]
      simp
    · unfold atoi
      simp only [List.cons_append, List.nil_append, List.head?_cons, List.tail_cons, true_or, if_true]
      rw [if_neg hc, hf]
  constructor
  · intro h
    have hex : ∃ sign rest, (sign = [] ∨ sign = ['+'] ∨ sign = ['-']) ∧ s = sign ++ rest ∧ rest ≠ [] ∧
        rest.all (fun c => decide ('0' ≤ c ∧ c ≤ '9')) = true := by
      by_cases hc : (if s.head? = some '-' ∨ s.head? = some '+' then s.tail else s) = [] ∨
          ¬ (if s.head? = some '-' ∨ s.head? = some '+' then s.tail else s).all
            (fun c => decide ('0' ≤ c ∧ c ≤ '9')) = true
      · unfold atoi at h
        simp only at h
        rw [if_pos hc] at h
        cases h
      · rw [not_or, not_not] at hc
        by_cases hs : s.head? = some '-' ∨ s.head? = some '+'
        · rw [if_pos hs] at hc
          obtain ⟨c, t, ht⟩ : ∃ c t, s = c :: t := by
            cases hl : s with
            | nil => rw [hl] at hs; simp at hs
            | cons c t => exact ⟨c, t, rfl⟩
          rw [ht] at hs hc ⊢
          simp only [List.head?_cons, Option.some.injEq] at hs
          refine ⟨[c], t, ?_, rfl, hc.1, hc.2⟩
          rcases hs with rfl | rfl
          · exact Or.inr (Or.inr rfl)
          · exact Or.inr (Or.inl rfl)
        · rw [if_neg hs] at hc
          exact ⟨[], _, Or.inl rfl, rfl, hc.1, hc.2⟩
    obtain ⟨sign, rest, hs, he, hne, hall⟩ := hex
    rw [List.all_eq_true] at hall
    obtain ⟨ds, h0, hd, hr⟩ : ∃ ds : List Nat, ds ≠ [] ∧ (∀ d ∈ ds, d < 10) ∧
        rest = ds.map (fun d => Char.ofNat (48 + d)) := by
      refine ⟨rest.map (fun c => c.toNat - 48), ?_, ?_, ?_⟩
      · intro h
        exact hne (List.map_eq_nil_iff.mp h)
      · intro d hd
        obtain ⟨c, hc, rfl⟩ := List.mem_map.mp hd
        exact (digit_of_range (of_decide_eq_true (hall c hc))).1
      · rw [List.map_map]
        conv_lhs => rw [← List.map_id rest]
        apply List.map_congr_left
        intro c hc
        exact (digit_of_range (of_decide_eq_true (hall c hc))).2
    subst hr
    refine ⟨sign, ds, hs, h0, hd, he, ?_⟩
    rw [he, core ds h0 hd sign hs] at h
    generalize hN : Nat.ofDigits 10 ds.reverse = N at h
    have hNI : (Nat.ofDigits 10 ds.reverse : Int) = (N : Int) := by
      rw [← hN]; push_cast; rfl
    rw [hNI]
    split at h
    · rename_i h1
      rw [if_pos h1]
      split at h
      · cases h
        constructor
        · simp
        · omega
      · cases h
    · rename_i h1
      rw [if_neg h1]
      split at h
      · cases h
        constructor
        · simp
        · omega
      · cases h
  · rintro ⟨sign, ds, hs, h0, hd, he, hy, h1, h2⟩
    rw [he, core ds h0 hd sign hs]
    generalize hN : Nat.ofDigits 10 ds.reverse = N
    have hNI : (Nat.ofDigits 10 ds.reverse : Int) = (N : Int) := by
      rw [← hN]; push_cast; rfl
    rw [hNI] at hy
    split
    · rename_i h3
      rw [if_pos h3] at hy
      rw [if_pos (by omega), hy]
      simp
    · rename_i h3
      rw [if_neg h3] at hy
      rw [if_pos (by omega), hy]
      simp

theorem atoi_not_crash (s : List Char) (m : String) : atoi s ≠ crash m := by
  unfold atoi
  intro h
  dsimp only at h
  generalize (if s.head? = some '-' ∨ s.head? = some '+' then s.tail else s) = r at h
  split at h
  · cases h
  · split at h <;> split at h <;> cases h

theorem atoi_iff (s : String) (y : Int) : atoi s.toList = ok y ↔ Numeral s y := atoi_eq_ok _ _

theorem atoi_isErr (s : List Char) : (atoi s).isErr ↔ ¬ ∃ y, IsNumeral s y := by
  cases h : atoi s with
  | ok y => simp only [isErr_ok, false_iff, not_not]; exact ⟨y, (atoi_eq_ok s y).1 h⟩
  | err m =>
    refine ⟨fun _ => ?_, fun _ => trivial⟩
    rintro ⟨y, hy⟩
    rw [(atoi_eq_ok s y).2 hy] at h
    cases h
  | crash m => exact absurd h (atoi_not_crash s m)

theorem isNumeral_unique {s : List Char} {x y : Int} (hx : IsNumeral s x) (hy : IsNumeral s y) : x = y := by
  have h := ((atoi_eq_ok s x).2 hx).symm.trans ((atoi_eq_ok s y).2 hy)
  simpa using h

theorem numbered_iff (servers : List (List Char × Server)) : Numbered servers ↔
    servers.map (fun e => atoi e.1) = (List.range servers.length).map (fun i => ok ((i : Nat) : Int)) := by
  constructor
  · intro h
    apply List.ext_getElem (by simp)
    intro i h1 h2
    rw [List.length_map] at h1
    simp only [List.getElem_map, List.getElem_range]
    exact (atoi_eq_ok _ _).2 (h i h1)
  · intro h i hi
    rw [← atoi_eq_ok]
    have := congrArg (fun l => l[i]?) h
    simpa [hi] using this

end Verif.Cmd
