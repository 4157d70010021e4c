import Verif.Model.Query
import Verif.Lemmas.Encoding

/-! # Lemmas about the selectors -/

namespace Verif.Query
open Res Verif.Utils

theorem bits_length (l : List Byte) : (l.flatMap bits8).length = 8 * l.length := by
  rw [flatMap_length_const l bits8 8 (by simp [bits8])]; omega

theorem idForEmail_prefix {hash : List Byte → List Byte} {i : Info} {n : Nat} (hn : 0 < n)
    (hi : i.fromStart = n) (e : List Byte) :
    idForEmail hash i e = ok (if n ≤ e.length then some ((e.take n).flatMap bits8) else none) := by
  unfold idForEmail
  rw [if_pos (by omega), hi]
  by_cases h : n ≤ e.length
  · rw [if_neg (by omega), if_neg (by omega), if_pos h, Int.toNat_natCast, slice_of_le (by omega) h]
    simp [byteToBits_eq]
  · rw [if_pos (by omega), if_neg h]

theorem idForEmail_suffix {hash : List Byte → List Byte} {i : Info} {n : Nat} (hn : 0 < n)
    (h0 : i.fromStart = 0) (hi : i.fromEnd = n) (e : List Byte) :
    idForEmail hash i e =
      ok (if n ≤ e.length then some ((e.drop (e.length - n)).flatMap bits8) else none) := by
  unfold idForEmail
  rw [if_neg (by omega), if_pos (by omega), hi]
  by_cases h : n ≤ e.length
  · rw [if_neg (by omega), if_neg (by omega), if_pos h, Int.toNat_natCast, slice_of_le (by omega) (by omega)]
    simp only [ok_bind, byteToBits_eq]
    rw [List.take_of_length_le (by simp)]
  · rw [if_pos (by omega), if_neg h]

theorem idForEmail_exact {hash : List Byte → List Byte} {i : Info}
    (h0 : i.fromStart = 0) (h1 : i.fromEnd = 0) (e : List Byte) (hh : 16 ≤ (hash e).length) :
    idForEmail hash i e = ok (some (((hash e).take 16).flatMap bits8)) := by
  unfold idForEmail
  rw [if_neg (by omega), if_neg (by omega)]
  simp only
  rw [slice_of_le (by omega) hh]
  simp [byteToBits_eq]

theorem idForPubKeyAlgo_eq (pka : Byte) : idForPubKeyAlgo pka = ok ([pka].flatMap bits8) := by
  rw [idForPubKeyAlgo, byteToBits_eq]

theorem idForYear_eq (t : Time) :
    idForYearCreationTime t = ok ((putBE32 (BitVec.ofInt 32 t.year)).flatMap bits8) := by
  rw [idForYearCreationTime, byteToBits_eq]

theorem append_inj_length {α : Type _} {a a' b b' : List α} (hl : a.length = a'.length)
    (h : a ++ b = a' ++ b') : a = a' ∧ b = b' := List.append_inj h hl

theorem yearOfDay_bounds (d : Int) : startOfYear (yearOfDay d) ≤ d ∧ d < startOfYear (yearOfDay d + 1) := by
  unfold yearOfDay
  simp only
  have h := Int.ediv_mul_le (d * 400) (b := 146097) (by norm_num)
  have h' := Int.lt_ediv_add_one_mul_self (d * 400) (b := 146097) (by norm_num)
  generalize d * 400 / 146097 = y at *
  split
  · rw [show y - 1 + 1 = y by omega]
    unfold startOfYear at *; omega
  · split
    · unfold startOfYear at *; omega
    · unfold startOfYear at *; omega

theorem startOfYear_lt {y z : Int} (h : y < z) : startOfYear y + 365 ≤ startOfYear z := by
  unfold startOfYear; omega

theorem yearOfDay_unique {d y : Int} (h1 : startOfYear y ≤ d) (h2 : d < startOfYear (y + 1)) :
    yearOfDay d = y := by
  obtain ⟨a, b⟩ := yearOfDay_bounds d
  by_contra hne
  rcases lt_or_gt_of_ne hne with h | h
  · have h3 : yearOfDay d + 1 ≤ y := by omega
    rcases eq_or_lt_of_le h3 with h4 | h4
    · rw [h4] at b; omega
    · have := startOfYear_lt h4; omega
  · have h3 : y + 1 ≤ yearOfDay d := by omega
    rcases eq_or_lt_of_le h3 with h4 | h4
    · rw [← h4] at a; omega
    · have := startOfYear_lt h4; omega

theorem dateDay_zero (y : Int) : dateDay y 0 0 = startOfYear y - 32 := by
  have h : ((0 - 1 : Int)) % 12 = 11 := by decide
  have h2 : ((0 - 1 : Int)) / 12 = -1 := by decide
  unfold dateDay
  simp only [h, h2]
  have h3 : daysBefore (Int.toNat 11) (startOfYear (y + -1 + 1) - startOfYear (y + -1) - 365)
      = 334 + (startOfYear (y + -1 + 1) - startOfYear (y + -1) - 365) := rfl
  rw [h3, show y + -1 + 1 = y by omega]
  omega

theorem year_dateDay_zero (y : Int) : yearOfDay (dateDay y 0 0) = y - 1 := by
  rw [dateDay_zero]
  have h := startOfYear_lt (y := y - 1) (z := y) (by omega)
  apply yearOfDay_unique
  · omega
  · rw [show y - 1 + 1 = y by omega]; omega

end Verif.Query
