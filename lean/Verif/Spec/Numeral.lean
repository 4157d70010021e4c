import Verif.Model.Cmd
import Mathlib.Data.Nat.Digits.Defs

/-! # Specification vocabulary: texts of whole numbers -/

namespace Verif.Cmd.Spec

/-- The text of a whole number: an optional sign and decimal digits, in the range of 64-bit integers. -/
def IsNumeral (s : List Char) (y : Int) : Prop :=
  ∃ (sign : List Char) (ds : List Nat), (sign = [] ∨ sign = ['+'] ∨ sign = ['-']) ∧ ds ≠ [] ∧ (∀ d ∈ ds, d < 10) ∧
    s = sign ++ ds.map (fun d => Char.ofNat (48 + d)) ∧
    y = (if sign = ['-'] then -1 else 1) * (Nat.ofDigits 10 ds.reverse : Int) ∧ -2 ^ 63 ≤ y ∧ y < 2 ^ 63

/-- The same for strings. -/
def Numeral (s : String) (y : Int) : Prop := IsNumeral s.toList y

/-- The keys of a configuration are the numbers from 0 on, in their order. -/
def Numbered (servers : List (List Char × Server)) : Prop :=
  ∀ (i : Nat) (h : i < servers.length), IsNumeral servers[i].1 i

end Verif.Cmd.Spec
