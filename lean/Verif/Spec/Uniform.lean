import Verif.Spec.Privacy
import Verif.Spec.Field
import Verif.Model.Predicate

/-! # Specification vocabulary for keys drawn from random bytes

The random generator is a key stream and a position. The key stream from the position on is `n` blocks of 16 random bytes;
nothing is assumed about the rest of the stream. -/

namespace Verif.Uniform
open Res Verif.Field.Spec Verif.Privacy Verif.Predicate

/-- The key stream that has the blocks `B` from `pos` on and is `rest` elsewhere. -/
def tape (rest : Nat → Byte) (pos n : Nat) (B : Fin n → Fin 16 → Byte) : Nat → Byte := fun i =>
  if h : pos ≤ i ∧ (i - pos) / 16 < n then B ⟨(i - pos) / 16, h.2⟩ ⟨(i - pos) % 16, Nat.mod_lt _ (by norm_num)⟩ else rest i

open Classical in
/-- The part of all blocks for which `A` holds of the key stream. -/
noncomputable def part (rest : Nat → Byte) (pos n : Nat) (A : (Nat → Byte) → Prop) : ℚ :=
  avg (fun B : Fin n → Fin 16 → Byte => if A (tape rest pos n B) then 1 else 0)

/-- The client draws the keys `ks` from the key stream. -/
def Draws (fuel ex pos : Nat) (ks : List U32) (stream : Nat → Byte) : Prop :=
  ∃ g, drawKeys fuel ex ⟨stream, pos⟩ = ok (⟨ks ++ [0], 1 :: ks⟩, g)

end Verif.Uniform
