import Verif.Go

/-! # Specification of a repetition code with correction radius `t` -/

namespace Verif.Ecc.Spec

/-- Number of positions of the received word `w` that differ from the symbol `v`. -/
def errors (v : U32) (w : List U32) : Nat := w.countP (fun x => x ≠ v)

/-- `w` is the codeword of `v` (2t+1 copies of `v`) with at most `t` symbols altered. -/
def Received (t : Nat) (v : U32) (w : List U32) : Prop :=
  w.length = 2 * t + 1 ∧ errors v w ≤ t

/-- `v` fills strictly more than half of the positions of `w`. -/
def Majority (v : U32) (w : List U32) : Prop := w.length < 2 * w.count v

instance (t : Nat) (v : U32) (w : List U32) : Decidable (Received t v w) := by
  unfold Received; infer_instance

instance (v : U32) (w : List U32) : Decidable (Majority v w) := by
  unfold Majority; infer_instance

end Verif.Ecc.Spec
