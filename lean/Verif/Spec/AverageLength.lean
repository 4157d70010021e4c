import Verif.Spec.Forgery

/-! # Specification: what a forging server of an average query can have accepted, whatever it sends -/

namespace Verif.Forge.Spec
open Res Verif.Field Verif.Field.Spec Verif.Fss Verif.Predicate Verif.Forge

/-- What may be accepted of a server that forges: the average and, from the server whose answer is read first (`mal = false`),
the number of keys. -/
def Permitted (mal inOrder : Bool) (total count n : Nat) : Prop :=
  MeanOf inOrder total count n ∨ (mal = false ∧ n = due inOrder count)

/-- The test that looks for a forgery of the number of keys in the first five words, or of the sum of their ages in the
following ones, however many words there are. -/
noncomputable def eitherTest (S1 S2 : Setting) (A : Key → List U32) (k : Res Key) (β : Fin 3 → Fin p) (α : Fin p) : ℚ :=
  forgeTest S1 A k β α + forgeTest S2 (fun k => (A k).drop 5) k β α

/-- The advantage of the tests that look for such a forgery. -/
noncomputable def eitherGap (S1 S2 : Setting) (A : Key → List U32) : ℚ := testGap S1 (eitherTest S1 S2 A)

end Verif.Forge.Spec
