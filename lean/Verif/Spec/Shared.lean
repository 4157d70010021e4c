import Verif.Model.Shared
import Verif.Spec.Fss

/-! # Specification of queries handled at the same time -/

namespace Verif.Shared.Spec
open Res Verif.Fss Verif.Fss.Spec Verif.Shared

/-- The same outcome; the message of a panic does not matter. -/
def Same {α : Type} (r r' : Res α) : Prop := r = r' ∨ (r.isCrash ∧ r'.isCrash)

/-- The requests use block ciphers. -/
def Ciphers (r : Request) : Prop := ∀ i, BlockCipher (r.env i).E

/-- The arrays of a server that is not evaluating anything: as a new instance or a finished query leaves them. -/
def Rested (n : Nat) (m : Mem) : Prop := m.out.length = 64 ∧ BufferReady n m.ocb

/-- The goroutine is not inside a call of `EvaluatePF`: it has returned, or its next call has not begun. -/
def Outside : Thread → Prop
  | .returned _ => True
  | .running _ e _ => e.pc = .level ∧ e.i = 0

/-- Under the schedule no two calls of `EvaluatePF` overlap: a goroutine does a step only while all others are outside of
such calls. This holds for instance if requests are handled one after the other. -/
def Apart (S : Server) : List Nat → State → Prop
  | [], _ => True
  | i :: is, s => (∀ j r t, j ≠ i → s.threads[j]? = some (r, t) → Outside t) ∧ Apart S is (S.step i s)

end Verif.Shared.Spec
