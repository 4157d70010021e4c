import Verif.Model.Stop

/-! # Specification vocabulary for stopping an experiment server -/

namespace Verif.Stop.Spec
open Res

/-- One step of the process or of its surroundings. -/
def Step (work : List Byte → Res (List Byte)) (s s' : State) : Prop := Env s s' ∨ Sys work s s'

/-- The process can do nothing by itself. -/
def Rest (work : List Byte → Res (List Byte)) (s : State) : Prop := ¬ ∃ s', Sys work s s'

/-- The process has ended by `log.Fatalf`. -/
def Fatal (s : State) : Prop := ∃ m, s.pc = .fatal m

/-- How often the process has been asked to stop, by signals and by requests. -/
def asked (s : State) : Nat := s.signals + s.requests.length

/-- The call has got what its own query deserves, or its client has given up. -/
def Settled (work : List Byte → Res (List Byte)) (c : Call) : Prop :=
  c.cancelled = true ∨ (∃ a, work c.query = ok a ∧ c.result = some (ok a)) ∨
    (∃ e, work c.query = err e ∧ c.result = some (err e))

end Verif.Stop.Spec
