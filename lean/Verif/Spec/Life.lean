import Verif.Model.Life

/-! # Specification vocabulary for the life of a server process -/

namespace Verif.Life.Spec
open Res

/-- The call has got what its own query deserves; only a call whose context ended may have got nothing. -/
def Settled (work : List Byte → Res (List Byte)) (c : Rpc.Call) : Prop :=
  (∃ a, work c.query = ok a ∧ c.status = .returned (.answer a)) ∨
  (∃ e, work c.query = err e ∧ c.status = .returned (.error e)) ∨
  (c.cancelled = true ∧ c.status = .returned .deadline)

/-- One step of the process or of its surroundings. -/
def Step (work : List Byte → Res (List Byte)) (s s' : State) : Prop := Env s s' ∨ Sys work s s'

/-- The process can do nothing by itself. -/
def Rest (work : List Byte → Res (List Byte)) (s : State) : Prop := ¬ ∃ s', Sys work s s'

/-- The process has ended by `log.Fatalf`. -/
def Fatal (s : State) : Prop := ∃ m, s.pc = .fatal m

end Verif.Life.Spec
