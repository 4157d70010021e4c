import Verif.Model.Web
import Verif.Spec.Numeral

/-! # Specification vocabulary for the web front end as a process -/

namespace Verif.Web.Spec
open Res Verif.Cmd Verif.Cmd.Spec Verif.Client

/-- The servers answer every call, rightly or wrongly. -/
structure Responsive (net : Net) : Prop where
  info : ∀ a, ∃ i, net.info a = ok i
  answer : ∀ a q, ∃ r, net.answer a q = ok r

/-- A question for the number of keys created before something that is no year. -/
def BadYear (v : Visit) : Prop :=
  v.path = "/count/timestamp" ∧ v.form.parse = ok () ∧ v.form.value "year" ≠ "" ∧ ¬ ∃ y, Numeral (v.form.value "year") y

/-- What the pages of Model/Client and Model/Cmd know of an end. -/
def seen {α : Type _} (f : Fate α) : Res α :=
  match f with
  | .done a => ok a
  | .failed m => err m
  | .dropped m => crash m
  | .exits m => crash m

/-- What the browser gets of a count. -/
def written (w : Write) : Page :=
  match w with
  | .error c m => .error c m
  | .count n => .body (countText n)

/-- No handler can come to an end any more: all that can happen is that requests arrive. -/
def Quiet (w : Site) (p : Process) : Prop := ∀ q, Step w p q → q.up = p.up ∧ p.visits <+: q.visits ∧ q.visits ≠ p.visits

end Verif.Web.Spec
