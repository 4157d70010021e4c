import Verif.Model.Interactive
import Verif.Spec.Web

/-! # Specification vocabulary for the interactive client as a program -/

namespace Verif.Interactive.Spec
open Res Verif.Cmd Verif.Client Verif.Web Verif.Interactive

/-- The program is told by its environment which servers to use, and these can be reached. -/
structure Configured (u : Surroundings) (point complex : List String) : Prop where
  pointFile : load u (u.getenv "VPIR_CONFIG_POINT") = ok point
  complexFile : load u (u.getenv "VPIR_CONFIG_COMPLEX") = ok complex
  named : u.getenv "VPIR_CONFIG_POINT" ≠ "" ∧ u.getenv "VPIR_CONFIG_COMPLEX" ≠ ""
  reached : ∀ a ∈ point ++ complex, u.dial a = ok ()

/-- The request prints these lines, and the program goes on after it. -/
inductive Alone (d : Desk) (w : Weather) : Input → List (List Byte) → Prop where
  | download (email : String) (out : List (List Byte)) : download d w (some email) = (out, .done ()) →
      Alone d w (.download (some email)) out
  | stats (c : Choice) (out : List (List Byte)) : statistics d w (some c) = (out, .done ()) → Alone d w (.stats (some c)) out

end Verif.Interactive.Spec
