import Verif.Spec.FssPlain

/-! # Specification vocabulary for several queries without authentication -/

namespace Verif.Fss
open Res Verif.Field Verif.Field.Spec Verif.Fss.Spec Verif.Privacy Finset

/-- The mean of a test on all the keys that party `second` receives while the client asks for the predicates `as`, each
with fresh randomness. -/
def sessionMean (env : Env) (second : Bool) : List (List Bool) → (List (Res Key) → ℚ) → ℚ
  | [], T => T []
  | a :: as, T => plainMean env second a (fun k => sessionMean env second as (fun ks => T (k :: ks)))

/-- The mean of a test on keys made of random bytes only, for predicates of the lengths `ns`. -/
def randomSessionMean (second : Bool) : List Nat → (List (Res Key) → ℚ) → ℚ
  | [], T => T []
  | n :: ns, T => randomPlainMean second n (fun k => randomSessionMean second ns (fun ks => T (k :: ks)))

/-- What the advantages against the generator add up to in a session: those of the tests made from the first query, and
twice the mean of what remains, over random keys in the place of the first one. -/
def sessionGap (env : Env) (second : Bool) : List (List Bool) → (List (Res Key) → ℚ) → ℚ
  | [], _ => 0
  | a :: as, T =>
    ∑ k ∈ range a.length,
        |prgGap env.E (plainLevelTest env.E second a (fun key => sessionMean env second as (fun ks => T (key :: ks))) k)|
      + 2 * randomPlainMean second a.length (fun key => sessionGap env second as (fun ks => T (key :: ks)))

end Verif.Fss
