import Verif.Model.Object

/-! # What is asked of a client object that is used for many lookups -/

namespace Verif.Object
open Res
variable {O Q M A R : Type}

/-- The messages of a query are those a new object would send, whatever was done with the object before. -/
def SameMessages (c : Client O Q M A R) : Prop :=
  ∀ (past : List (Call Q A)) (q : Q), (c.query (c.after past) q).2 = (c.query c.new q).2

/-- Answers are reconstructed as by a new object on which only the last query was made: neither the calls before that
query nor the reconstructions since then matter. `W` restricts the queries. -/
def LastQueryCounts (c : Client O Q M A R) (W : Q → Prop) : Prop :=
  ∀ (past : List (Call Q A)) (q : Q) (m : M) (since : List A) (a : A), W q →
    (c.query (c.after past) q).2 = ok m →
    (c.reconstruct (c.after (past ++ .query q :: since.map .reconstruct)) a).2 = (c.reconstruct (c.after [.query q]) a).2

/-- Lookups made one after the other with one object: their results. -/
def lookups (c : Client O Q M A R) : O → List (Q × (M → Res A)) → List (Res R)
  | _, [] => []
  | o, (q, server) :: rest =>
    c.lookup o q server ::
      lookups c (match (c.query o q).2 >>= server with
        | ok a => (c.reconstruct (c.query o q).1 a).1
        | _ => (c.query o q).1) rest

end Verif.Object
