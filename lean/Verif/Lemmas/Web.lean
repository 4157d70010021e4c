import Verif.Spec.Web
import Verif.Lemmas.Numeral
import Verif.Lemmas.Client
import Verif.Props.Point
import Mathlib.Data.Nat.Digits.Lemmas
import Mathlib.Tactic.Ring
import Mathlib.Tactic.Push

/-! # Lemmas on the web front end as a process -/

namespace Verif.Web
open Res Verif.Cmd Verif.Cmd.Spec Verif.Client Verif.Pgp Verif.Query Verif.Web.Spec

/-! ### Ends -/

@[simp] theorem bind_done {α β : Type _} (a : α) (f : α → Fate β) : (Fate.done a >>= f) = f a := rfl
@[simp] theorem bind_failed {α β : Type _} (m : String) (f : α → Fate β) : (Fate.failed m >>= f) = Fate.failed m := rfl
@[simp] theorem bind_dropped {α β : Type _} (m : String) (f : α → Fate β) : (Fate.dropped m >>= f) = Fate.dropped m := rfl
@[simp] theorem bind_exits {α β : Type _} (m : String) (f : α → Fate β) : (Fate.exits m >>= f) = Fate.exits m := rfl

theorem seen_bind {α β : Type _} (x : Fate α) (f : α → Fate β) : seen (x >>= f) = seen x >>= fun a => seen (f a) := by
  cases x <;> rfl

@[simp] theorem seen_calls {α : Type _} (r : Res α) : seen (calls r) = r := by cases r <;> rfl

theorem seen_fatal {α : Type _} (r : Res α) : seen (fatal r) = orFatal r := by cases r <;> rfl

theorem mapM_not_err {α β : Type _} {f : α → Res β} {l : List α} (h : ∀ a ∈ l, ∀ m, f a ≠ err m) :
    ∀ m, l.mapM f ≠ err m := by
  induction l with
  | nil => intro m h; cases h
  | cons a l ih =>
    intro m
    rw [List.mapM_cons]
    cases ha : f a with
    | err m' => exact absurd ha (h a (by simp) m')
    | crash m' => intro h; cases h
    | ok b =>
      rw [ok_bind]
      have := ih (fun x hx => h x (by simp [hx]))
      generalize l.mapM f = r at this
      cases r with
      | err m' => exact absurd rfl (this m')
      | crash m' => intro h; cases h
      | ok bs => intro h; cases h

theorem orFatal_not_err {α : Type _} (r : Res α) (m : String) : orFatal r ≠ err m := by
  cases r <;> intro h <;> cases h

theorem orFatal_eq {α : Type _} {r : Res α} (h : ∀ m, r ≠ err m) : orFatal r = r := by
  cases r with
  | err m => exact absurd rfl (h m)
  | ok a => rfl
  | crash m => rfl

theorem gatherInfos_not_err (net : Net) (S : Schedule) (servers : List String) (m : String) :
    gatherInfos net S servers ≠ err m := by
  unfold gatherInfos
  have := mapM_not_err (f := fun a => orFatal (net.info a)) (l := servers) (fun a _ m => orFatal_not_err _ m)
  generalize servers.mapM (fun a => orFatal (net.info a)) = r at this
  cases r with
  | err m' => exact absurd rfl (this m')
  | crash m' => intro h; cases h
  | ok bs => intro h; cases h

theorem seen_runQueries (net : Net) (S : Schedule) (servers : List String) (qs : List (List Byte)) :
    seen (runQueries net S servers qs) = runQueriesActor net S servers qs := by
  unfold runQueries runQueriesActor
  rw [seen_bind, seen_calls]
  congr 1
  funext sent
  rw [seen_bind, seen_fatal, orFatal_eq (mapM_not_err (fun a _ m => orFatal_not_err _ m))]
  rfl

theorem seen_getKey (L : Lib) (net : Net) (S : Schedule) (servers : List String) (info : Database.Info) (id : Str) :
    seen (getKey L net S servers info id) = Client.lookup L servers.length (runQueriesActor net S servers) info id := by
  unfold getKey Client.lookup
  rw [seen_bind, seen_calls]
  congr 1
  funext ⟨qs, st⟩
  dsimp only
  rw [seen_bind, seen_runQueries]
  congr 1
  funext answers
  rw [seen_bind, seen_calls]
  congr 1
  funext r
  rw [seen_bind, seen_calls]
  congr 1
  funext r
  rw [seen_bind, seen_calls]
  congr 1
  funext r
  rw [seen_calls]

theorem seen_executeStatsQuery (W : Predicate.World) (gob : Predicate.Msg → List Byte) (net : Net) (S : Schedule)
    (servers : List String) (q : ClientFSS) :
    seen (executeStatsQuery W gob net S servers q) = Client.executeStatsQuery W gob net S servers q := by
  unfold executeStatsQuery Client.executeStatsQuery
  rw [seen_bind, seen_fatal, orFatal_eq (gatherInfos_not_err net S servers)]
  congr 1
  funext infos
  rw [seen_bind, seen_calls]
  congr 1
  funext infos
  rw [seen_bind, seen_calls]
  congr 1
  funext _
  unfold complexResult
  by_cases h : infos.length = 2
  · rw [if_neg (by simpa using h), seen_bind, seen_calls]
    congr 1
    funext ⟨ms, st, _, _⟩
    dsimp only
    rw [seen_bind, seen_runQueries]
    congr 1
    funext r
    rw [seen_calls]
  · rw [if_pos h]
    unfold Predicate.query
    rw [if_pos (by omega)]
    rfl

/-- A computation that does not end the process. -/
def Lasts {α : Type _} (f : Fate α) : Prop := ∀ m, f ≠ .exits m

theorem Lasts.bind {α β : Type _} {x : Fate α} {f : α → Fate β} (hx : Lasts x) (hf : ∀ a, x = .done a → Lasts (f a)) :
    Lasts (x >>= f) := by
  cases x with
  | done a => exact hf a rfl
  | failed m => intro m h; cases h
  | dropped m => intro m h; cases h
  | exits m => exact absurd rfl (hx m)

theorem lasts_done {α : Type _} (a : α) : Lasts (Fate.done a) := by intro m h; cases h

theorem lasts_dropped {α : Type _} (m : String) : Lasts (Fate.dropped m : Fate α) := by intro m h; cases h

theorem lasts_failed {α : Type _} (m : String) : Lasts (Fate.failed m : Fate α) := by intro m h; cases h

theorem lasts_calls {α : Type _} (r : Res α) : Lasts (calls r) := by
  cases r <;> intro m h <;> cases h

theorem fatal_ok {α : Type _} {r : Res α} {a : α} (h : r = ok a) : fatal r = .done a := by rw [h]; rfl

variable {net : Net} {S : Schedule} {servers : List String}

theorem Spec.Responsive.gather (h : Responsive net) (S : Schedule) (servers : List String) :
    ∃ infos, infos.length = servers.length ∧ gatherInfos net S servers = ok (S.infos infos) := by
  obtain ⟨r, h1, h2, -⟩ := Point.mapM_ok (f := fun a => orFatal (net.info a)) (l := servers) (fun a _ => by
    obtain ⟨i, hi⟩ := h.info a
    exact ⟨i, by rw [hi]; rfl⟩)
  refine ⟨r, h2, ?_⟩
  unfold gatherInfos
  rw [h1]
  rfl

theorem Spec.Responsive.runs (h : Responsive net) (S : Schedule) (servers : List String) (qs : List (List Byte)) :
    Lasts (runQueries net S servers qs) := by
  unfold runQueries
  refine Lasts.bind (lasts_calls _) (fun sent _ => ?_)
  obtain ⟨r, h1, -, -⟩ := Point.mapM_ok (f := fun m : String × List Byte => orFatal (net.answer m.1 m.2)) (l := sent)
    (fun a _ => by
      obtain ⟨i, hi⟩ := h.answer a.1 a.2
      exact ⟨i, by rw [hi]; rfl⟩)
  rw [h1]
  exact lasts_done _

theorem Spec.Responsive.getKey (h : Responsive net) (L : Lib) (S : Schedule) (servers : List String) (info : Database.Info)
    (id : Str) : Lasts (getKey L net S servers info id) := by
  unfold Web.getKey
  refine Lasts.bind (lasts_calls _) (fun q _ => ?_)
  refine Lasts.bind (h.runs S servers _) (fun a _ => ?_)
  refine Lasts.bind (lasts_calls _) (fun r _ => ?_)
  refine Lasts.bind (lasts_calls _) (fun r _ => ?_)
  refine Lasts.bind (lasts_calls _) (fun r _ => ?_)
  exact lasts_calls _

theorem Spec.Responsive.retrieve (h : Responsive net) (L : Lib) (S : Schedule) (servers : List String) (req : Request) :
    Lasts (retrieve L net S servers req) := by
  unfold Web.retrieve
  split
  · exact lasts_dropped _
  · exact lasts_done _
  · dsimp only
    split
    · exact lasts_done _
    · obtain ⟨infos, -, hg⟩ := h.gather S servers
      rw [fatal_ok hg, bind_done]
      have := lasts_calls (getDBInfos (S.infos infos))
      split
      · exact lasts_dropped _
      · rename_i m he
        exact absurd he (this m)
      · exact lasts_done _
      · refine Lasts.bind (lasts_calls _) (fun info _ => ?_)
        have := h.getKey L S servers (pointInfo info) (bytes (req.value "email"))
        split
        · exact lasts_done _
        · split <;> exact lasts_done _
        · exact lasts_dropped _
        · rename_i m he
          exact absurd he (this m)

theorem Spec.Responsive.stats (h : Responsive net) (W : Predicate.World) (gob : Predicate.Msg → List Byte) (S : Schedule)
    (hS : ∀ l, (S.infos l).length = l.length) (servers : List String) (h2 : servers.length = 2) (q : ClientFSS) :
    Lasts (executeStatsQuery W gob net S servers q) := by
  unfold Web.executeStatsQuery
  obtain ⟨infos, hl, hg⟩ := h.gather S servers
  rw [fatal_ok hg, bind_done]
  refine Lasts.bind (lasts_calls _) (fun is his => ?_)
  refine Lasts.bind (lasts_calls _) (fun i _ => ?_)
  have : is.length = 2 := by
    unfold getDBInfos at his
    split at his
    · cases his
    · have hl2 := hS infos
      cases hi : idx (S.infos infos) 0 with
      | ok a => rw [hi, ok_bind] at his; cases his; omega
      | err m => rw [hi] at his; cases his
      | crash m => rw [hi] at his; cases his
  rw [if_neg (by simpa using this)]
  refine Lasts.bind (lasts_calls _) (fun r _ => ?_)
  refine Lasts.bind (h.runs S servers _) (fun r _ => ?_)
  exact lasts_calls _

end Verif.Web
