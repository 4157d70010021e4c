import Verif.Lemmas.Web
import Verif.Props.Cmd
import Verif.Props.Client

/-! # C81: the web front end stays up and every visitor gets a reply -/

namespace Verif.Web
open Res Verif.Cmd Verif.Cmd.Spec Verif.Client Verif.Pgp Verif.Query Verif.Web.Spec Verif.Utils

/-- C81 as claimed: with servers that answer every call, every request gets a reply of its own once its handler has had its
turn, whatever all visitors ask for. -/
def C81_Statement : Prop :=
  ∀ (w : Site), w.complex.length = 2 → ∀ p, Reach w p →
    (∀ v ∈ p.visits, Responsive v.1.weather.net ∧ Client.Spec.Fair v.1.weather.S) → Quiet w p →
    ∀ v ∈ p.visits, ∃ r, v.2 = .answered r

/-! ### The pages are those of the other properties -/

/-- C81: the key page shows what `handleRetrieve` (C60, C62) says. -/
theorem C81_key_page (L : Lib) (net : Net) (S : Schedule) (servers : List String) (req : Request) :
    seen (retrieve L net S servers req) = (handleRetrieve L net S servers req >>= fun p => ok [p]) := by
  unfold retrieve handleRetrieve
  cases req.parse with
  | crash m => rfl
  | err m => rfl
  | ok u =>
    dsimp only
    by_cases he : req.value "email" = ""
    · rw [if_pos he, if_pos he]
      rfl
    rw [if_neg he, if_neg he, seen_bind, seen_fatal, orFatal_eq (gatherInfos_not_err net S servers)]
    cases gatherInfos net S servers with
    | err m => rfl
    | crash m => rfl
    | ok infos =>
      rw [ok_bind, ok_bind]
      cases getDBInfos infos with
      | err m => rfl
      | crash m => rfl
      | ok infos =>
        dsimp only [calls]
        cases idx infos 0 with
        | err m => rfl
        | crash m => rfl
        | ok info =>
          dsimp only
          rw [bind_done, ok_bind, ← seen_getKey]
          cases getKey L net S servers (pointInfo info) (bytes (req.value "email")) with
          | done k => rfl
          | failed m =>
            dsimp only [seen]
            by_cases hm : contains m keyNotFoundErr = true
            · rw [if_pos hm, if_pos hm]; rfl
            · rw [if_neg hm, if_neg hm]; rfl
          | dropped m => rfl
          | exits m => rfl

/-- C81: the counting pages write what `handleCountEmail`, `handleCountAlgo` and `handleCountTimestamp` (C51, C63) say. -/
theorem C81_count_pages (hash : List Byte → List Byte) (mk : Int → Time) (exec : ClientFSS → Fate U32) (req : Request) :
    seen (countEmail hash exec req) = (handleCountEmail hash (fun q => seen (exec q)) req >>= fun l => ok (l.map written)) ∧
    seen (countAlgo exec req) = (handleCountAlgo (fun q => seen (exec q)) req >>= fun l => ok (l.map written)) ∧
    seen (countTimestamp mk exec req) =
      (handleCountTimestamp mk (fun q => seen (exec q)) req >>= fun l => ok (l.map written)) := by
  refine ⟨?_, ?_, ?_⟩
  · unfold countEmail handleCountEmail
    cases req.parse with
    | crash m => rfl
    | err m => rfl
    | ok u =>
      dsimp only
      by_cases h1 : req.value "position" = ""
      · rw [if_pos h1, if_pos h1]; rfl
      rw [if_neg h1, if_neg h1]
      by_cases h2 : req.value "text" = ""
      · rw [if_pos h2, if_pos h2]; rfl
      rw [if_neg h2, if_neg h2]
      by_cases h3 : req.value "position" ≠ "begin" ∧ req.value "position" ≠ "end"
      · rw [if_pos h3, if_pos h3]; rfl
      rw [if_neg h3, if_neg h3]
      generalize toEmailClientFSS hash _ _ = q
      cases q with
      | err m => rfl
      | crash m => rfl
      | ok q =>
        dsimp only [calls]
        rw [bind_done, ok_bind]
        cases exec q <;> rfl
  · unfold countAlgo handleCountAlgo
    cases req.parse with
    | crash m => rfl
    | err m => rfl
    | ok u =>
      dsimp only
      by_cases h1 : req.value "algo" = ""
      · rw [if_pos h1, if_pos h1]; rfl
      rw [if_neg h1, if_neg h1]
      generalize toPKAClientFSS _ _ = q
      cases q with
      | err m => rfl
      | crash m => rfl
      | ok q =>
        dsimp only [calls]
        rw [bind_done, ok_bind]
        cases exec q <;> rfl
  · unfold countTimestamp handleCountTimestamp creationQuery toCreationTime
    cases req.parse with
    | crash m => rfl
    | err m => rfl
    | ok u =>
      dsimp only
      by_cases h1 : req.value "year" = ""
      · rw [if_pos h1, if_pos h1]; rfl
      rw [if_neg h1, if_neg h1]
      cases atoi (req.value "year").toList with
      | err m => rfl
      | crash m => rfl
      | ok y =>
        dsimp only [fatal]
        rw [bind_done]
        generalize toCreationTimeClientFSS mk _ y = q
        cases q with
        | err m => rfl
        | crash m => rfl
        | ok q =>
          dsimp only [calls]
          rw [bind_done, ok_bind]
          cases exec q <;> rfl

/-- C81: the counts are those of `executeStatsQuery` (C63, C65). -/
theorem C81_counts (W : Predicate.World) (gob : Predicate.Msg → List Byte) (net : Net) (S : Schedule)
    (servers : List String) (q : ClientFSS) :
    seen (executeStatsQuery W gob net S servers q) = Client.executeStatsQuery W gob net S servers q :=
  seen_executeStatsQuery W gob net S servers q

/-- C81: a page with a count shows the count, as a decimal number. -/
theorem C81_count_shown (n : U32) : ∃ s, countText n = bytes ("count: " ++ s) ∧ Numeral s n.toNat :=
  ⟨_, rfl, numeral_toString (by have := n.isLt; omega)⟩

/-! ### Routing -/

/-- C81: which page a path leads to, and that the reply carries the visitor's identifier of the request if there is one. -/
theorem C81_routes (w : Site) (v : Visit) :
    (v.path = "/" → handle w v = .done ⟨if v.header = "" then v.clock else v.header, [.body w.index]⟩) ∧
    (v.path ∉ ["/", "/retrieve", "/count/email", "/count/algo", "/count/timestamp", "/static"] →
      ¬ "/static/".toList <+: v.path.toList →
      handle w v = .done ⟨if v.header = "" then v.clock else v.header, [.error 404 "404 not found"]⟩) ∧
    (∀ r, handle w v = .done r → r.requestId = if v.header = "" then v.clock else v.header) := by
  refine ⟨?_, ?_, ?_⟩
  · intro h
    have hs : serve w v = .done [.body w.index] := by
      unfold serve
      rw [h]
      rw [if_neg (by decide), if_neg (by decide), if_neg (by decide), if_neg (by decide), if_neg (by decide),
        if_neg (by decide), if_pos rfl]
    unfold handle
    rw [hs]
    rfl
  · intro h hs
    simp only [List.mem_cons, List.not_mem_nil, or_false, not_or] at h
    obtain ⟨h1, h2, h3, h4, h5, h6⟩ := h
    have hs : serve w v = .done [.error 404 "404 not found"] := by
      unfold serve
      rw [if_neg h2, if_neg h3, if_neg h4, if_neg h5, if_neg (by rw [List.isPrefixOf_iff_prefix]; exact hs), if_neg h6,
        if_neg h1]
    unfold handle
    rw [hs]
    rfl
  · intro r h
    unfold handle at h
    dsimp only at h
    generalize serve w v = s at h
    cases s <;> cases h
    rfl

/-! ### What ends the process -/

theorem lasts_exec_page {exec : ClientFSS → Fate U32} (he : ∀ q, Lasts (exec q)) (q : ClientFSS)
    (f : String → List Page) (g : U32 → List Page) :
    Lasts (match exec q with
      | .dropped m => Fate.dropped m
      | .exits m => Fate.exits m
      | .failed m => Fate.done (f m)
      | .done n => Fate.done (g n)) := by
  have := he q
  split
  · exact lasts_dropped _
  · rename_i m h; exact absurd h (this m)
  · exact lasts_done _
  · exact lasts_done _

/-- C81: with servers that answer every call, a visit ends the process exactly if it asks for a year that is not a number. In
particular nothing that the servers send does, and no e-mail, text or name of an algorithm. -/
theorem C81_ends_iff (w : Site) (h2 : w.complex.length = 2) (v : Visit) (hr : Responsive v.weather.net)
    (hS : Client.Spec.Fair v.weather.S) : (∃ m, handle w v = .exits m) ↔ BadYear v := by
  have hlen : ∀ l, (v.weather.S.infos l).length = l.length := fun l => (hS.infos l).length_eq
  have hstats := hr.stats v.weather.W w.gob v.weather.S hlen w.complex h2
  have hh : (∃ m, handle w v = .exits m) ↔ ∃ m, serve w v = .exits m := by
    unfold handle
    dsimp only
    cases serve w v with
    | done a => exact ⟨fun h => (by obtain ⟨m, h⟩ := h; cases h), fun h => (by obtain ⟨m, h⟩ := h; cases h)⟩
    | failed a => exact ⟨fun h => (by obtain ⟨m, h⟩ := h; cases h), fun h => (by obtain ⟨m, h⟩ := h; cases h)⟩
    | dropped a => exact ⟨fun h => (by obtain ⟨m, h⟩ := h; cases h), fun h => (by obtain ⟨m, h⟩ := h; cases h)⟩
    | exits a => exact ⟨fun _ => ⟨a, rfl⟩, fun _ => ⟨a, rfl⟩⟩
  rw [hh]
  constructor
  · rintro ⟨m, h⟩
    by_contra hb
    revert h
    revert m
    show Lasts (serve w v)
    unfold serve
    split
    · exact hr.retrieve _ _ _ _
    split
    · unfold countEmail
      split
      · exact lasts_dropped _
      · exact lasts_done _
      dsimp only
      split
      · exact lasts_done _
      split
      · exact lasts_done _
      split
      · exact lasts_done _
      exact Lasts.bind (lasts_calls _) (fun q _ => lasts_exec_page hstats q _ _)
    split
    · unfold countAlgo
      split
      · exact lasts_dropped _
      · exact lasts_done _
      dsimp only
      split
      · exact lasts_done _
      exact Lasts.bind (lasts_calls _) (fun q _ => lasts_exec_page hstats q _ _)
    split
    · rename_i hp
      unfold countTimestamp
      split
      · exact lasts_dropped _
      · exact lasts_done _
      rename_i hparse
      dsimp only
      split
      · exact lasts_done _
      rename_i hy
      refine Lasts.bind ?_ (fun q _ => lasts_exec_page hstats q _ _)
      unfold creationQuery
      have : ∃ y, Numeral (v.form.value "year") y := by
        by_contra hn
        exact hb ⟨hp, hparse, hy, hn⟩
      obtain ⟨y, hn⟩ := this
      rw [fatal_ok ((atoi_iff _ y).mpr hn), bind_done]
      exact lasts_calls _
    split
    · split <;> exact lasts_done _
    split
    · exact lasts_done _
    split <;> exact lasts_done _
  · rintro ⟨hp, hparse, hy, hn⟩
    unfold serve
    rw [hp]
    rw [if_neg (by decide), if_neg (by decide), if_neg (by decide), if_pos rfl]
    unfold countTimestamp
    rw [hparse]
    dsimp only
    rw [if_neg hy]
    unfold creationQuery
    cases ha : atoi (v.form.value "year").toList with
    | ok y => exact absurd ⟨y, (atoi_iff _ y).mp ha⟩ hn
    | err m => exact ⟨m, rfl⟩
    | crash m => exact absurd ha (atoi_not_crash _ m)

/-- C81: a call that fails ends the process: one server that is down for a moment, when somebody asks for a key. -/
theorem C81_failed_call_ends (w : Site) (v : Visit) (hp : v.path = "/retrieve") (hparse : v.form.parse = ok ())
    (he : v.form.value "email" ≠ "") (a : String) (ha : a ∈ w.point) (hfail : (v.weather.net.info a).isErr) :
    ∃ m, handle w v = .exits m := by
  have hg : ∃ m, gatherInfos v.weather.net v.weather.S w.point = crash m := by
    unfold gatherInfos
    have hne := mapM_not_err (f := fun a => orFatal (v.weather.net.info a)) (l := w.point) (fun a _ m => orFatal_not_err _ m)
    cases hm : w.point.mapM (fun a => orFatal (v.weather.net.info a)) with
    | err m => exact absurd hm (hne m)
    | crash m => exact ⟨m, rfl⟩
    | ok r =>
      exfalso
      have : ∀ (l : List String) (r : List DbInfo), l.mapM (fun a => orFatal (v.weather.net.info a)) = ok r → a ∉ l := by
        intro l
        induction l with
        | nil => intro r _ h; cases h
        | cons x l ih =>
          intro r h hmem
          rw [List.mapM_cons, bind_eq_ok] at h
          obtain ⟨y, h1, h⟩ := h
          rw [bind_eq_ok] at h
          obtain ⟨ys, h2, -⟩ := h
          rcases List.mem_cons.mp hmem with rfl | hmem
          · cases hx : v.weather.net.info a with
            | ok i => rw [hx] at hfail; simp at hfail
            | err m => rw [hx] at h1; cases h1
            | crash m => rw [hx] at h1; cases h1
          · exact ih ys h2 hmem
      exact this _ r hm ha
  obtain ⟨m, hg⟩ := hg
  refine ⟨m, ?_⟩
  unfold handle serve
  dsimp only
  rw [if_pos hp]
  unfold retrieve
  rw [hparse]
  dsimp only
  rw [if_neg he, hg]
  rfl

/-! ### The process -/

variable {w : Site} {p : Process}

theorem idForEmail_not_err (hash : List Byte → List Byte) (i : Query.Info) (e : List Byte) (m : String) :
    idForEmail hash i e ≠ err m := by
  have hslice : ∀ (l : List Byte) (a b : Nat) (m : String), slice l a b ≠ err m := by
    intro l a b m h
    unfold slice at h
    split at h <;> cases h
  have key : ∀ (l : List Byte) (a b : Nat), (do
      let part ← slice l a b
      let id ← byteToBits part
      ok (some id)) ≠ err m := by
    intro l a b h
    cases hs : slice l a b with
    | ok p => rw [hs, ok_bind, byteToBits_eq] at h; cases h
    | err m' => exact hslice _ _ _ _ hs
    | crash m' => rw [hs] at h; cases h
  unfold idForEmail
  intro h
  split at h
  · split at h
    · cases h
    split at h
    · cases h
    exact key _ _ _ h
  split at h
  · split at h
    · cases h
    split at h
    · cases h
    exact key _ _ _ h
  exact key _ _ _ h

theorem page_not_failed (x : Fate U32) (f : String → List Page) (g : U32 → List Page) (m : String) :
    (match x with
      | .dropped m => Fate.dropped m
      | .exits m => Fate.exits m
      | .failed m => Fate.done (f m)
      | .done n => Fate.done (g n)) ≠ .failed m := by
  cases x <;> intro h <;> cases h

theorem serve_not_failed (w : Site) (v : Visit) (m : String) : serve w v ≠ .failed m := by
  unfold serve
  split
  · unfold retrieve
    intro h
    split at h
    · cases h
    · cases h
    dsimp only at h
    split at h
    · cases h
    cases hg : gatherInfos v.weather.net v.weather.S w.point with
    | err m' => exact gatherInfos_not_err _ _ _ _ hg
    | crash m' => rw [hg] at h; cases h
    | ok infos =>
      rw [hg] at h
      dsimp only [fatal] at h
      rw [bind_done] at h
      split at h
      · cases h
      · cases h
      · cases h
      rename_i is _
      cases hi : idx is 0 with
      | ok i =>
        rw [hi] at h
        dsimp only [calls] at h
        rw [bind_done] at h
        split at h
        · cases h
        · split at h <;> cases h
        · cases h
        · cases h
      | err m' => unfold idx at hi; split at hi <;> cases hi
      | crash m' => rw [hi] at h; cases h
  split
  · unfold countEmail
    intro h
    split at h
    · cases h
    · cases h
    dsimp only at h
    split at h
    · cases h
    split at h
    · cases h
    split at h
    · cases h
    generalize hq : toEmailClientFSS _ _ _ = q at h
    cases q with
    | ok q => exact page_not_failed _ _ _ _ h
    | crash m' => cases h
    | err m' =>
      unfold toEmailClientFSS at hq
      generalize hi : idForEmail _ _ _ = i at hq
      cases i with
      | ok a => cases hq
      | crash a => cases hq
      | err a => exact idForEmail_not_err _ _ _ _ hi
  split
  · unfold countAlgo
    intro h
    split at h
    · cases h
    · cases h
    dsimp only at h
    split at h
    · cases h
    obtain ⟨q, hq⟩ : ∃ q, toPKAClientFSS ⟨2, 0, 0, false, false, false⟩ (v.form.value "algo") = ok q := by
      unfold toPKAClientFSS idForPubKeyAlgo
      dsimp only
      rw [byteToBits_eq]
      exact ⟨_, rfl⟩
    rw [hq] at h
    exact page_not_failed _ _ _ _ h
  split
  · unfold countTimestamp creationQuery
    intro h
    split at h
    · cases h
    · cases h
    dsimp only at h
    split at h
    · cases h
    cases hy : atoi (v.form.value "year").toList with
    | err m' => rw [hy] at h; cases h
    | crash m' => rw [hy] at h; cases h
    | ok y =>
      rw [hy] at h
      dsimp only [fatal] at h
      rw [bind_done] at h
      generalize hq : toCreationTimeClientFSS _ _ _ = q at h
      cases q with
      | ok q => exact page_not_failed _ _ _ _ h
      | crash m' => cases h
      | err m' =>
        unfold toCreationTimeClientFSS at hq
        dsimp only at hq
        split at hq <;> cases hq
  intro h
  split at h
  · split at h <;> cases h
  split at h
  · cases h
  split at h <;> cases h

theorem never_failed (w : Site) (v : Visit) (m : String) : handle w v ≠ .failed m := by
  intro h
  unfold handle at h
  dsimp only at h
  have := serve_not_failed w v
  generalize serve w v = s at h this
  cases s with
  | failed m' => exact this m' rfl
  | done a => cases h
  | dropped a => cases h
  | exits a => cases h

/-- C81: in every history, a request that has a reply has the reply of its own handler, and a connection is closed without
a reply only if its own handler does not return; other requests make no difference. -/
theorem C81_own_reply (h : Reach w p) : ∀ v ∈ p.visits,
    (∀ r, v.2 = .answered r → handle w v.1 = .done r) ∧
    (v.2 = .closed → ∃ m, handle w v.1 = .dropped m) := by
  induction h with
  | start => simp
  | step p q _ hs ih =>
    have key : ∀ (i : Nat) (v : Visit) (x : Progress), p.visits[i]? = some (v, .serving) →
        ((∀ r, x = .answered r → handle w v = .done r) ∧
          (x = .closed → ∃ m, handle w v = .dropped m)) →
        ∀ u ∈ p.visits.set i (v, x), (∀ r, u.2 = .answered r → handle w u.1 = .done r) ∧
          (u.2 = .closed → ∃ m, handle w u.1 = .dropped m) := by
      intro i v x _ hx u hu
      rcases List.mem_or_eq_of_mem_set hu with hu | rfl
      · exact ih u hu
      · exact hx
    cases hs with
    | arrive v hu =>
      intro u hu
      rcases List.mem_append.mp hu with hu | hu
      · exact ih u hu
      · rw [List.mem_singleton] at hu
        subst hu
        exact ⟨fun r h => (by cases h), fun h => (by cases h)⟩
    | reply i v r hu hv hh =>
      exact key i v _ hv ⟨fun r' h => (by cases h; exact hh), fun h => (by cases h)⟩
    | fail i v m hu hv hh =>
      exact key i v _ hv ⟨fun r' h => (by cases h), fun _ => absurd hh (never_failed w v m)⟩
    | drop i v m hu hv hh =>
      exact key i v _ hv ⟨fun r' h => (by cases h), fun _ => ⟨m, hh⟩⟩
    | exit i v m hu hv hh => exact ih

/-- A process that is down has been ended by one of its visits. -/
theorem down_by_visit (h : Reach w p) (hd : p.up = false) : ∃ v ∈ p.visits, ∃ m, handle w v.1 = .exits m := by
  induction h with
  | start => cases hd
  | step p q _ hs ih =>
    cases hs with
    | arrive v hu => rw [show p.up = false from hd] at hu; cases hu
    | reply i v r hu hv hh => rw [show p.up = false from hd] at hu; cases hu
    | fail i v m hu hv hh => rw [show p.up = false from hd] at hu; cases hu
    | drop i v m hu hv hh => rw [show p.up = false from hd] at hu; cases hu
    | exit i v m hu hv hh => exact ⟨(v, .serving), List.mem_of_getElem? hv, m, hh⟩

theorem set_ne {α : Type _} {l : List α} {i : Nat} {a b : α} (h : l[i]? = some a) (hab : a ≠ b) : ¬ l <+: l.set i b := by
  intro hp
  have := hp.eq_of_length (by simp)
  have h2 : (l.set i b)[i]? = some b := by
    have := (List.getElem?_eq_some_iff.mp h).1
    rw [List.getElem?_set_self this]
  rw [← this, h] at h2
  exact hab (Option.some.inj h2)

/-- C81: with servers that answer every call, and as long as nobody asks for a year that is not a number, the process stays
up, and when all handlers have come to their end every request has got its own reply, or its connection was closed because its
handler panicked. Missing from the full claim: bad years, see `C81_refuted`, and the panics, which servers can cause
(C12). -/
theorem C81_stays_up_partial (h2 : w.complex.length = 2) (h : Reach w p)
    (hr : ∀ v ∈ p.visits, Responsive v.1.weather.net ∧ Client.Spec.Fair v.1.weather.S ∧ ¬ BadYear v.1) :
    p.up = true ∧ (Quiet w p → ∀ v ∈ p.visits, (∃ r, v.2 = .answered r ∧ handle w v.1 = .done r) ∨
      (v.2 = .closed ∧ ∃ m, handle w v.1 = .dropped m)) := by
  have hup : p.up = true := by
    cases hu : p.up with
    | true => rfl
    | false =>
      obtain ⟨v, hv, hm⟩ := down_by_visit h hu
      obtain ⟨h1, h3, h4⟩ := hr v hv
      exact absurd ((C81_ends_iff w h2 v.1 h1 h3).mp hm) h4
  refine ⟨hup, fun hq v hv => ?_⟩
  obtain ⟨ho, hc⟩ := C81_own_reply h v hv
  obtain ⟨v, x⟩ := v
  cases x with
  | answered r => exact Or.inl ⟨r, rfl, ho r rfl⟩
  | closed => exact Or.inr ⟨rfl, hc rfl⟩
  | serving =>
    exfalso
    obtain ⟨i, hi, he⟩ := List.mem_iff_getElem.mp hv
    have hi' : p.visits[i]? = some (v, .serving) := by rw [List.getElem?_eq_getElem hi, he]
    cases hh : handle w v with
    | done r => exact set_ne hi' (by simp) (hq _ (.reply p i v r hup hi' hh)).2.1
    | failed m => exact set_ne hi' (by simp) (hq _ (.fail p i v m hup hi' hh)).2.1
    | dropped m => exact set_ne hi' (by simp) (hq _ (.drop p i v m hup hi' hh)).2.1
    | exits m =>
      have := (hq _ (.exit p i v m hup hi' hh)).1
      rw [hup] at this
      cases this

/-- C81: a single visit with a bad year ends the service of everybody: whenever it is being served the process can
go down at once, and when no handler can go on any more the process is down, so that nobody is let in. -/
theorem C81_bad_year_ends (h2 : w.complex.length = 2) (v : Visit) (hv : (v, .serving) ∈ p.visits)
    (hr : Responsive v.weather.net) (hS : Client.Spec.Fair v.weather.S) (hb : BadYear v) :
    (p.up = true → Step w p { p with up := false }) ∧ (Quiet w p → p.up = false ∧ ∀ q, ¬ Step w p q) := by
  obtain ⟨m, hm⟩ := (C81_ends_iff w h2 v hr hS).mpr hb
  obtain ⟨i, hi, he⟩ := List.mem_iff_getElem.mp hv
  have hi' : p.visits[i]? = some (v, .serving) := by rw [List.getElem?_eq_getElem hi, he]
  refine ⟨fun hu => .exit p i v m hu hi' hm, fun hq => ?_⟩
  cases hu : p.up with
  | true =>
    have := (hq _ (.exit p i v m hu hi' hm)).1
    rw [hu] at this
    cases this
  | false =>
    refine ⟨rfl, fun q hs => ?_⟩
    cases hs <;> simp_all

/-- C81: and a visit that is never answered stays so. -/
theorem C81_no_reply_after (hd : p.up = false) (q : Process) : ¬ Step w p q := by
  intro hs
  cases hs <;> simp_all

/-! ### Witnesses -/

/-- A network whose servers answer nothing useful. -/
def emptyNet : Net := ⟨fun _ => ok (), fun _ => ok ⟨0, 0, 0, "", [], 0⟩, fun _ _ => ok []⟩

def inOrder : Schedule := ⟨id, id, id⟩

theorem emptyNet_responsive : Responsive emptyNet := ⟨fun _ => ⟨_, rfl⟩, fun _ _ => ⟨_, rfl⟩⟩

theorem inOrder_fair : Client.Spec.Fair inOrder := ⟨fun _ => .refl _, fun _ => .refl _, fun _ => .refl _⟩

def exWeather : Weather := ⟨emptyNet, inOrder, exWorld⟩

/-- A site with two predicate servers. -/
def exSite : Site := ⟨exLib Point.plainDpf, fun _ => [], fun d => ⟨d, ok [1]⟩, ["a", "b"], ["c", "d"], [60], fun _ => none⟩

/-- Somebody asks for the start page. -/
def caller : Visit := ⟨"/", ⟨ok (), fun _ => ""⟩, "", "1", exWeather⟩

/-- Somebody asks for the year "next". -/
def joker : Visit := ⟨"/count/timestamp", ⟨ok (), fun _ => "next"⟩, "", "2", exWeather⟩

theorem joker_bad : BadYear joker := by
  refine ⟨rfl, rfl, by decide, ?_⟩
  rintro ⟨y, hy⟩
  have := (atoi_iff "next" y).mpr hy
  rw [show atoi "next".toList = err "invalid syntax" by decide] at this
  cases this

/-- The start page is asked for, then the bad year; the handler of the latter is faster. -/
theorem C81_lost : ∃ p, Reach exSite p ∧ p = ⟨false, [(caller, .serving), (joker, .serving)]⟩ := by
  have r1 := Reach.step _ _ (Reach.start (w := exSite)) (.arrive _ caller rfl)
  have r2 := Reach.step _ _ r1 (.arrive _ joker rfl)
  obtain ⟨m, hm⟩ := (C81_ends_iff exSite rfl joker emptyNet_responsive inOrder_fair).mpr joker_bad
  exact ⟨_, Reach.step _ _ r2 (.exit _ 1 joker m rfl rfl hm), rfl⟩

/-- C81 as claimed is false. -/
theorem C81_refuted : ¬ C81_Statement := by
  intro h
  obtain ⟨p, hr, rfl⟩ := C81_lost
  obtain ⟨r, hr⟩ := h exSite rfl _ hr (by
    intro v hv
    simp only [List.mem_cons, List.not_mem_nil, or_false] at hv
    rcases hv with rfl | rfl <;> exact ⟨emptyNet_responsive, inOrder_fair⟩)
    (fun q hq => absurd hq (C81_no_reply_after rfl q)) (caller, .serving) (by simp)
  cases hr

/-- The hypotheses of `C81_stays_up_partial` are met by a history with a reply. -/
example : ∃ p, Reach exSite p ∧ p.up = true ∧ p.visits = [(caller, .answered ⟨"1", [.body [60]]⟩)] ∧
    (∀ v ∈ p.visits, Responsive v.1.weather.net ∧ Client.Spec.Fair v.1.weather.S ∧ ¬ BadYear v.1) := by
  have r1 := Reach.step _ _ (Reach.start (w := exSite)) (.arrive _ caller rfl)
  have r2 := Reach.step _ _ r1 (.reply _ 0 caller ⟨"1", [.body [60]]⟩ rfl rfl ((C81_routes exSite caller).1 rfl))
  refine ⟨_, r2, rfl, rfl, ?_⟩
  intro v hv
  simp only [List.nil_append, List.set_cons_zero, List.mem_singleton] at hv
  subst hv
  exact ⟨emptyNet_responsive, inOrder_fair, fun hb => absurd hb.1 (by decide)⟩

/-- A server that is down, as in `C81_failed_call_ends`. -/
example : ∃ m, handle exSite ⟨"/retrieve", ⟨ok (), fun _ => "a@b.c"⟩, "", "1",
    ⟨⟨fun _ => ok (), fun _ => err "unavailable", fun _ _ => ok []⟩, inOrder, exWorld⟩⟩ = .exits m :=
  C81_failed_call_ends exSite _ rfl rfl (by decide) "a" (by decide) (by simp)

example : Numeral "-12" (-12) := (atoi_iff _ _).mp (by decide)

end Verif.Web
