import Verif.Spec.Interactive
import Verif.Props.ClientPrivacy
import Verif.Props.Web

/-! # C83: the interactive client as a program -/

namespace Verif.Interactive
open Res Verif.Cmd Verif.Cmd.Spec Verif.Client Verif.Pgp Verif.Query Verif.Web Verif.Web.Spec Verif.Interactive.Spec Verif.Utils

/-- C83 as claimed: the program works with the servers that its environment names, and whatever is asked, in whatever order, it
does not vanish without telling the user why, as long as these servers answer every call. -/
def C83_Statement : Prop :=
  ∀ (L : Lib) (gob : Predicate.Msg → List Byte) (date : Int → Time) (u : Surroundings) (point complex : List String),
    Configured u point complex → ∀ inputs : List (Input × Weather),
    (∀ i ∈ inputs, Responsive i.2.net ∧ Client.Spec.Fair i.2.S) →
    program L gob date u inputs = session ⟨L, gob, date, point, complex⟩ inputs ∧ (program L gob date u inputs).2 ≠ .silent

/-! ### The start -/

theorem loadManager_static (addresses : List String) (name : String) (u : Surroundings) :
    loadManager staticConfig addresses name u = ok addresses := by
  unfold loadManager staticConfig
  rw [if_neg (by simp), if_pos rfl]

/-- C83: the environment and the configuration files make no difference. -/
theorem C83_environment_ignored (L : Lib) (gob : Predicate.Msg → List Byte) (date : Int → Time) (u u' : Surroundings)
    (h : u.dial = u'.dial) (inputs : List (Input × Weather)) :
    program L gob date u inputs = program L gob date u' inputs := by
  unfold program start startWith
  simp only [loadManager_static, h]

theorem connectActor_iff {dial : String → Res Unit} {l l' : List String} :
    connectActor dial l = ok l' ↔ l' = l ∧ ∀ a ∈ l, dial a = ok () := by
  constructor
  · intro h
    unfold connectActor at h
    induction l generalizing l' with
    | nil => cases h; exact ⟨rfl, by simp⟩
    | cons x l ih =>
      rw [List.mapM_cons] at h
      simp only [bind_eq_ok] at h
      obtain ⟨_, ⟨u, hu, hx⟩, ys, hys, h⟩ := h
      cases hx
      obtain ⟨rfl, hl⟩ := ih hys
      cases h
      refine ⟨rfl, fun a ha => ?_⟩
      rcases List.mem_cons.1 ha with rfl | ha
      · exact hu
      · exact hl a ha
  · rintro ⟨rfl, h⟩
    exact connectActor_spec h

theorem orExit_done {α : Type _} {r : Res α} {a : α} : orExit r = .done a ↔ r = ok a := by
  cases r <;> simp [orExit]

theorem bind_eq_done {α β : Type _} {x : Fate α} {f : α → Fate β} {b : β} :
    (x >>= f) = .done b ↔ ∃ a, x = .done a ∧ f a = .done b := by
  cases x <;> simp

/-- C83: the program starts exactly if the four compiled-in addresses can be reached, and works with these. -/
theorem C83_start_iff (u : Surroundings) (point complex : List String) :
    start u = .done (point, complex) ↔
      point = staticPoint ∧ complex = staticComplex ∧ ∀ a ∈ staticPoint ++ staticComplex, u.dial a = ok () := by
  unfold start startWith
  simp only [loadManager_static, bind_eq_done, orExit_done, connectActor_iff]
  constructor
  · rintro ⟨p, hp, c, hc, p', ⟨rfl, h1⟩, c', ⟨rfl, h2⟩, h⟩
    cases hp
    cases hc
    cases h
    refine ⟨rfl, rfl, fun a ha => ?_⟩
    rcases List.mem_append.1 ha with ha | ha
    · exact h1 a ha
    · exact h2 a ha
  · rintro ⟨rfl, rfl, h⟩
    exact ⟨_, rfl, _, rfl, _, ⟨rfl, fun a ha => h a (List.mem_append_left _ ha)⟩, _,
      ⟨rfl, fun a ha => h a (List.mem_append_right _ ha)⟩, rfl⟩

theorem connectActor_not_crash {dial : String → Res Unit} (h : ∀ a m, dial a ≠ crash m) (l : List String) (m : String) :
    connectActor dial l ≠ crash m := by
  unfold connectActor
  induction l generalizing m with
  | nil => intro h; cases h
  | cons x l ih =>
    rw [List.mapM_cons]
    cases hx : dial x with
    | crash m => exact absurd hx (h x m)
    | err m => intro h; cases h
    | ok u =>
      rw [ok_bind, ok_bind]
      cases hl : l.mapM (fun s => do
          let _ ← dial s
          ok s) with
      | crash m => exact absurd hl (ih m)
      | err m => intro h; cases h
      | ok ys => intro h; cases h

/-- C83: if one of them cannot be reached, the program ends at once and without a word, whatever the environment says. -/
theorem C83_unreachable (L : Lib) (gob : Predicate.Msg → List Byte) (date : Int → Time) (u : Surroundings)
    (hd : ∀ a m, u.dial a ≠ crash m) {a : String} (ha : a ∈ staticPoint ++ staticComplex) (h : u.dial a ≠ ok ())
    (inputs : List (Input × Weather)) : program L gob date u inputs = ([], .silent) := by
  unfold program
  cases hs : start u with
  | done pc =>
    obtain ⟨p, c⟩ := pc
    exact absurd (((C83_start_iff u p c).1 hs).2.2 a ha) h
  | failed m => rfl
  | exits m => rfl
  | dropped m =>
    exfalso
    unfold start startWith at hs
    simp only [loadManager_static, orExit, bind_done] at hs
    cases h1 : connectActor u.dial staticPoint with
    | crash m => exact connectActor_not_crash hd _ m h1
    | err m => rw [h1] at hs; cases hs
    | ok p =>
      rw [h1] at hs
      dsimp only at hs
      rw [bind_done] at hs
      cases h2 : connectActor u.dial staticComplex with
      | crash m => exact connectActor_not_crash hd _ m h2
      | err m => rw [h2] at hs; cases hs
      | ok c => rw [h2] at hs; cases hs

/-- C83: without the compiled-in configuration (`staticConfig` set to false) the program would work with the servers named by
its environment. -/
theorem C83_configured_partial (u : Surroundings) (point complex : List String) (h : Configured u point complex) :
    startWith false u = .done (point, complex) := by
  unfold startWith loadManager
  rw [if_neg (by simp [h.named.1]), if_neg (by simp), if_neg (by simp [h.named.2]), if_neg (by simp), h.pointFile, h.complexFile]
  simp only [orExit, bind_done]
  rw [connectActor_spec (fun a ha => h.reached a (List.mem_append_left _ ha)),
    connectActor_spec (fun a ha => h.reached a (List.mem_append_right _ ha))]
  rfl

/-! ### Single requests are those of the other properties -/

theorem db_not_equal : contains "db not equal" keyNotFoundErr = false := by decide +kernel

theorem getDBInfos_err {l : List DbInfo} {m : String} (h : getDBInfos l = err m) : m = "db not equal" := by
  unfold getDBInfos at h
  split at h
  · cases h; rfl
  · cases l with
    | nil => cases h
    | cons x l => cases h

/-- C83: a download prints the key or that there is none exactly if `downloadKey` (C60, C62) says so. -/
theorem C83_download (d : Desk) (w : Weather) (email : String) :
    (∀ k, Client.downloadKey d.L w.net w.S d.point email = ok (.result k) ↔
      download d w (some email) = ([bytes ("email is " ++ email), bytes "Result: " ++ k, bytes "done."], .done ())) ∧
    (Client.downloadKey d.L w.net w.S d.point email = ok .noKey ↔
      download d w (some email) =
        ([bytes ("email is " ++ email), bytes "No key is found for the given email", bytes "done."], .done ())) ∧
    ((∀ s, Client.downloadKey d.L w.net w.S d.point email ≠ ok s) ↔
      (download d w (some email)).1 = [bytes ("email is " ++ email)] ∧ (download d w (some email)).2 ≠ .done ()) := by
  have hne : bytes "Result: " ≠ [] := by decide +kernel
  have hdiff : ∀ k, bytes "Result: " ++ k ≠ bytes "No key is found for the given email" := by
    intro k h
    have : (bytes "Result: " ++ k).head? = (bytes "No key is found for the given email").head? := by rw [h]
    rw [List.head?_append] at this
    revert this
    have h1 : (bytes "Result: ").head? = some 82 := by decide +kernel
    have h2 : (bytes "No key is found for the given email").head? = some 78 := by decide +kernel
    rw [h1, h2]
    simp
  have hseen : Client.downloadKey d.L w.net w.S d.point email =
      (seen (fetch d w email) >>= fun r => match r with
        | ok k => ok (.result k)
        | err m => if contains m keyNotFoundErr then ok .noKey else err m
        | crash m => crash m) := by
    unfold Client.downloadKey actorLookup fetch
    rw [seen_bind, seen_fatal, orFatal_eq (gatherInfos_not_err w.net w.S d.point)]
    cases hgi : gatherInfos w.net w.S d.point with
    | err m => exact absurd hgi (gatherInfos_not_err w.net w.S d.point m)
    | crash m => rfl
    | ok infos =>
      rw [ok_bind, ok_bind, seen_bind, seen_calls]
      cases hg : getDBInfos infos with
      | err m =>
        rw [getDBInfos_err hg]
        change (if contains "db not equal" keyNotFoundErr then _ else _) = _
        rw [db_not_equal]
        rfl
      | crash m => rfl
      | ok infos =>
        rw [ok_bind, ok_bind, seen_bind, seen_calls]
        cases hx : idx infos 0 with
        | err m => cases infos <;> cases hx
        | crash m => rfl
        | ok info =>
          rw [ok_bind, ok_bind, ← seen_getKey]
          cases getKey d.L w.net w.S d.point (pointInfo info) (bytes email) with
          | done k => rfl
          | failed m => rfl
          | dropped m => rfl
          | exits m => rfl
  rw [hseen]
  unfold download
  dsimp only
  cases fetch d w email with
  | failed m => simp [seen]
  | dropped m => simp [seen]
  | exits m => simp [seen]
  | done r =>
    simp only [seen, ok_bind]
    cases r with
    | crash m => simp
    | ok k =>
      simp [hdiff]
    | err m =>
      by_cases hm : contains m keyNotFoundErr = true
      · simp only [hm, if_true]
        refine ⟨fun k => ?_, by simp, by simp⟩
        simp [fun h => (hdiff k).symm h]
      · simp [hm]

/-- C83: statistics print the line of `showStats` (C63) if there is one, unless the year is asked for again. -/
theorem C83_stats (d : Desk) (w : Weather) (c : Choice) (hc : rejected c = false) :
    (∀ line, showStats w.W d.gob d.date w.net w.S d.complex c = ok line →
      statistics d w (some c) = ([bytes line], .done ())) ∧
    ((∀ line, showStats w.W d.gob d.date w.net w.S d.complex c ≠ ok line) →
      (statistics d w (some c)).1 = [] ∧ (statistics d w (some c)).2 ≠ .done ()) := by
  have hseen : Client.getStats w.W d.gob d.date w.net w.S d.complex c = seen (do
      let q ← calls (interactiveQuery w.W.hash d.date c)
      Web.executeStatsQuery w.W d.gob w.net w.S d.complex q : Fate U32) := by
    unfold Client.getStats
    rw [seen_bind, seen_calls]
    congr 1
    funext q
    rw [seen_executeStatsQuery]
  unfold showStats statistics
  rw [hseen]
  dsimp only
  rw [hc, if_neg (by simp)]
  generalize (do
      let q ← calls (interactiveQuery w.W.hash d.date c)
      Web.executeStatsQuery w.W d.gob w.net w.S d.complex q : Fate U32) = f
  cases f with
  | done n =>
    refine ⟨fun line h => ?_, fun h => absurd rfl (h _)⟩
    cases h
    rfl
  | failed m => exact ⟨fun line h => by (cases h), fun _ => ⟨rfl, by simp⟩⟩
  | dropped m => exact ⟨fun line h => by (cases h), fun _ => ⟨rfl, by simp⟩⟩
  | exits m => exact ⟨fun line h => by (cases h), fun _ => ⟨rfl, by simp⟩⟩

/-- C83: a year is asked for again exactly if it is not the numeral of a number that is not negative; nothing is sent. -/
theorem C83_year (d : Desk) (w : Weather) (year : String) :
    (rejected (.countCreation year) = true ↔ ¬ ∃ y, Numeral year y ∧ 0 ≤ y) ∧
    (rejected (.countCreation year) = true →
      statistics d w (some (.countCreation year)) = ([bytes "please enter a positive integer"], .done ())) := by
  constructor
  · unfold rejected
    dsimp only
    cases ha : atoi year.toList with
    | ok y =>
      have hy := (atoi_iff year y).1 ha
      rw [decide_eq_true_eq]
      constructor
      · rintro h ⟨z, hz, h0⟩
        rw [(atoi_iff year z).2 hz] at ha
        cases ha
        omega
      · intro h
        by_contra hc
        exact h ⟨y, hy, by omega⟩
    | err m =>
      refine ⟨fun _ => ?_, fun _ => rfl⟩
      rintro ⟨z, hz, -⟩
      rw [(atoi_iff year z).2 hz] at ha
      cases ha
    | crash m => exact absurd ha (atoi_not_crash _ _)
  · intro h
    unfold statistics
    dsimp only
    rw [if_pos h]

/-! ### Histories -/

/-- C83: requests that come to their end are independent of each other: after any number of them the user has read what each of
them prints alone, in order, and the program goes on. -/
theorem C83_history_partial (d : Desk) (history : List (Input × Weather × List (List Byte)))
    (h : ∀ r ∈ history, Alone d r.2.1 r.1 r.2.2) (rest : List (Input × Weather)) :
    session d (history.map (fun r => (r.1, r.2.1)) ++ rest) =
      ((history.map (fun r => r.2.2)).flatten ++ (session d rest).1, (session d rest).2) := by
  induction history with
  | nil => rfl
  | cons r history ih =>
    obtain ⟨i, w, out⟩ := r
    have hr := h (i, w, out) (by simp)
    have ih := ih (fun r hr => h r (by simp [hr]))
    rw [List.map_cons, List.cons_append, List.map_cons, List.flatten_cons, List.append_assoc]
    dsimp only at hr ⊢
    cases hr with
    | download email _ hd =>
      rw [session, hd]
      dsimp only
      rw [ih]
    | stats c _ hd =>
      rw [session, hd]
      dsimp only
      rw [ih]

/-- C83: after `exit`, or if the menu fails, nothing more is done. -/
theorem C83_end (d : Desk) (w : Weather) (rest : List (Input × Weather)) (m : String) :
    session d ((.exit, w) :: rest) = ([bytes "bye 👋"], .bye) ∧ session d ((.noMenu m, w) :: rest) = ([bytes m], .quit) :=
  ⟨rfl, rfl⟩

/-- C83: any error in a download other than a missing key makes the program vanish: the user reads nothing but the e-mail just
entered. -/
theorem C83_error_silent (d : Desk) (w : Weather) (email m : String)
    (h : Client.downloadKey d.L w.net w.S d.point email = err m) (rest : List (Input × Weather)) :
    session d ((.download (some email), w) :: rest) = ([bytes ("email is " ++ email)], .silent) := by
  have hseen : ∃ m', fetch d w email = .failed m' ∨
      ∃ m'', fetch d w email = .done (err m'') ∧ contains m'' keyNotFoundErr = false := by
    unfold Client.downloadKey actorLookup at h
    unfold fetch
    cases hgi : gatherInfos w.net w.S d.point with
    | err m => exact absurd hgi (gatherInfos_not_err w.net w.S d.point m)
    | crash m => rw [hgi] at h; cases h
    | ok infos =>
      rw [hgi, ok_bind] at h
      simp only [fatal, bind_done]
      cases hg : getDBInfos infos with
      | err m => exact ⟨m, Or.inl rfl⟩
      | crash m => rw [hg] at h; cases h
      | ok infos =>
        rw [hg, ok_bind] at h
        simp only [calls, bind_done]
        cases hx : idx infos 0 with
        | err m => cases infos <;> cases hx
        | crash m => rw [hx] at h; cases h
        | ok info =>
          rw [hx, ok_bind, ← seen_getKey] at h
          simp only [bind_done]
          cases hk : getKey d.L w.net w.S d.point (pointInfo info) (bytes email) with
          | done k => rw [hk] at h; cases h
          | failed m' =>
            rw [hk] at h
            dsimp only [seen] at h
            refine ⟨m', Or.inr ⟨m', rfl, ?_⟩⟩
            by_contra hc
            rw [if_pos (by simpa using hc)] at h
            cases h
          | dropped m => rw [hk] at h; cases h
          | exits m => rw [hk] at h; cases h
  rw [session]
  unfold download
  dsimp only
  rcases hseen with ⟨m', h | ⟨m'', h, hc⟩⟩
  · rw [h]
  · rw [h]
    dsimp only
    rw [hc, if_neg (by simp)]

/-- C83: in particular, if the descriptions of the database that the servers send differ. -/
theorem C83_disagreement_silent (d : Desk) (w : Weather) (email : String) {infos : List DbInfo}
    (hg : gatherInfos w.net w.S d.point = ok infos) (hne : equalDBInfo infos = false) (rest : List (Input × Weather)) :
    session d ((.download (some email), w) :: rest) = ([bytes ("email is " ++ email)], .silent) := by
  refine C83_error_silent d w email "db not equal" ?_ rest
  unfold Client.downloadKey actorLookup
  rw [hg, ok_bind]
  unfold getDBInfos
  rw [hne, if_pos rfl]
  change (if contains "db not equal" keyNotFoundErr then _ else _) = _
  rw [db_not_equal]
  rfl

/-- C83: and if a server is caught: an answer that does not verify is an error, which the user does not get to read. -/
theorem C83_rejected_silent (d : Desk) (w : Weather) (email : String) {infos : List DbInfo} {info : DbInfo}
    (hg : gatherInfos w.net w.S d.point = ok infos) (hi : getDBInfos infos = ok infos) (h0 : infos.head? = some info)
    {qs : List (List Byte)} {st : Point.State} (hq : lookupQueries d.L d.point.length (pointInfo info) (bytes email) = ok (qs, st))
    {answers : List (List Byte)} (ha : runQueriesActor w.net w.S d.point qs = ok answers)
    (hr : MerklePir.reconstructPIR d.L.H answers (pointInfo info) st = err "REJECT!") (rest : List (Input × Weather)) :
    session d ((.download (some email), w) :: rest) = ([bytes ("email is " ++ email)], .silent) := by
  refine C83_error_silent d w email "REJECT!" ?_ rest
  have hx : idx infos 0 = ok info := by
    cases infos with
    | nil => cases h0
    | cons x l => cases h0; rfl
  unfold Client.downloadKey actorLookup
  rw [hg, ok_bind, hi, ok_bind, hx, ok_bind]
  unfold Client.lookup
  rw [hq, ok_bind]
  dsimp only
  rw [ha, ok_bind, hr]
  change (if contains "REJECT!" keyNotFoundErr then _ else _) = _
  rw [show contains "REJECT!" keyNotFoundErr = false by decide +kernel]
  rfl

/-- C83: an interrupted prompt inside of a request ends the program in the same way. -/
theorem C83_prompt_silent (d : Desk) (w : Weather) (rest : List (Input × Weather)) :
    session d ((.download none, w) :: rest) = ([], .silent) ∧ session d ((.stats none, w) :: rest) = ([], .silent) :=
  ⟨rfl, rfl⟩

/-- C83: the two compiled-in point servers, if they are honest servers as started by cmd/grpc/server, never give a key: the keys of
the distributed point function are shorter than the selection vectors such servers expect (C60). -/
theorem C83_as_delivered_no_key (L : Lib) (gob : Predicate.Msg → List Byte) (date : Int → Time) (u : Surroundings) (d : Desk)
    (hstart : start u = .done (d.point, d.complex)) (hL : d.L = L) (w : Weather) (hS : Client.Spec.Fair w.S) (db : Database.Bytes)
    (hdesc : Client.Spec.Describable db) (hR : 0 < db.info.numRows)
    (hshort : ∀ α logN k0 k1, L.dpf.gen α logN = ok (k0, k1) → 8 * k0.length < db.info.numColumns)
    (hserv : Client.Spec.PointServers w.net L.dpf 0 db staticPoint) (email : String) (k : List Byte) :
    download d w (some email) ≠ ([bytes ("email is " ++ email), bytes "Result: " ++ k, bytes "done."], .done ()) := by
  intro h
  have hp := ((C83_start_iff u d.point d.complex).1 hstart).1
  subst hL
  have := ((C83_download d w email).1 k).2 h
  rw [hp] at this
  exact (C60_two_servers_show_nothing d.L w.W gob date w.net w.S hS db hdesc hR hshort staticPoint rfl hserv email).2.1
    ⟨k, this⟩

/-- C83: which addresses these are: in the source file, ports 50050 and 50051 for keys, 50040 and 50041 for statistics. -/
theorem C83_addresses (u : Surroundings) (d : List String × List String) (h : start u = .done d) :
    d = (["128.179.33.63:50050", "128.179.33.75:50051"], ["128.179.33.63:50040", "128.179.33.75:50041"]) := by
  obtain ⟨p, c⟩ := d
  obtain ⟨rfl, rfl, -⟩ := (C83_start_iff u p c).1 h
  rfl

/-- C83: a start that fails ends the process; no error is handed on. -/
theorem C83_start_not_failed (u : Surroundings) (m : String) : start u ≠ .failed m := by
  have h : ∀ {α : Type} (r : Res α), orExit r ≠ .failed m := by intro α r; cases r <;> simp [orExit]
  unfold start startWith
  simp only [loadManager_static]
  intro hs
  rw [show orExit (ok staticPoint) = Fate.done staticPoint from rfl,
    show orExit (ok staticComplex) = Fate.done staticComplex from rfl, bind_done, bind_done] at hs
  cases h1 : orExit (connectActor u.dial staticPoint) with
  | failed m' => cases hc : connectActor u.dial staticPoint <;> rw [hc] at h1 <;> cases h1
  | exits m' => rw [h1] at hs; cases hs
  | dropped m' => rw [h1] at hs; cases hs
  | done p =>
    rw [h1, bind_done] at hs
    cases h2 : orExit (connectActor u.dial staticComplex) with
    | failed m' => cases hc : connectActor u.dial staticComplex <;> rw [hc] at h2 <;> cases h2
    | exits m' => rw [h2] at hs; cases hs
    | dropped m' => rw [h2] at hs; cases hs
    | done c => rw [h2] at hs; cases hs

theorem gatherInfos_fails {net : Net} {S : Schedule} {servers : List String} {a : String} (ha : a ∈ servers)
    (h : ∀ i, net.info a ≠ ok i) : ∃ m, gatherInfos net S servers = crash m := by
  have hm : ∀ l : List String, a ∈ l → ∃ m, l.mapM (fun a => orFatal (net.info a)) = crash m := by
    intro l
    induction l with
    | nil => simp
    | cons x l ih =>
      intro hx
      rw [List.mapM_cons]
      cases hi : net.info x with
      | err m => exact ⟨m, by simp [orFatal]⟩
      | crash m => exact ⟨m, by simp [orFatal]⟩
      | ok i =>
        rcases List.mem_cons.1 hx with rfl | hx
        · exact absurd hi (h i)
        · obtain ⟨m, hm⟩ := ih hx
          exact ⟨m, by rw [show orFatal (ok i) = ok i from rfl, ok_bind, hm]; rfl⟩
  obtain ⟨m, hm⟩ := hm servers ha
  exact ⟨m, by rw [gatherInfos, hm]; rfl⟩

/-- C83: a server that cannot be asked ends the program silently, in a download and in a query that is sent. -/
theorem C83_failing_call_silent (d : Desk) (w : Weather) (rest : List (Input × Weather)) :
    (∀ a ∈ d.point, (∀ i, w.net.info a ≠ ok i) → ∀ email,
      session d ((.download (some email), w) :: rest) = ([bytes ("email is " ++ email)], .silent)) ∧
    (∀ a ∈ d.complex, (∀ i, w.net.info a ≠ ok i) → ∀ c q, rejected c = false → interactiveQuery w.W.hash d.date c = ok q →
      session d ((.stats (some c), w) :: rest) = ([], .silent)) := by
  constructor
  · intro a ha h email
    obtain ⟨m, hm⟩ := gatherInfos_fails (S := w.S) ha h
    have hf : fetch d w email = .exits m := by
      unfold fetch
      rw [hm]
      rfl
    rw [session]
    unfold download
    simp only [hf]
  · intro a ha h c q hc hq
    obtain ⟨m, hm⟩ := gatherInfos_fails (S := w.S) ha h
    rw [session]
    unfold statistics
    dsimp only
    rw [if_neg (by simp [hc]), hq]
    unfold Web.executeStatsQuery
    rw [hm]
    rfl

/-- C83: a panic while the answers are put together is not silent: Go's run-time prints it. -/
theorem C83_panic_shown (d : Desk) (w : Weather) (email m : String) {infos : List DbInfo} {info : DbInfo}
    (hg : gatherInfos w.net w.S d.point = ok infos) (hi : getDBInfos infos = ok infos) (h0 : infos.head? = some info)
    {qs : List (List Byte)} {st : Point.State} (hq : lookupQueries d.L d.point.length (pointInfo info) (bytes email) = ok (qs, st))
    {answers : List (List Byte)} (ha : Web.runQueries w.net w.S d.point qs = .done answers)
    (hr : (MerklePir.reconstructPIR d.L.H answers (pointInfo info) st >>= Padding.unPadBlock) = crash m)
    (rest : List (Input × Weather)) :
    session d ((.download (some email), w) :: rest) = ([bytes ("email is " ++ email)], .trace) := by
  have hx : idx infos 0 = ok info := by
    cases infos with
    | nil => cases h0
    | cons x l => cases h0; rfl
  have hf : ∃ m, fetch d w email = .dropped m := by
    unfold fetch
    rw [hg, show fatal (ok infos) = Fate.done infos from rfl, bind_done, hi, show calls (ok infos) = Fate.done infos from rfl,
      bind_done, hx, show calls (ok info) = Fate.done info from rfl, bind_done]
    unfold Web.getKey
    rw [hq, show calls (ok (qs, st)) = Fate.done (qs, st) from rfl, bind_done]
    dsimp only
    rw [ha, bind_done]
    cases h1 : MerklePir.reconstructPIR d.L.H answers (pointInfo info) st with
    | err m' => rw [h1] at hr; cases hr
    | crash m' => exact ⟨m', rfl⟩
    | ok r =>
      rw [h1, ok_bind] at hr
      rw [show calls (ok r) = Fate.done r from rfl, bind_done, hr]
      exact ⟨m, rfl⟩
  obtain ⟨m', hf⟩ := hf
  rw [session]
  unfold download
  simp only [hf]

/-! ### Examples, and the refutation -/

/-- The environment names one file for each kind of server; in each is one server, and these two can be reached. -/
def exSurroundings : Surroundings where
  getenv := fun name => name
  file := fun path => if path = "VPIR_CONFIG_POINT" then ok [("0".toList, ⟨0, "10.0.0.1", 1⟩)] else ok [("0".toList, ⟨0, "10.0.0.2", 1⟩)]
  dial := fun a => if a = "10.0.0.1:1" ∨ a = "10.0.0.2:1" then ok () else err "context deadline exceeded"

theorem exSurroundings_configured : Configured exSurroundings ["10.0.0.1:1"] ["10.0.0.2:1"] where
  pointFile := by decide +kernel
  complexFile := by decide +kernel
  named := by decide
  reached := by decide

/-- A program that is connected to three point servers and two predicate servers. -/
def exDesk : Desk := ⟨exLib Point.plainDpf, fun _ => [], fun d => ⟨d, ok [1]⟩, ["a", "b", "c"], ["d", "e"]⟩

/-- A key, a name without a key, and a good-bye: the hypotheses of `C83_history_partial` are met. -/
example : ∃ w : Weather, session exDesk
    [(.download (some "\x03\x01"), w), (.stats (some (.countCreation "never")), w), (.exit, w), (.download none, w)] =
    ([bytes "email is \x03\x01", bytes "Result: " ++ [3, 1], bytes "done.", bytes "please enter a positive integer", bytes "bye 👋"],
      .bye) := by
  obtain ⟨db, h1, h2⟩ := C60_lookup_partial (exLib Point.plainDpf) exWorld (fun _ => []) dayTime
    Point.sevens_delivers lengthHash_long sortDesc sortDesc_sorts
    reversed reversed_fair twenty false (by decide) (by decide) (by decide) _ twenty_parses twenty_named
  obtain ⟨db', hdb, hdesc, hR, hC⟩ := twenty_db
  have : db = db' := by have := h1.symm.trans hdb; simpa using this
  subst this
  have hk := ((h2 hdesc (honestNet Point.plainDpf db) backwards backwards_fair ["a", "b", "c"] 0
    (MerklePir.servers_fit_three _)
    (honestNet_serves _ _ _)).1 ⟨[3, 1], [3]⟩ (by decide) "\x03\x01" [3, 1] (by decide) (by decide) rfl).interactive
  refine ⟨⟨honestNet Point.plainDpf db, backwards, exWorld⟩, ?_⟩
  have := C83_history_partial exDesk
    [(.download (some "\x03\x01"), ⟨honestNet Point.plainDpf db, backwards, exWorld⟩,
        [bytes ("email is " ++ "\x03\x01"), bytes "Result: " ++ [3, 1], bytes "done."]),
      (.stats (some (.countCreation "never")), ⟨honestNet Point.plainDpf db, backwards, exWorld⟩, [bytes "please enter a positive integer"])]
    (by
      intro r hr
      simp only [List.mem_cons, List.not_mem_nil, or_false] at hr
      rcases hr with rfl | rfl
      · exact .download _ _ (((C83_download exDesk ⟨honestNet Point.plainDpf db, backwards, exWorld⟩ "\x03\x01").1 [3, 1]).1 hk)
      · exact .stats _ _ ((C83_year exDesk ⟨honestNet Point.plainDpf db, backwards, exWorld⟩ "never").2 (by decide)))
    [(.exit, ⟨honestNet Point.plainDpf db, backwards, exWorld⟩), (.download none, ⟨honestNet Point.plainDpf db, backwards, exWorld⟩)]
  rw [(C83_end _ _ _ "").1] at this
  exact this

/-- Servers that describe a database of one block, and answer another block: five, a proof without hashes, and the padding. -/
def otherNet : Net :=
  ⟨fun _ => ok (), fun _ => ok ⟨1, 1, 10, "merkle", [1], 8⟩, fun _ _ => ok [5, 0, 0, 0, 0, 0, 0, 0, 0, 0x80]⟩

/-- The hypotheses of `C83_rejected_silent` are met. -/
example : session exDesk [(.download (some "a@b.c"), ⟨otherNet, inOrder, exWorld⟩)] = ([bytes "email is a@b.c"], .silent) := by
  refine C83_rejected_silent exDesk ⟨otherNet, inOrder, exWorld⟩ "a@b.c" (info := ⟨1, 1, 10, "merkle", [1], 8⟩)
    (infos := List.replicate 3 ⟨1, 1, 10, "merkle", [1], 8⟩) rfl (by decide) rfl
    (qs := [[7], [7], [1]]) (st := ⟨0, 0⟩) (by decide +kernel) (answers := List.replicate 3 [5, 0, 0, 0, 0, 0, 0, 0, 0, 0x80]) rfl
    (by decide +kernel) []

/-- Servers that describe a database without authentication, of one block, and answer zeros. -/
def zeroNet : Net := ⟨fun _ => ok (), fun _ => ok ⟨1, 1, 10, "", [], 0⟩, fun _ _ => ok (List.replicate 10 0)⟩

/-- The hypotheses of `C83_panic_shown` and of `C83_failing_call_silent` are met. -/
example : session exDesk [(.download (some "a@b.c"), ⟨zeroNet, inOrder, exWorld⟩)] = ([bytes "email is a@b.c"], .trace) :=
  C83_panic_shown exDesk ⟨zeroNet, inOrder, exWorld⟩ "a@b.c" (info := ⟨1, 1, 10, "", [], 0⟩)
    (infos := List.replicate 3 ⟨1, 1, 10, "", [], 0⟩) rfl (by decide) rfl
    (qs := [[7], [7], [1]]) (st := ⟨0, 0⟩) (by decide +kernel) (answers := List.replicate 3 (List.replicate 10 0)) rfl
    (m := "slice bounds out of range") (by decide +kernel) []

example := (C83_failing_call_silent exDesk ⟨⟨fun _ => ok (), fun _ => err "gone", fun _ _ => ok []⟩, inOrder, exWorld⟩ []).1 "a"
  (by decide) (by simp) "a@b.c"

/-- The hypotheses of `C83_as_delivered_no_key` are met. -/
example : ∃ db, generateRealKeyBytes lengthHash sortDesc reversed twenty false = ok db ∧
    download ⟨exLib emptyKeyDpf, fun _ => [], dayTime, staticPoint, staticComplex⟩
      ⟨honestNet emptyKeyDpf db, backwards, exWorld⟩ (some "\x03\x01") ≠
      ([bytes ("email is " ++ "\x03\x01"), bytes "Result: " ++ [3, 1], bytes "done."], .done ()) := by
  obtain ⟨db, hdb, hdesc, hR, hC⟩ := twenty_db
  refine ⟨db, hdb, C83_as_delivered_no_key (exLib emptyKeyDpf) (fun _ => []) dayTime ⟨fun _ => "", fun _ => err "", fun _ => ok ()⟩
    ⟨exLib emptyKeyDpf, fun _ => [], dayTime, staticPoint, staticComplex⟩ rfl rfl ⟨honestNet emptyKeyDpf db, backwards, exWorld⟩
    backwards_fair db hdesc (by omega) ?_ (honestNet_serves _ _ _) _ _⟩
  intro α logN k0 k1 hg
  simp only [exLib, emptyKeyDpf, ok.injEq, Prod.mk.injEq] at hg
  rw [← hg.1, hC]
  decide

/-- C83 as claimed is false: the program dials other servers than those of its configuration, and vanishes. -/
theorem C83_refuted : ¬ C83_Statement := by
  intro h
  refine (h (exLib Point.plainDpf) (fun _ => []) (fun d => ⟨d, ok [1]⟩) exSurroundings _ _ exSurroundings_configured []
    (by simp)).2 ?_
  rw [C83_unreachable _ _ _ exSurroundings (fun a m => ?_) (a := "128.179.33.63:50050") (by decide) (by decide)]
  unfold exSurroundings
  dsimp only
  split <;> simp

/-- Even if the environment names the compiled-in addresses, the claim fails for every library: two point servers that disagree
about the database. -/
theorem C83_refuted_reachable (L : Lib) (gob : Predicate.Msg → List Byte) (date : Int → Time) (u : Surroundings)
    (hd : ∀ a ∈ staticPoint ++ staticComplex, u.dial a = ok ()) :
    ∃ inputs : List (Input × Weather), (∀ i ∈ inputs, Responsive i.2.net ∧ Client.Spec.Fair i.2.S) ∧
      program L gob date u inputs = ([bytes "email is a@b.c"], .silent) := by
  refine ⟨[(.download (some "a@b.c"), ⟨⟨fun _ => ok (), fun a => ok ⟨if a = "128.179.33.63:50050" then 1 else 2, 1, 1, "", [], 0⟩,
    fun _ _ => ok []⟩, inOrder, exWorld⟩)], ?_, ?_⟩
  · intro i hi
    rw [List.mem_singleton] at hi
    subst hi
    exact ⟨⟨fun _ => ⟨_, rfl⟩, fun _ _ => ⟨_, rfl⟩⟩, inOrder_fair⟩
  · unfold program
    rw [(C83_start_iff u staticPoint staticComplex).2 ⟨rfl, rfl, hd⟩]
    exact C83_disagreement_silent _ _ "a@b.c" rfl (by decide) []

end Verif.Interactive
