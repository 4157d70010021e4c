import Verif.Model.Client

/-! # Model of the web front end as a process

cmd/grpc/client/web/mod.go with cmd/grpc/client/manager/mod.go. Model/Client.lean and Model/Cmd.lean say what the pages
show; there every way in which a handler can fail to return is a crash. Here two are told apart: `net/http` recovers a panic of
a handler, closes the connection without a reply and serves on, while `log.Fatal` ends the process and with it all
requests that are being served. The start of the program (flags, configuration, connections) is left out, as are paths that
`ServeMux` cleans up by a redirect (such as `//` and `/..`). -/

namespace Verif.Web
open Res Verif.Cmd Verif.Client Verif.Pgp Verif.Query

/-- How a computation inside a handler ends: with a value, with an error value, with a panic of the handler's goroutine, or
with the end of the process (`log.Fatal`, in whatever goroutine). -/
inductive Fate (α : Type _) where
  | done (a : α)
  | failed (msg : String)
  | dropped (msg : String)
  | exits (msg : String)
deriving DecidableEq, Repr

/-- Sequencing: errors are handed on by the code in between. -/
def Fate.bind {α β : Type _} (x : Fate α) (f : α → Fate β) : Fate β :=
  match x with
  | .done a => f a
  | .failed m => .failed m
  | .dropped m => .dropped m
  | .exits m => .exits m

instance : Monad Fate where
  pure := .done
  bind := Fate.bind

/-- A call of library code on the handler's goroutine: its panics are recovered. -/
def calls {α : Type _} (r : Res α) : Fate α :=
  match r with
  | ok a => .done a
  | err m => .failed m
  | crash m => .dropped m

/-- A call whose failure is followed by `log.Fatal`. -/
def fatal {α : Type _} (r : Res α) : Fate α :=
  match r with
  | ok a => .done a
  | err m => .exits m
  | crash m => .exits m

/-- cmd/grpc/client/manager/mod.go:188-213 `RunQueries` (and 93-113): `queries[i]` is evaluated on the handler's goroutine;
a failing RPC ends the process (line 229). -/
def runQueries (net : Net) (S : Schedule) (servers : List String) (queries : List (List Byte)) : Fate (List (List Byte)) := do
  let sent ← calls (sends servers queries)
  let answers ← fatal (sent.mapM (fun m => orFatal (net.answer m.1 m.2)))
  .done (S.answers answers)

/-- cmd/grpc/client/manager/mod.go:71-142 `GetKey`. The checks of lib/client/pir_point.go:47-49 (negative index) and 63-65
(failing random source) that end the process cannot fail here: the index is a 32-bit word, and the random source of a process
does not fail. -/
def getKey (L : Lib) (net : Net) (S : Schedule) (servers : List String) (info : Database.Info) (id : Str) :
    Fate (List Byte) := do
  let (queries, st) ← calls (lookupQueries L servers.length info id)
  let answers ← runQueries net S servers queries
  let result ← calls (MerklePir.reconstructPIR L.H answers info st)
  let result ← calls (Padding.unPadBlock result)
  let e ← calls (recoverKeyFromBlock L.lower L.readRing result id)
  calls (L.armor e)

/-- cmd/grpc/client/web/mod.go:211-249 `gethandleRetreive`. -/
def retrieve (L : Lib) (net : Net) (S : Schedule) (servers : List String) (req : Request) : Fate (List Page) :=
  match req.parse with
  | crash m => .dropped m
  | err m => .done [.error 500 ("failed to parse form: " ++ m)]
  | ok () =>
    let email := req.value "email"
    if email = "" then .done [.error 400 "email argument not found"] else do
    let infos ← fatal (gatherInfos net S servers)
    match calls (getDBInfos infos) with
    | .dropped m => .dropped m
    | .exits m => .exits m
    | .failed m => .done [.error 500 ("failed to get db info: " ++ m)]
    | .done infos => do
      let info ← calls (idx infos 0)
      match getKey L net S servers (pointInfo info) (bytes email) with
      | .done k => .done [.body k]
      | .failed m =>
        if contains m keyNotFoundErr then .done [.body (bytes "key not found in block")]
        else .done [.error 500 ("failed to get result: " ++ m)]
      | .dropped m => .dropped m
      | .exits m => .exits m

/-- cmd/grpc/client/web/mod.go:376-408 `executeStatsQuery`. Other than two servers end the process
(lib/client/fss.go:48-50). -/
def executeStatsQuery (W : Predicate.World) (gob : Predicate.Msg → List Byte) (net : Net) (S : Schedule)
    (servers : List String) (q : ClientFSS) : Fate U32 := do
  let infos ← fatal (gatherInfos net S servers)
  let infos ← calls (getDBInfos infos)
  let _ ← calls (idx infos 0)
  if infos.length ≠ 2 then .exits "invalid query inputs" else do
  let (ms, st, _, _) ← calls (Predicate.query W.env W.fuel (Field.concurrentExecutions + 1) W.rnd W.buf W.r1 W.r2 q infos.length)
  let answers ← runQueries net S servers (ms.map gob)
  calls (Predicate.reconstructBytes (Field.concurrentExecutions + 1) st answers)

/-- cmd/grpc/client/web/mod.go:302, 340, 371: the text of a count. -/
def countText (n : U32) : List Byte := bytes ("count: " ++ toString n.toNat)

/-- cmd/grpc/client/web/mod.go:251-304 `getHandleCountEmail`. -/
def countEmail (hash : List Byte → List Byte) (exec : ClientFSS → Fate U32) (req : Request) : Fate (List Page) :=
  match req.parse with
  | crash m => .dropped m
  | err m => .done [.error 500 ("failed to parse form: " ++ m)]
  | ok () =>
    let position := req.value "position"
    if position = "" then .done [.error 400 "position argument not found"] else
    let text := req.value "text"
    if text = "" then .done [.error 400 "text argument not found"] else
    if position ≠ "begin" ∧ position ≠ "end" then .done [.error 500 ("unknown position: " ++ position)] else do
    let info : Info := ⟨0, if position = "begin" then ((bytes text).length : Int) else 0,
      if position = "begin" then 0 else ((bytes text).length : Int), false, false, false⟩
    let q ← calls (toEmailClientFSS hash info (bytes text))
    match exec q with
    | .dropped m => .dropped m
    | .exits m => .exits m
    | .failed m => .done [.error 500 ("failed to execute count query: " ++ m)]
    | .done n => .done [.body (countText n)]

/-- cmd/grpc/client/web/mod.go:307-342 `getHandleCountAlgo`: no return after the error page. -/
def countAlgo (exec : ClientFSS → Fate U32) (req : Request) : Fate (List Page) :=
  match req.parse with
  | crash m => .dropped m
  | err m => .done [.error 500 ("failed to parse form: " ++ m)]
  | ok () =>
    let algo := req.value "algo"
    if algo = "" then .done [.error 400 "algo argument not found"] else do
    let q ← calls (toPKAClientFSS ⟨2, 0, 0, false, false, false⟩ algo)
    match exec q with
    | .dropped m => .dropped m
    | .exits m => .exits m
    | .failed m => .done [.error 500 ("failed to execute count query: " ++ m), .body (countText 0)]
    | .done n => .done [.body (countText n)]

/-- lib/query/query.go:111-125 `ToCreationTimeClientFSS`: `log.Fatal` if the year is not a number, a panic if the date has no
encoding. -/
def creationQuery (mk : Int → Time) (i : Info) (year : String) : Fate ClientFSS := do
  let y ← fatal (atoi year.toList)
  calls (toCreationTimeClientFSS mk i y)

/-- cmd/grpc/client/web/mod.go:345-373 `getHandleCountTimestamp`: no return after the error page. -/
def countTimestamp (mk : Int → Time) (exec : ClientFSS → Fate U32) (req : Request) : Fate (List Page) :=
  match req.parse with
  | crash m => .dropped m
  | err m => .done [.error 500 ("failed to parse form: " ++ m)]
  | ok () =>
    let year := req.value "year"
    if year = "" then .done [.error 400 "year argument not found"] else do
    let q ← creationQuery mk ⟨1, 0, 0, false, false, false⟩ year
    match exec q with
    | .dropped m => .dropped m
    | .exits m => .exits m
    | .failed m => .done [.error 500 ("failed to execute count query: " ++ m), .body (countText 0)]
    | .done n => .done [.body (countText n)]

/-- The program after its start: libraries, addresses of the point and of the predicate servers, and the embedded pages. -/
structure Site where
  L : Lib
  gob : Predicate.Msg → List Byte
  date : Int → Time
  point : List String
  complex : List String
  index : List Byte
  static : String → Option (List Byte)

/-- What one request meets: the servers while it is served, the order in which their answers arrive, and the randomness
drawn for it. -/
structure Weather where
  net : Net
  S : Schedule
  W : Predicate.World

/-- A request: path, form and the value of its header X-Request-Id; `clock` is the name made from the time of day
(cmd/grpc/client/web/mod.go:410-412). -/
structure Visit where
  path : String
  form : Request
  header : String
  clock : String
  weather : Weather

/-- A reply: the header X-Request-Id and what is written. -/
structure Reply where
  requestId : String
  pages : List Page
deriving DecidableEq, Repr

/-- cmd/grpc/client/web/mod.go:120-126: `ServeMux` with the registered patterns, and `handleIndex` (189-208). A path below
`/static/` is looked up in the embedded files; `/static` is redirected. -/
def serve (w : Site) (v : Visit) : Fate (List Page) :=
  if v.path = "/retrieve" then retrieve w.L v.weather.net v.weather.S w.point v.form
  else if v.path = "/count/email" then
    countEmail v.weather.W.hash (executeStatsQuery v.weather.W w.gob v.weather.net v.weather.S w.complex) v.form
  else if v.path = "/count/algo" then
    countAlgo (executeStatsQuery v.weather.W w.gob v.weather.net v.weather.S w.complex) v.form
  else if v.path = "/count/timestamp" then
    countTimestamp w.date (executeStatsQuery v.weather.W w.gob v.weather.net v.weather.S w.complex) v.form
  else if "/static/".toList.isPrefixOf v.path.toList then
    match w.static v.path with
    | some b => .done [.body b]
    | none => .done [.error 404 "404 page not found"]
  else if v.path = "/static" then .done [.error 301 "Moved Permanently"]
  else if v.path = "/" then .done [.body w.index]
  else .done [.error 404 "404 not found"]

/-- cmd/grpc/client/web/mod.go:115-118, 414-441: the chain `tracing`, `logging`, `ServeMux`. -/
def handle (w : Site) (v : Visit) : Fate Reply := do
  let id := if v.header = "" then v.clock else v.header
  let pages ← serve w v
  .done ⟨id, pages⟩

/-! ### The process -/

/-- Where a request is. -/
inductive Progress where
  | serving
  | answered (r : Reply)
  | closed
deriving DecidableEq, Repr

/-- The process with the requests it has received. -/
structure Process where
  up : Bool
  visits : List (Visit × Progress)

/-- `net/http`: every request is served by a goroutine of its own. A request arrives, or the handler of a request comes to
its end. -/
inductive Step (w : Site) : Process → Process → Prop where
  | arrive (p : Process) (v : Visit) : p.up = true → Step w p { p with visits := p.visits ++ [(v, .serving)] }
  | reply (p : Process) (i : Nat) (v : Visit) (r : Reply) : p.up = true → p.visits[i]? = some (v, .serving) →
      handle w v = .done r → Step w p { p with visits := p.visits.set i (v, .answered r) }
  | fail (p : Process) (i : Nat) (v : Visit) (m : String) : p.up = true → p.visits[i]? = some (v, .serving) →
      handle w v = .failed m → Step w p { p with visits := p.visits.set i (v, .closed) }
  | drop (p : Process) (i : Nat) (v : Visit) (m : String) : p.up = true → p.visits[i]? = some (v, .serving) →
      handle w v = .dropped m → Step w p { p with visits := p.visits.set i (v, .closed) }
  | exit (p : Process) (i : Nat) (v : Visit) (m : String) : p.up = true → p.visits[i]? = some (v, .serving) →
      handle w v = .exits m → Step w p { p with up := false }

/-- The histories of the process. -/
inductive Reach (w : Site) : Process → Prop where
  | start : Reach w ⟨true, []⟩
  | step (p q : Process) : Reach w p → Step w p q → Reach w q

end Verif.Web
