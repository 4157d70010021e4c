import Verif.Model.Web

/-! # Model of the interactive client as a program, and of the start of both demonstration clients

cmd/grpc/client/interactive/mod.go. The single requests are those of Model/Client and Model/Web; here they are put together to
the program: configuration, connections, the loop of the menu, and what the user gets to read. The prompts of the library
`survey` are left out, apart from the message of a rejected year; a prompt that fails (end of input, interrupt) is an input
of its own. -/

namespace Verif.Interactive
open Res Verif.Cmd Verif.Client Verif.Query Verif.Web

/-- cmd/grpc/client/interactive/mod.go:23 and web/mod.go:39 `staticConfig`. -/
def staticConfig : Bool := true

/-- cmd/grpc/client/interactive/mod.go:25-39 and web/mod.go:43-57 `staticPointConfig`, the field `Addresses`. -/
def staticPoint : List String := ["128.179.33.63:50050", "128.179.33.75:50051"]

/-- cmd/grpc/client/interactive/mod.go:41-55 and web/mod.go:59-73 `staticComplexConfig`, the field `Addresses`. -/
def staticComplex : List String := ["128.179.33.63:50040", "128.179.33.75:50041"]

/-- The world in which a program is started: its environment variables (empty if not set), the configuration files (as decoded;
`LoadConfig` of lib/utils/config.go:23-43 follows), and the servers it can dial. -/
structure Surroundings where
  getenv : String → String
  file : String → Res (List (List Char × Server))
  dial : String → Res Unit

/-- lib/utils/config.go:23-43 `LoadConfig` with the decoding of the file. -/
def load (u : Surroundings) (path : String) : Res (List String) := do
  let servers ← u.file path
  loadConfig servers

/-- cmd/grpc/client/interactive/mod.go:123-145 `loadPointManager`, 147-169 `loadComplexManager`, and web/mod.go:141-163, 165-187;
`fixed` is `staticConfig`. -/
def loadManager (fixed : Bool) (addresses : List String) (name : String) (u : Surroundings) : Res (List String) :=
  if u.getenv name = "" ∧ fixed = false then err ("Please provide " ++ name ++ " as env variable")
  else if fixed then ok addresses
  else match load u (u.getenv name) with
    | ok a => ok a
    | err m => err ("failed to load config: " ++ m)
    | crash m => crash m

/-- A failure followed by `log.Fatalf`; a panic remains a panic. -/
def orExit {α : Type _} (r : Res α) : Fate α :=
  match r with
  | ok a => .done a
  | err m => .exits m
  | crash m => .dropped m

/-- cmd/grpc/client/interactive/mod.go:67-85 and web/mod.go:91-110: the addresses that the two actors are connected to. -/
def startWith (fixed : Bool) (u : Surroundings) : Fate (List String × List String) := do
  let point ← orExit (loadManager fixed staticPoint "VPIR_CONFIG_POINT" u)
  let complex ← orExit (loadManager fixed staticComplex "VPIR_CONFIG_COMPLEX" u)
  let point ← orExit (connectActor u.dial point)
  let complex ← orExit (connectActor u.dial complex)
  .done (point, complex)

/-- The start of the programs as they are. -/
def start (u : Surroundings) : Fate (List String × List String) := startWith staticConfig u

/-- What the user enters: at the menu (cmd/grpc/client/interactive/mod.go:88-120) a failing prompt, `exit`, a download with
the e-mail, or statistics with the choice; `none` stands for a prompt that fails inside of a request. -/
inductive Input where
  | noMenu (msg : String)
  | exit
  | download (email : Option String)
  | stats (choice : Option Choice)
deriving DecidableEq, Repr

/-- How the program goes on after some inputs: it waits for more; it has said good-bye; the menu failed and the reason was
printed; `log.Fatalf` with its output discarded (line 65), that is the program is gone without a word; or Go's run-time has
printed a panic. -/
inductive End where
  | asking
  | bye
  | quit
  | silent
  | trace
deriving DecidableEq, Repr

/-- The program after its start: libraries and the addresses of the servers. -/
structure Desk where
  L : Lib
  gob : Predicate.Msg → List Byte
  date : Int → Time
  point : List String
  complex : List String

/-- cmd/grpc/client/interactive/mod.go:184-192: `GetDBInfos` and then `GetKey`, whose result is kept
apart because only its errors are searched for the text `keyNotFoundErr` (line 193). -/
def fetch (d : Desk) (w : Weather) (email : String) : Fate (Res (List Byte)) := do
  let infos ← fatal (gatherInfos w.net w.S d.point)
  let infos ← calls (getDBInfos infos)
  let info ← calls (idx infos 0)
  match getKey d.L w.net w.S d.point (pointInfo info) (bytes email) with
  | .done k => .done (ok k)
  | .failed m => .done (err m)
  | .dropped m => .dropped m
  | .exits m => .exits m

/-- cmd/grpc/client/interactive/mod.go:172-205 `downloadKey`: the lines printed and how it ends. -/
def download (d : Desk) (w : Weather) (email : Option String) : List (List Byte) × Fate Unit :=
  match email with
  | none => ([], .failed "failed to ask")
  | some email =>
    match fetch d w email with
    | .failed m => ([bytes ("email is " ++ email)], .failed ("failed to get db info: " ++ m))
    | .dropped m => ([bytes ("email is " ++ email)], .dropped m)
    | .exits m => ([bytes ("email is " ++ email)], .exits m)
    | .done (crash m) => ([bytes ("email is " ++ email)], .dropped m)
    | .done (err m) =>
      if contains m keyNotFoundErr then
        ([bytes ("email is " ++ email), bytes "No key is found for the given email", bytes "done."], .done ())
      else ([bytes ("email is " ++ email)], .failed ("failed to get result: " ++ m))
    | .done (ok k) => ([bytes ("email is " ++ email), bytes "Result: " ++ k, bytes "done."], .done ())

/-- cmd/grpc/client/interactive/mod.go:357-368: the entry for a year is rejected and asked for again. What comes next is the
next input here, as if the menu had been gone through again. -/
def rejected (c : Choice) : Bool :=
  match c with
  | .countCreation year =>
    match atoi year.toList with
    | ok y => decide (y < 0)
    | _ => true
  | _ => false

/-- cmd/grpc/client/interactive/mod.go:208-280, 383-436 `getStats`, `countStats`, `getAvg`. -/
def statistics (d : Desk) (w : Weather) (c : Option Choice) : List (List Byte) × Fate Unit :=
  match c with
  | none => ([], .failed "failed to ask")
  | some c =>
    if rejected c then ([bytes "please enter a positive integer"], .done ()) else
    match (do
      let q ← calls (interactiveQuery w.W.hash d.date c)
      Web.executeStatsQuery w.W d.gob w.net w.S d.complex q : Fate U32) with
    | .done n => ([bytes ("Result of " ++ caption c ++ ": " ++ toString n.toNat ++ ".\n Type enter to continue.")], .done ())
    | .failed m => ([], .failed m)
    | .dropped m => ([], .dropped m)
    | .exits m => ([], .exits m)

/-- cmd/grpc/client/interactive/mod.go:88-120: the loop of the menu, with the circumstances of each request. The result is
everything printed, and how the program goes on. -/
def session (d : Desk) : List (Input × Weather) → List (List Byte) × End
  | [] => ([], .asking)
  | (.noMenu m, _) :: _ => ([bytes m], .quit)
  | (.exit, _) :: _ => ([bytes "bye 👋"], .bye)
  | (.download email, w) :: rest =>
    match download d w email with
    | (out, .done _) => (out ++ (session d rest).1, (session d rest).2)
    | (out, .failed _) => (out, .silent)
    | (out, .dropped _) => (out, .trace)
    | (out, .exits _) => (out, .silent)
  | (.stats c, w) :: rest =>
    match statistics d w c with
    | (out, .done _) => (out ++ (session d rest).1, (session d rest).2)
    | (out, .failed _) => (out, .silent)
    | (out, .dropped _) => (out, .trace)
    | (out, .exits _) => (out, .silent)

/-- cmd/grpc/client/interactive/mod.go:64-121 `main`. Line 65 discards the output of the package `log`. -/
def program (L : Lib) (gob : Predicate.Msg → List Byte) (date : Int → Time) (u : Surroundings) (inputs : List (Input × Weather)) :
    List (List Byte) × End :=
  match start u with
  | .done (point, complex) => session ⟨L, gob, date, point, complex⟩ inputs
  | .failed _ => ([], .silent)
  | .dropped _ => ([], .trace)
  | .exits _ => ([], .silent)

end Verif.Interactive
