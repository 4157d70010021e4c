import Verif.Model.Deploy

/-! # Model of the program that prepares the key files

data/main.go with the parts of lib/pgp/pgp.go that it uses, and the key directory as a server reads it
(cmd/grpc/server/main.go:343-355). A disk maps paths to files and directories. A run of the program is the sequence of its
writes together with its result, so that a run that is interrupted is a prefix of the writes. Paths are clean: `filepath.Join`
puts a slash between directory and name. The OpenPGP library, gob and the enumeration of maps are parameters. Permissions,
full disks and other failures of the file system are left out, as is the output on the terminal. -/

namespace Verif.Data
open Res Verif.Cmd Verif.Pgp

abbrev Path := List Char

/-- An entry of the file system. -/
inductive Node where
  | file (contents : List Byte)
  | dir
deriving DecidableEq, Repr

/-- The file system, a map from paths to entries. -/
structure Disk where
  nodes : List (Path × Node)
deriving DecidableEq, Repr

/-- A write: `os.OpenFile` with `O_CREATE|O_WRONLY|O_TRUNC` (lib/pgp/pgp.go:102, data/main.go:96-97), or adding bytes at the
end of the file that is open (gob writes each value directly to the file). -/
inductive Op where
  | create (p : Path)
  | append (p : Path) (bs : List Byte)
deriving DecidableEq, Repr

/-- The contents of a file for a write that follows, empty if there is none. -/
def contents (d : Disk) (p : Path) : List Byte :=
  match mget d.nodes p with
  | some (.file bs) => bs
  | _ => []

/-- Effect of one write. -/
def apply (d : Disk) : Op → Disk
  | .create p => ⟨mset d.nodes p (.file [])⟩
  | .append p bs => ⟨mset d.nodes p (.file (contents d p ++ bs))⟩

/-- Effect of some writes. -/
def applyAll (d : Disk) (ops : List Op) : Disk := ops.foldl apply d

/-- `filepath.Join` of a clean directory and a name. -/
def join (dir name : Path) : Path := dir ++ '/' :: name

/-- The name of an entry of this directory. -/
def nameIn (dir p : Path) : Option Path :=
  match (join dir []).isPrefixOf? p with
  | some [] => none
  | some name => if '/' ∈ name then none else some name
  | none => none

/-- `ioutil.ReadDir` (lib/pgp/pgp.go:141 and 155): the names of the entries, sorted. -/
def readDir (d : Disk) (dir : Path) : Res (List Path) :=
  match mget d.nodes dir with
  | some .dir => ok ((d.nodes.filterMap (fun e => nameIn dir e.1)).mergeSort (fun a b => decide (a ≤ b)))
  | some (.file _) => err "not a directory"
  | none => err "no such file or directory"

/-- `os.Open` and reading to the end; of a directory, opening succeeds and reading fails. -/
def readFile (d : Disk) (p : Path) : Res (List Byte) :=
  match mget d.nodes p with
  | some (.file bs) => ok bs
  | some .dir => err "is a directory"
  | none => err "no such file or directory"

/-- Whether `os.OpenFile` of this name in this directory for writing succeeds. -/
def canCreate (d : Disk) (dir name : Path) : Bool :=
  mget d.nodes dir = some .dir ∧ mget d.nodes (join dir name) ≠ some .dir

/-- The libraries. `encode done k` are the bytes that a gob encoder writes for `k` after it has written `done`; `decode` gives
the values that a gob decoder reads from these bytes and how it ends (`ok` at the end of the file). -/
structure Lib where
  lower : Str → Str
  readRing : List Byte → Res (List Entity)
  serialize : Entity → Res (List Byte)
  order : List (Str × Entity) → List (Str × Entity)
  encode : List Key → Key → List Byte
  decode : List Byte → List Key × Res Unit

/-- A decimal digit, `[0-9]`. -/
def isDigit (c : Char) : Bool := '0' ≤ c ∧ c ≤ '9'

/-- Whether the text begins with a match of `sks-dump-[0-9]{4}\.pgp` (lib/pgp/pgp.go:134). -/
def matchHere (s : List Char) : Bool :=
  match "sks-dump-".toList.isPrefixOf? s with
  | some (a :: b :: c :: e :: rest) => isDigit a && isDigit b && isDigit c && isDigit e && ".pgp".toList.isPrefixOf rest
  | _ => false

/-- `MatchString` of the expression (lib/pgp/pgp.go:162): a match may begin anywhere. -/
def matchAnywhere (s : List Char) : Bool := s.tails.any matchHere

/-- lib/pgp/pgp.go:131-137 `GetSksOriginalDumpFiles` and 152-167 `GetFilesThatMatch`. -/
def getSksOriginalDumpFiles (d : Disk) (dir : Path) : Res (List Path) := do
  let all ← readDir d dir
  ok ((all.filter matchAnywhere).map (join dir))

/-- lib/pgp/pgp.go:139-150 `GetAllFiles`. -/
def getAllFiles (d : Disk) (dir : Path) : Res (List Path) := do
  let all ← readDir d dir
  ok (all.map (join dir))

/-- lib/pgp/pgp.go:108-123, the loop of `WriteKeysOnDisk`: its writes to `p` after `done` has been written, and the result. -/
def writeKeys (L : Lib) (p : Path) : List (Str × Entity) → List Key → List Op × Res Unit
  | [], _ => ([], ok ())
  | x :: xs, done =>
    match L.serialize x.2 with
    | ok buf =>
      if 8192 < buf.length then writeKeys L p xs done
      else
        let r := writeKeys L p xs (done ++ [⟨x.1, buf⟩])
        (.append p (L.encode done ⟨x.1, buf⟩) :: r.1, r.2)
    | err m => ([], err m)
    | crash m => ([], crash m)

/-- lib/pgp/pgp.go:26. -/
def fullName : Path := "sks-full.pgp".toList

/-- lib/pgp/pgp.go:96-129 `WriteKeysOnDisk`. -/
def writeKeysOnDisk (L : Lib) (d : Disk) (dir : Path) (entities : List (Str × Entity)) : List Op × Res Unit :=
  if canCreate d dir fullName then
    let r := writeKeys L (join dir fullName) (L.order entities) []
    (.create (join dir fullName) :: r.1, r.2)
  else ([], err "open failed")

/-- data/main.go:60-76 `parseSksDump`. -/
def parseSksDump (L : Lib) (d : Disk) (path out : Path) : List Op × Res Unit :=
  match (do
    let files ← getSksOriginalDumpFiles d path
    analyzeKeyDump L.lower (files.map (fun f => do
      let bs ← readFile d f
      L.readRing bs))) with
  | ok m => writeKeysOnDisk L d out m
  | err m => ([], err m)
  | crash m => ([], crash m)

/-- data/main.go:91-126, the loop of `splitFullDumpIntoChunks`, with the keys still to be decoded, the keys in the current
chunk if there is one, the size counted for it, and the number of the next chunk. The limit is a parameter. -/
def splitLoop (L : Lib) (d : Disk) (limit : Nat) (out : Path) (ending : Res Unit) :
    List Key → Option (List Key) → Nat → Nat → List Op × Res Unit := fun keys cur written num =>
  let new := cur.isNone || decide (limit < written)
  if new && !canCreate d out (chunkName num) then ([], err "failed to create chunk") else
  let pre := if new then [Op.create (join out (chunkName num))] else []
  let chunk := if new then [] else cur.getD []
  let num := if new then num + 1 else num
  let written := if new then 0 else written
  match keys with
  | [] => (pre, ending)
  | k :: ks =>
    let r := splitLoop L d limit out ending ks (some (chunk ++ [k])) (written + keySize k) num
    (pre ++ .append (join out (chunkName (num - 1))) (L.encode chunk k) :: r.1, r.2)

/-- data/main.go:78-134 `splitFullDumpIntoChunks`. The input is opened first and read after the first chunk has been created;
that the input may be a later chunk, which is emptied while it is read, is left out. -/
def splitFullDumpIntoChunks (L : Lib) (d : Disk) (limit : Nat) (path out : Path) : List Op × Res Unit :=
  match mget d.nodes path with
  | none => ([], err "failed to open path")
  | some _ =>
    match readFile (apply d (.create (join out (chunkName 0)))) path with
    | ok bs => splitLoop L d limit out (L.decode bs).2 (L.decode bs).1 none 0 0
    | err m => splitLoop L d limit out (err m) [] none 0 0
    | crash m => splitLoop L d limit out (crash m) [] none 0 0

/-- data/main.go:136-163 `generateDB`, whose body is commented out. -/
def generateDB (_root _out : Path) (_rebalanced : Bool) : List Op × Res Unit := ([], ok ())

/-- data/main.go:26-29: the options. -/
structure Flags where
  cmd : String
  path : Path
  out : Path
  rebalanced : Bool
deriving DecidableEq, Repr

/-- `log.Fatalf` on an error (data/main.go:42-44, 47-49, 52-54). -/
def orFatal (r : List Op × Res Unit) : List Op × Res Unit :=
  match r.2 with
  | ok _ => r
  | err m => (r.1, crash m)
  | crash m => (r.1, crash m)

/-- data/main.go:20-58 `main`. -/
def main (L : Lib) (d : Disk) (limit : Nat) (f : Flags) : List Op × Res Unit :=
  if f.cmd = "" ∨ f.path = [] ∨ f.out = [] then ([], crash "usage")
  else if f.cmd = "genChunks" then orFatal (splitFullDumpIntoChunks L d limit f.path f.out)
  else if f.cmd = "genDB" then orFatal (generateDB f.path f.out f.rebalanced)
  else if f.cmd = "parseDump" then orFatal (parseSksDump L d f.path f.out)
  else ([], crash "unknown command")

/-- The disk after the program has run. -/
def after (L : Lib) (d : Disk) (limit : Nat) (f : Flags) : Disk := applyAll d (main L d limit f).1

/-- The disk if the program is interrupted after `n` writes. -/
def interrupted (L : Lib) (d : Disk) (limit : Nat) (f : Flags) (n : Nat) : Disk :=
  applyAll d ((main L d limit f).1.take n)

/-- lib/pgp/pgp.go:172-190, opening and decoding one file. -/
def loadFile (L : Lib) (d : Disk) (p : Path) : Res (List Key) := do
  let bs ← readFile d p
  let _ ← (L.decode bs).2
  ok (L.decode bs).1

/-- cmd/grpc/server/main.go:343-355 `getSksFiles` and lib/pgp/pgp.go:169-193 `LoadKeysFromDisk`: the keys that a server loads
from this directory with `-files n`; an error ends the program. -/
def serverKeys (L : Lib) (d : Disk) (dir : Path) (n : Int) : Res (List Key) := do
  let all ← Client.orFatal (getAllFiles d dir)
  let files ← Cmd.getSksFiles all n
  Client.orFatal (Pgp.loadKeysFromDisk (files.map (loadFile L d)))

/-- The key directory of a server (lib/pgp/pgp.go:139-150, 169-193): each entry with the result of opening and decoding it. -/
def serverDir (L : Lib) (d : Disk) (dir : Path) : Res (List (Path × Res (List Key))) := do
  let all ← readDir d dir
  ok (all.map (fun n => (n, loadFile L d (join dir n))))

end Verif.Data
