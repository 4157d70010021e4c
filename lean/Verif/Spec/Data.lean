import Verif.Model.Data
import Verif.Spec.Deploy

/-! # Specification vocabulary for the preparation of the key files -/

namespace Verif.Data.Spec
open Res Verif.Cmd Verif.Pgp Verif.Pgp.Spec Verif.Deploy.Spec

/-- What a path refers to. -/
def entry (d : Disk) (p : Path) : Option Node := mget d.nodes p

/-- The bytes of a file to which one encoder has written `done` and then `ks`, from `ks` on. -/
def encodedFrom (L : Lib) (done : List Key) : List Key → List Byte
  | [] => []
  | k :: ks => L.encode done k ++ encodedFrom L (done ++ [k]) ks

/-- The bytes of a file with these keys. -/
def encoded (L : Lib) (ks : List Key) : List Byte := encodedFrom L [] ks

/-- Decoding undoes encoding. -/
def GobFaithful (L : Lib) : Prop := ∀ ks, L.decode (encoded L ks) = (ks, ok ())

/-- The path is a file in which one encoder has written exactly these keys. -/
def Holds (L : Lib) (d : Disk) (p : Path) (ks : List Key) : Prop := entry d p = some (.file (encoded L ks))

/-- The disk `d'` differs from `d` in that the first chunk files of directory `out` hold these keys, and in nothing else. -/
structure Chunked (L : Lib) (out : Path) (chunks : List (List Key)) (d d' : Disk) : Prop where
  holds : ∀ i (h : i < chunks.length), Holds L d' (join out (chunkName i)) chunks[i]
  rest : ∀ p, (∀ i, i < chunks.length → p ≠ join out (chunkName i)) → entry d' p = entry d p

/-- The paths refer to the same things. -/
def Same (d d' : Disk) : Prop := ∀ p, entry d p = entry d' p

/-- A file system: no path is listed twice. -/
def Proper (d : Disk) : Prop := (d.nodes.map (·.1)).Nodup

/-- A name: not empty and without slash. -/
def IsName (n : Path) : Prop := n ≠ [] ∧ '/' ∉ n

/-- The name contains `sks-dump-`, four digits, `.pgp`. -/
def ContainsDumpName (n : Path) : Prop :=
  ∃ a ds b : List Char, ds.length = 4 ∧ (∀ c ∈ ds, '0' ≤ c ∧ c ≤ '9') ∧
    n = a ++ "sks-dump-".toList ++ ds ++ ".pgp".toList ++ b

/-- The name is `sks-dump-`, some digits, `.pgp`. -/
def IsDumpName (n : Path) : Prop :=
  ∃ ds : List Char, ds ≠ [] ∧ (∀ c ∈ ds, '0' ≤ c ∧ c ≤ '9') ∧ n = "sks-dump-".toList ++ ds ++ ".pgp".toList

/-- `dump` lists, in the order of their names, the entries of the directory `dir` whose names satisfy `P`, all of them files
that can be parsed, with what is in them. -/
structure DumpIs (L : Lib) (d : Disk) (dir : Path) (P : Path → Prop) (dump : List (Path × List Entity)) : Prop where
  sorted : InOrder dump
  mem : ∀ n es, (n, es) ∈ dump ↔ IsName n ∧ P n ∧ ∃ bs, entry d (join dir n) = some (.file bs) ∧ L.readRing bs = ok es
  all : ∀ n, IsName n → P n → (entry d (join dir n)).isSome → ∃ es, (n, es) ∈ dump

/-- The keys are those stored for the dump: for every address the newest key that is not revoked, if it has at most 8192 bytes
without subkeys; no address twice. -/
structure KeysOf (lower : Str → Str) (ser : Entity → List Byte) (dump : List (List Entity)) (keys : List Key) : Prop where
  distinct : (keys.map (·.id)).Nodup
  mem : ∀ k : Key, k ∈ keys ↔ ∃ e, StoredAs lower ser dump k.id e ∧ k.packet = ser e

/-- The same libraries in another run of the program: Go enumerates maps in another order. -/
def anew (L : Lib) (order : List (Str × Entity) → List (Str × Entity)) : Lib := { L with order := order }

/-- One run: options, order of enumeration, and the number of writes after which the run is interrupted, if it is. -/
structure Invocation where
  flags : Flags
  order : List (Str × Entity) → List (Str × Entity)
  stop : Option Nat

/-- The disk after one run. -/
def invoke (L : Lib) (limit : Nat) (d : Disk) (i : Invocation) : Disk :=
  match i.stop with
  | none => after (anew L i.order) d limit i.flags
  | some n => interrupted (anew L i.order) d limit i.flags n

/-- The disk after a sequence of runs. -/
def history (L : Lib) (limit : Nat) (d : Disk) (runs : List Invocation) : Disk := runs.foldl (invoke L limit) d

/-- A path that runs with this output directory may write. -/
def Output (out p : Path) : Prop := p = join out fullName ∨ ∃ i, p = join out (chunkName i)

/-- A machine with the libraries of the client `C`, whose key directory is a copy of the directory `S` of the disk `d`. How it
sorts keys with one identifier and enumerates maps is up to it. Listening succeeds. -/
structure Hosts (C : Client.Lib) (L : Lib) (d : Disk) (S : Path) (M : Deploy.Machine) : Prop where
  digest : M.H = C.H
  hash : M.hash = C.hash
  dpf : M.dpf = C.dpf
  sort : Pgp.Spec.SortsById M.sort
  order : Pgp.Spec.OrdersFair M.order
  dir : serverDir L d S = .ok M.dir
  bind : ∀ a, M.bind a = .ok ()

end Verif.Data.Spec
