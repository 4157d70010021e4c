import Verif.Model.Deploy
import Verif.Spec.Client
import Verif.Spec.Pgp

/-! # Specification vocabulary for deployments -/

namespace Verif.Deploy.Spec
open Res Verif.Cmd Verif.Client Verif.Pgp Verif.Pgp.Spec

/-- The configuration file has the sections "0", "1", ..., with different addresses. `servers` lists them in this order; the
map in which they are read has no order. -/
structure Config (servers : List (List Char × Server)) : Prop where
  numbered : Cmd.Spec.Numbered servers
  distinct : (servers.map (fun e => address e.2)).Nodup

/-- The addresses of the servers by number. -/
def addresses (servers : List (List Char × Server)) : List String := servers.map (fun e => address e.2)

/-- The names of the files differ and they are listed in their order. -/
def InOrder {α : Type _} (files : List (List Char × α)) : Prop := files.Pairwise (fun a b => a.1 < b.1)

/-- A machine with the same libraries as the client and a directory of these (readable) files, in any order. How it sorts
keys with one identifier and enumerates maps is up to it. Listening succeeds. -/
structure Installed (L : Lib) (files : List (List Char × List Key)) (M : Machine) : Prop where
  digest : M.H = L.H
  hash : M.hash = L.hash
  dpf : M.dpf = L.dpf
  sort : SortsById M.sort
  order : OrdersFair M.order
  dir : M.dir.Perm (files.map (fun f => (f.1, ok f.2)))
  bind : ∀ a, M.bind a = ok ()

/-- The keys in the first `k` files. -/
def keysIn (files : List (List Char × List Key)) (k : Nat) : List Key := (files.take k).flatMap (·.2)

/-- Starting the server program on `n` machines, with the numbers 0 to `n` − 1, the same number of files and the same scheme;
each machine reads its copy of the configuration in its own order. -/
def startAll (machine : Nat → Machine) (config : Nat → List (List Char × Server)) (n : Nat) (files : Int) (scheme : String) :
    Res (List Running) :=
  (List.range n).mapM (fun i => serverMain (machine i) (config i) ⟨(i : Nat), files, scheme⟩)

/-- A machine that can answer predicate queries: same libraries, decoding of queries undoes the encoding by the client, and
this source of randomness, clock and scratch buffer. -/
structure Equipped (L : Lib) (hash : List Byte → List Byte) (gob : Predicate.Msg → List Byte) (timeOf : Int → Query.Time)
    (algoOf : Entity → Byte) (env : Nat → Fss.Env) (now : Nat → Int) (buf : List Byte) (M : Machine) : Prop where
  readRing : M.readRing = L.readRing
  hash : M.queryHash = hash
  time : M.timeOf = timeOf
  algo : M.algoOf = algoOf
  gob : ∀ m, M.ungob (gob m) = ok m
  env : M.env = env
  now : M.now = now
  buf : M.buf = buf

/-- What statistics are about: the e-mail address of the primary identity as written in the key, the date of creation and
the algorithm. -/
def describe (timeOf : Int → Query.Time) (algoOf : Entity → Byte) (e : Entity) : Predicate.KeyInfo :=
  ⟨e.primary, timeOf e.created, algoOf e⟩

/-- The addresses under which a key is stored from the dump: the newest key that is not revoked, if it has at most 8192
bytes without subkeys. `e` is this key. -/
def StoredAs (lower : Str → Str) (ser : Entity → List Byte) (dump : List (List Entity)) (email : Str) (e : Entity) : Prop :=
  email ≠ [] ∧ (ser e).length ≤ 8192 ∧ ∃ e', Newest lower dump.flatten email e' ∧ e = { e' with subkeys := [] }

/-- The number of addresses whose stored key satisfies `P`. -/
noncomputable def addressesWith (lower : Str → Str) (ser : Entity → List Byte) (dump : List (List Entity))
    (P : Str → Entity → Prop) : Nat :=
  Nat.card {email : Str // ∃ e, StoredAs lower ser dump email e ∧ P email e}

end Verif.Deploy.Spec
