import Verif.Model.Client

/-! # Model of the transport of the messages

lib/proto/vpir.proto and the call options of cmd/grpc/client/main.go:68-72, cmd/grpc/client/interactive/mod.go:57-61,
cmd/grpc/client/web/mod.go:75-79 and cmd/grpc/server/main.go:132-136. The libraries (google.golang.org/grpc v1.56.3,
google.golang.org/protobuf v1.33.0, their gzip compressor) are not in the repository: what is modelled of them is what these
options ask for. Deadlines, metadata and the record layer of TLS are left out. -/

namespace Verif.Wire
open Res

/-- The variable-length integers of protocol buffers, seven bits to a byte, low bits first. -/
def uvarint (n : Nat) : List Byte :=
  if n < 128 then [BitVec.ofNat 8 n] else BitVec.ofNat 8 (n % 128 + 128) :: uvarint (n / 128)
termination_by n

/-- Reading such an integer; the bound of ten bytes is left out. -/
def readUvarint : List Byte → Option (Nat × List Byte)
  | [] => none
  | b :: bs =>
    if b.toNat < 128 then some (b.toNat, bs)
    else (readUvarint bs).map fun r => (b.toNat - 128 + 128 * r.1, r.2)

/-- lib/proto/vpir.proto:12-18 `QueryRequest` and `QueryResponse`: one field of bytes with number 1, which is left out if it
is empty. -/
def marshal (b : List Byte) : List Byte := if b = [] then [] else 0x0a :: uvarint b.length ++ b

/-- Reading such a message. Simplified: a message with other or repeated fields is refused here; honest programs send none. -/
def unmarshal (m : List Byte) : Res (List Byte) :=
  match m with
  | [] => ok []
  | t :: rest =>
    if t ≠ 0x0a then err "proto: cannot parse invalid wire-format data" else
    match readUvarint rest with
    | none => err "proto: cannot parse invalid wire-format data"
    | some (n, b) => if b.length = n then ok b else err "proto: cannot parse invalid wire-format data"

/-- The compressor registered as "gzip" (cmd/grpc/server/main.go:27, cmd/grpc/client/main.go:25). -/
structure Gzip where
  compress : List Byte → List Byte
  decompress : List Byte → Option (List Byte)

/-- What the programs set of the options of a call. -/
structure Options where
  compressed : Bool
  maxRecv : Nat
  maxSend : Nat
deriving DecidableEq, Repr

/-- cmd/grpc/client/main.go:68-72, cmd/grpc/client/interactive/mod.go:57-61, cmd/grpc/client/web/mod.go:75-79: the three
clients set the same options. -/
def clientOptions : Options := { compressed := true, maxRecv := 1024 * 1024 * 1024, maxSend := 1024 * 1024 * 1024 }

/-- cmd/grpc/server/main.go:132-136; the server compresses its reply if the request was compressed. -/
def serverOptions (request : Options) : Options :=
  { compressed := request.compressed, maxRecv := 1024 * 1024 * 1024, maxSend := 1024 * 1024 * 1024 }

/-- The message as it is sent. -/
def payload (z : Gzip) (o : Options) (b : List Byte) : List Byte :=
  if o.compressed then z.compress (marshal b) else marshal b

/-- The size of a message on the connection: a flag, four bytes with the length, and the payload. -/
def size (z : Gzip) (o : Options) (b : List Byte) : Nat := 5 + (payload z o b).length

/-- One message from a sender to a receiver. The size is checked by the sender, and by the receiver before and after
decompression. -/
def transmit (z : Gzip) (sender receiver : Options) (b : List Byte) : Res (List Byte) :=
  let p := payload z sender b
  if p.length > sender.maxSend then err "trying to send message larger than max" else
  if p.length > receiver.maxRecv then err "grpc: received message larger than max" else
  match (if sender.compressed then z.decompress p else some p) with
  | none => err "grpc: failed to decompress the received message"
  | some m =>
    if m.length > receiver.maxRecv then err "grpc: received message after decompression larger than max" else unmarshal m

/-- A call of `Query` (lib/proto/vpir.proto:7-10; cmd/grpc/client/main.go:421-433, manager/mod.go:223-236) whose handler on
the server side is `handler`. -/
def call (z : Gzip) (o : Options) (handler : List Byte → Res (List Byte)) (q : List Byte) : Res (List Byte) := do
  let q ← transmit z o (serverOptions o) q
  let a ← handler q
  transmit z (serverOptions o) o a

/-- The servers behind the connections, as the clients see them. -/
def overWire (z : Gzip) (net : Client.Net) : Client.Net :=
  { net with answer := fun a q => call z clientOptions (net.answer a) q }

/-- What somebody sees who can watch the encrypted connections of a lookup of index `i` at `n` servers: for each connection the
sizes of the query (cmd/grpc/client/main.go:294-316, manager/mod.go:80-103) and of the answer
(cmd/grpc/server/main.go:256-276). -/
def sizes (z : Gzip) (o : Options) (dpf : Point.Dpf) (read : Nat → Res (List Byte)) (mode : Nat) (db : Database.Bytes)
    (i n : Int) : Res (List (Nat × Nat)) := do
  let (qs, _) ← Point.query dpf read db.info i n
  qs.mapM fun q => do
    let a ← Point.answer dpf mode db q
    ok (size z o q, size z (serverOptions o) a)

/-- `Point.retrieve` (lib/client/pir_point.go:38-78) with the messages sent over the connections. -/
def retrieve (z : Gzip) (dpf : Point.Dpf) (read : Nat → Res (List Byte)) (mode : Nat) (db : Database.Bytes) (i n : Int) :
    Res (List Byte) := do
  let (qs, st) ← Point.query dpf read db.info i n
  let answers ← qs.mapM (call z clientOptions (Point.answer dpf mode db))
  Point.reconstructValue answers db.info st

end Verif.Wire
