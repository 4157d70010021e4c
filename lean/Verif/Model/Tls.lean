import Verif.Model.Deploy

/-! # Model of the authentication of the servers

lib/utils/tls.go with the places that use it: cmd/grpc/server/main.go:123-135 and the `connectToServers` / `Connect` of the
client programs. Encryption and signatures are ideal: a handshake proves that the peer knows the secret key that belongs to
the certificate it shows, and a certificate carries the number of the key that signed it. -/

namespace Verif.Tls
open Res

/-- A certificate, as far as `x509.Certificate.Verify` looks at it. A key pair is one number; times are seconds since 1970.
Key usages are left out (every certificate of lib/utils/tls.go allows `TLS Web Server Authentication`). -/
structure Cert where
  key : Nat
  signer : Nat
  serial : Nat
  names : List String
  notBefore : Int
  notAfter : Int
  isCA : Bool
deriving DecidableEq, Repr

/-- lib/utils/tls.go:14-124: all five certificates name this computer only. -/
def localNames : List String := ["localhost", "127.0.0.1", "::1"]

/-- lib/utils/tls.go:14-124: the authority (mkcert) that signed the certificates; its own key is not in the source. -/
def authority : Nat := 100

/-- lib/utils/tls.go:14-124 `ServerPublicKeys`, decoded: serial numbers, names and times are those of the certificates; the
`i`-th public key is called `i`. -/
def serverPublicKeys : List Cert :=
  [⟨0, authority, 0x690E994FF7949D58F7C88D330E6BB5CC, localNames, 1728729074, 1799753474, false⟩,
   ⟨1, authority, 0xAD47392BFFE4CB43686633F527301ECC, localNames, 1728729082, 1799753482, false⟩,
   ⟨2, authority, 0xBECABA37E1DBBE29EE2BF4AE59478AA4, localNames, 1728729090, 1799753490, false⟩,
   ⟨3, authority, 0x24D681B7CC40A1F98B81F164DF175D0D, localNames, 1728729097, 1799753497, false⟩,
   ⟨4, authority, 0x60F5094272D18EC73088A3EDED746580, localNames, 1728729105, 1799753505, false⟩]

/-- lib/utils/tls.go:126-156 `serverSecretKeys`: the key pairs that the secret keys belong to. -/
def serverSecretKeys : List Nat := [0, 1, 2, 3, 4]

/-- `tls.X509KeyPair` (lib/utils/tls.go:168): fails unless the secret key belongs to the certificate. -/
def x509KeyPair (c : Cert) (sk : Nat) : Res (Cert × Nat) :=
  if c.key = sk then ok (c, sk) else err "tls: private key does not match public key"

/-- lib/utils/tls.go:161-175 `init`: the value of `ServerCertificates`; an error ends the program. -/
def serverCertificates : Res (List (Cert × Nat)) :=
  (List.range Deploy.numCertificates).mapM (fun i => do
    let c ← idx serverPublicKeys i
    let sk ← idx serverSecretKeys i
    Client.orFatal (x509KeyPair c sk))

/-- What a client accepts: lib/utils/tls.go:184 `NewClientTLSFromCert(cp, "127.0.0.1")`. -/
structure Creds where
  roots : List Cert
  serverName : String
deriving DecidableEq, Repr

/-- lib/utils/tls.go:177-187 `LoadServersCertificates`. `AppendCertsFromPEM` skips a certificate that is in the pool
already; it cannot fail here as all five texts are certificates. -/
def loadServersCertificates : Creds where
  roots := serverPublicKeys.foldl (fun cp c => if c ∈ cp then cp else cp ++ [c]) []
  serverName := "127.0.0.1"

/-- `crypto/x509`: a certificate is valid from `NotBefore` to `NotAfter`, both included. -/
def inTime (now : Int) (c : Cert) : Bool := decide (c.notBefore ≤ now) && decide (now ≤ c.notAfter)

/-- `crypto/x509` `CheckSignatureFrom`: only an authority can sign for others. -/
def signedBy (c p : Cert) : Bool := p.isCA && decide (c.signer = p.key)

/-- `crypto/x509` `buildChains`: a chain of at most `n` signatures over the certificates `more` sent by the peer to a root. -/
def chains (roots more : List Cert) (now : Int) : Nat → Cert → Bool
  | 0, _ => false
  | n + 1, c =>
    roots.any (fun p => signedBy c p && inTime now p) ||
      more.any (fun p => signedBy c p && inTime now p && chains roots more now n p)

/-- `crypto/x509` `Verify`, as called by a TLS client: the leaf is valid now, it is made for the expected name, and it is
itself a root or there is a chain from it to a root. -/
def verify (cr : Creds) (now : Int) (leaf : Cert) (more : List Cert) : Bool :=
  inTime now leaf && decide (cr.serverName ∈ leaf.names) &&
    (decide (leaf ∈ cr.roots) || chains cr.roots more now (more.length + 1) leaf)

/-- Whoever answers at an address: the certificates it shows and the secret keys it knows. -/
structure Peer where
  leaf : Cert
  more : List Cert
  knows : List Nat
deriving DecidableEq, Repr

/-- The TLS handshake as the client sees it: the client verifies the certificate and checks that the peer has signed with
its key. Clients show no certificate (cmd/grpc/server/main.go:126 `NoClientCert`). -/
def handshake (cr : Creds) (now : Int) (p : Peer) : Res Unit :=
  if verify cr now p.leaf p.more then
    if p.leaf.key ∈ p.knows then ok () else err "tls: invalid signature by the server certificate"
  else err "x509: certificate is not valid"

/-- cmd/grpc/client/main.go:435-446 `connectToServer` and manager/mod.go:45-56, simulations/multi/client/client.go:252-271:
dialling an address at which `world` says who answers. The credentials are the same for every address. -/
def dial (world : String → Option Peer) (now : Int) (addr : String) : Res Unit :=
  match world addr with
  | none => err "did not connect"
  | some p =>
    match handshake loadServersCertificates now p with
    | ok _ => ok ()
    | _ => err "did not connect"

/-- cmd/grpc/server/main.go:124-127 and simulations/multi/server/server.go:73-76: what the server with this `id` shows. Every
process has all five secret keys in its memory (lib/utils/tls.go:161-175), but shows and uses only one. -/
def serverPeer (id : Int) : Res Peer := do
  let certs ← serverCertificates
  let c ← Deploy.idxInt certs id
  ok ⟨c.1, [], [c.2]⟩

/-- The servers as the clients see them through TLS: `beyond` is what the connections lead to. -/
def secured (world : String → Option Peer) (now : Int) (beyond : Client.Net) : Client.Net :=
  { beyond with dial := dial world now }

end Verif.Tls
