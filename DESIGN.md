# Formal model of dedis/apir-code in Lean 4 — design

A property that is false of the code is kept in `properties.jsonl` as the statement the user relies on. The Lean
files then contain the full statement (`Cnn_Statement`), a theorem refuting it with a witness (`..._refuted`) and
the strongest positive statement found (`..._partial`). Section 4 lists all such disagreements.

## 1. How the code is modelled

* Go values: `byte` = `BitVec 8`, `uint32` = `BitVec 32` (wrap-around arithmetic is real), `uint128` =
  `BitVec 128`, slices = `List`, `int` = `Nat`, or `Int` where negative values matter. Go `int` has 64 bits;
  its overflow is not modelled unless a comment says so. C `int` overflow in the matrix kernels is modelled.
* Every function that can fail returns `Res α` = `ok a | err msg | crash msg`. `err` is a returned Go `error`;
  `crash` is a run-time panic, an explicit `panic(..)`, `log.Fatal`, or C undefined behaviour. Slice indexing and
  slicing are bounds-checked and give `crash`.
* Slicing in Go is checked against the capacity, not the length. Where this matters it is handled: `DecodeProof`
  (C09, C12) takes the bytes that follow the slice in memory as an argument; decoded answers and row digests are
  fresh allocations and are taken to have capacity = length.
* Loops are modelled as loops (`forLoop`) with the index arithmetic of the source, and proofs go through a
  loop-invariant rule, so that an index slip in the model is visible to the theorems.
* Randomness is an explicit argument: theorems quantify over all random strings; distributional claims count
  random strings (C03, C23, C31) or average over them (C53).
* External libraries are parameters, and what is assumed about them is a visible hypothesis of the theorem:
  AES (any function from blocks to blocks), hash functions (any function to 32 bytes), the two-party DPF library
  (its contract), group arithmetic (any commutative group with an encoding), sorting (any sorted permutation),
  map iteration (any permutation), OpenPGP entities (opaque bytes with an identity list and a time).
* Goroutines, channels and RPC handlers are explicit-step transition systems; theorems quantify over all schedules.

Layout: `Verif/Go.lean` (Go semantics), `Verif/Model/*` (the code), `Verif/Spec/*` (specification vocabulary that does
not mention the model's helpers), `Verif/Lemmas/*` (helper lemmas), `Verif/Props/*` (the property theorems with their
non-vacuity examples).

| model file | code |
|------------|------|
| `Model/Padding`, `Model/Encoding` | lib/database/pgp.go (padding), lib/utils/encoding.go |
| `Model/Rand`, `Model/RandShared` | lib/utils/rand.go; its calls by concurrent goroutines |
| `Model/Field` | lib/field/field.go |
| `Model/Fss` | lib/fss |
| `Model/Query` | lib/query/query.go |
| `Model/Predicate` | lib/client/fss.go, predicate_pir.go, predicate_apir.go, lib/server/fss.go, predicate_apir.go |
| `Model/Point`, `Model/Database` | lib/client/pir_point.go, client.go, lib/server/point.go, lib/database/bytes.go, db.go |
| `Model/Merkle`, `Model/MerklePir` | lib/merkle, lib/database/merkle.go, reconstruction in lib/client/pir_point.go |
| `Model/Matrix`, `Model/Lwe` | lib/matrix (Go and C), lib/utils/lwe.go, gauss.go, lib/client/lwe.go, lwe128.go, amplify.go, lib/server/lwe.go, amplify.go, lib/database/lwe.go |
| `Model/Ecc` | lib/ecc/ecc.go |
| `Model/Dh`, `Model/Parallel` | lib/client/dh.go, lib/server/dh.go, lib/database/elliptic.go and its goroutines |
| `Model/Layout` | lib/utils/utils.go, lib/database/db.go (rows, columns, index conversion) |
| `Model/Pgp` | lib/pgp/pgp.go, lib/database/pgp.go, key lookup of cmd/grpc/client/manager |
| `Model/Rpc` | cmd/grpc/server/main.go (channel, worker, shutdown) |
| `Model/Life` | cmd/grpc/server/main.go:163-219 (main goroutine), cmd/grpc/sdnotify/sdnotify.go |
| `Model/Cmd` | cmd/grpc/client/manager, main.go, web, lib/utils/config.go, data/main.go, file selection of the server |
| `Model/Client` | the three client programs: cmd/grpc/client/main.go, manager, interactive, web, with the network and the scheduler as parameters |
| `Model/Deploy` | cmd/grpc/server/main.go as a program: start from the dump, configuration, connection of clients and servers |
| `Model/Simul` | simulations/multi/server, simulations/multi/client, lib/database/db.go (random keys) |
| `Model/Local` | simulations/simul.go, preprocessing.go, types.go |
| `Model/Shared` | lib/fss/server.go and lib/server/fss.go under concurrent RPC handlers (simulations/multi/server) |
| `Model/Data` | data/main.go with the file functions of lib/pgp/pgp.go, on a disk |
| `Model/Tls` | lib/utils/tls.go (certificates, secret keys, credentials), their use in cmd/grpc/server/main.go:123-135 and in the dialling of the clients; `crypto/x509` verification |
| `Model/Web` | cmd/grpc/client/web/mod.go as a process that serves many requests: routing, handlers, recovered panics and `log.Fatal` |
| `Model/Wire` | lib/proto/vpir.proto (`QueryRequest`, `QueryResponse`), call options of the clients and the server (compression, size limits); gRPC v1.56.3, protobuf and gzip as libraries: what the options ask of them is modelled, the compressor is a parameter |
| `Model/Object` | the client objects of lib/client (`PIR`, `DH`, `LWE`, `LWE128`, `Amplify`, `PredicatePIR`, `PredicateAPIR`): which call assigns and which reads the state field, and the scratch buffer of the key generation; the in-place subtraction in `LWE.Reconstruct` |
| `Model/Stop` | simulations/multi/server/server.go:147-182, 218-230: main goroutine, signal and error channels, HTTP handlers, calls; gRPC's `GracefulStop` and net/http's `Shutdown` by their effects |
| `Model/Float` | the floating-point ceilings and logarithms of lib/database/elliptic.go:36, lib/server/dh.go:30, `bitsToBlocks` and lib/merkle/merkletree.go:61, 77, 93; rounding and logarithm are parameters (`Spec/Monitor.Nearest`, `Spec/Float.Log2`) |
| `Model/Zone` | package time's `Unix`, `Date` in UTC and `MarshalBinary` (Go 1.17); creation times of OpenPGP keys as lib/database/pgp.go:199-226 gets them; two servers with a zone each |
| `Model/Gauss` | lib/utils/gauss.go:30-49 on the words of the random generator, with `Int63`, `Int31n`, `Float64` and `Uint64` of Go's math/rand as lib/utils/rand.go:127-148 feeds them; noise matrices |
| `Model/Coins` | the draws of lib/client/lwe.go:39-58 and lwe128.go:40-59 from the client's generator and from the generator shared by the process (lib/utils/rand.go:39, 152-154); the draws of all base clients of lib/client/amplify.go:17-38 |
| `Model/ElementDb` | lib/database/db.go: `NewBitsDB`, `CreateRandomBitsDB`; bytes.go: `CreateZeroBytes` |
| `Model/PointStream` | lib/client/pir_point.go:46-68, 80-96 with the generator of lib/utils/rand.go: a point query together with the state of the generator after it |
| `Model/LweStream` | lib/client/lwe.go:31-58 and lwe128.go:40-59 with both generators (lib/utils/rand.go): a lattice query together with what it leaves of the generators for the next one |
| `Model/CountStream` | lib/client/fss.go:47-72 for one client object: what a predicate query finds and leaves of the generator and of the scratch buffer of key generation |
| `Model/Monitor` | lib/monitor: `getCPUTime`, `iiToMS` and the methods of `Monitor`, with the rounding of `float64` as a parameter (`Spec/Monitor`: to a nearest double) |
| `Model/Interactive` | cmd/grpc/client/interactive/mod.go as a program: configuration, connections, the loop of the menu, what is printed and how the program ends (the start also for the web client) |

## 2. Trusted base

* The Lean 4.33.0 kernel and the three standard axioms `propext`, `Classical.choice`, `Quot.sound` (each property
  theorem depends on a subset of these three). No other axiom, no `sorry`, no `native_decide`, no `bv_decide`.
* The hand translation from Go and C to Lean; each definition cites file and lines and names its simplifications.
* Idealised: gob encoding is the identity on values (in `Model/Data` a byte encoding with a decoder that reads back
  what was written, and paths are clean: `filepath.Join` is concatenation with a slash; a write is atomic, so that
  interruptions happen between writes of keys); `time.MarshalBinary` is an abstract encoding of the day (concrete in `Model/Zone`);
  strings are lists of bytes (or characters for file names); `math.Sqrt` and the 64-bit float operations of the
  layout are modelled as exact round-to-nearest (`Model/Layout`), `math.Log2`/`Ceil` of quotients as exact integer
  functions (which C100 justifies); the discrete Gauss table is a list of exact decimals; big-endian words written by Go and read by C are
  inverse to each other.
* Concurrent accesses to the scratch arrays (`Model/Shared`) are interleaved byte by byte or block by block as the comments
  there say (sequential consistency); the Go memory model promises less to programs with data races, so that the real
  behaviours include those of the model.
* The gRPC library in `Model/Life`: a call is accepted until `GracefulStop` begins; `GracefulStop` returns when every accepted
  call has returned; `Serve` may fail at any time before; a panic of a handler ends the process.
* The group library is a commutative group with an encoder and a decoder (`Grp`, `Model/Dh`); its `RandomScalar` reads a fixed number of
  bytes in one go and makes a scalar of them in any way (`Sampler`, `Model/DhStream`).
* TLS is ideal in `Model/Tls`: a completed handshake proves that the peer knows the secret key of the certificate it shows, and
  nobody else reads or changes what is sent. The fields of the five certificates were read off with `openssl x509`; that each
  secret key belongs to its certificate was checked the same way. Certificates are verified when a connection is made.
* Not modelled: the TLS protocol itself, gRPC transport, OpenPGP parsing, timing, memory exhaustion and allocation limits, file system
  errors (except missing files and directories in `Model/Data`), the terminal user interface, the timing and logging of the experiment programs and their
  plotting scripts.
* C53 assumes nothing about hardness: it bounds a server's advantage by the advantage of explicit tests. That those
  advantages are small for AES, LWE and the group is the usual cryptographic assumption and stays outside.

## 3. Property plan

| id | what is modelled | how it is proved |
|----|------------------|------------------|
| C01 | `secretShare`, `Query`, server `Answer`/`xorValues`, `reconstructValuePIR` on flat byte slices with offsets | loop invariants; answer of a server is the GF(2)-linear selection by its bit vector; linearity over the shares |
| C02 | same with the DPF as a parameter (`Gen`, `EvalFull`) under its contract | reuse of C01's linearity; `bits.Len` bound |
| C03 | `secretShare` as a function of the random bytes | explicit bijection: each view of n-1 servers has exactly one random string |
| C04 | `invalidQueryInputsIT` on `Int` | refuted by witness; partial: what is rejected |
| C05 | both `reconstruct` functions | permutation invariance by commutativity, and panic-for-panic agreement |
| C06 | server constructor used by the binary | refuted: for two servers the client sends DPF keys, the server reads them as bit vectors |
| C07 | `New`, `GenerateProof`, `VerifyProof` on the flat node array | heap-array invariant, induction on depth; `C07_exact` says for which lists the claim holds |
| C08 | `VerifyProof` | refuted by the zero-length-proof forgery for every tree with >= 2 leaves; partial: full-length proofs, collision extraction by induction on depth |
| C09 | `encodeProof`/`DecodeProof` | loop invariant |
| C10 | `makeMerkleEntries`, `reconstructPIR` + C01 + C07 + C13 | composition; `C10_exact` for lists in which checksums clash |
| C11 | `reconstructPIR` | refuted: a single malicious server substitutes another record; partial via C08 |
| C12 | `reconstructPIR`, `UnPadBlock`, `DecodeProof` | refuted by witnesses; partial: exact no-panic condition |
| C13 | `PadBlock`, `PadWithSignalByte`, `UnPadBlock` | list reasoning |
| C14 | `makeHashTable`, `GenerateRealKeyBytes` | fold invariant |
| C15 | `sortById` specified as any sorted permutation | uniqueness of sorted permutations with distinct keys |
| C16 | as C14 + `UnPadBlock` | refuted: empty bucket panics; partial: non-empty bucket |
| C17 | `saveKeyIfValid` fold over entities | invariant by induction over the history |
| C18 | `CalculateNumRowsAndColumns`, `VectorToMatrixIndices` | arithmetic |
| C19 | `GenerateTreePF`, `EvaluatePF`, `prf`, `convertBlock` | induction on the path: on-path seeds differ and t-bits differ, off-path states coincide |
| C20 | same | refuted (bit 256 is read as 0); partial: exact condition on bit 256 |
| C21 | `query`, `answer`, `reconstruct` + C19 | sum over the keys |
| C22 | same, AVG branch | refuted for no match (division by zero); partial otherwise |
| C23 | `reconstruct` | field argument with p = 2^31-1 prime |
| C24 | `convertBlock` | refuted: fifth component of the final correction word is the fourth MAC key up to sign, for every PRF and seed; C24_three_keys_hidden_partial: the other three are hidden (from C53) |
| C25 | `runQueries` with an arbitrary iteration order | refuted: swapped order makes the client accept p - count |
| C26 | `IdFor*`, `ByteToBits`, the composed selector of the servers | injectivity; composed selectors by their first 32 bits |
| C27 | `time.Date` normalisation on a proleptic Gregorian calendar | refuted for every year |
| C28 | `RandElementWithPRG`, `RandVectorWithPRG` on streams | loop reasoning |
| C29 | `toElement` with its re-sampling oracle | refuted at 0x7fffffff; partial elsewhere; `C29_exact` |
| C30-C32 | LWE clients/servers/databases for width 32 and 128 | ring identity for BitVec matrices, centred intervals |
| C33 | amplification | composition of C30/C31 and C35 |
| C34-C35 | `ecc` | counting; C34 refuted for every t >= 1 |
| C36 | C kernels with `int` index arithmetic | loop invariants; overflow of C `int` explicit |
| C37 | serialisers | loop invariants; `C37_matrices_exact` is the exact condition for lists |
| C38 | `GaussSample`, `NewGauss`, `NewGauss128` | bound from the table length |
| C39-C41 | DH client/server/database over an arbitrary commutative group | group algebra; `C39_exact` where the neutral element has a short encoding |
| C42 | chunking of rows among goroutines | exact no-crash condition, chunks tile the rows; refuted in general |
| C43 | marshalling with an abstract encoder | round trip for fixed-length encodings; refuted for the variable-length identity; `C43_exact` |
| C44-C45 | state machine of RPC handlers, channel, worker, shutdown | invariants over all schedules; C45 refuted |
| C46 | `equalDBInfo`, `GetDBInfos` | refuted for root/type; partial for dimensions |
| C47-C48 | `PRGReader` as a key-stream with a position | induction over the history of reads |
| C49 | `LoadConfig` | permutation independence; out-of-range index panics; `C49_outcome`, `C49_loaded`, `C49_order_exact` settle every configuration and order |
| C50 | encoders | round trip |
| C51 | handlers as lists of writes | refuted for two handlers |
| C52 | chunk splitter | fold invariant |
| C53 | queries of the LWE, LWE-128, DH and authenticated predicate clients as functions of their coins | the message equals a function of an LWE/DH/PRG sample shifted at one position; for predicate keys a hybrid over the levels of the tree (bijection on the 48 expanded bytes) plus a permutation argument for the final correction word; every test in the bound is an explicit definition |
| C54 | `BufPRGReader` as a buffer over a key stream | induction over draws and refills |
| C55 | server `answer` on arbitrary decoded messages | refuted: classes of messages that panic, proved for all of them |
| C56 | LWE servers on arbitrary query bytes, C kernels with explicit out-of-bounds reads | refuted for 32 bit, partial for complete queries; `C56_exact` gives the queries that are answered |
| C57 | import, table, lookup composed | composition of C14, C17 and C01 |
| C58 | `GetAllFiles`, `getSksFiles`, chunk names | string order of decimal numerals; refuted for too many files and from chunk 1000 on. `C58_exact`: with any number of chunks, a request for k files always gets the first k chunks exactly when k ≤ 101 |
| C59 | key generation with one value | refuted: the sign of the final correction word is a control bit; exclusion theorem for all predicates, keys and ciphers |
| C60 | the three client programs, from addresses to what is shown | composition of C14/C16 with permutation arguments over enumeration and arrival orders; refuted for two servers of the server program |
| C61 | the messages that leave the client programs | counting of random strings over the shares (C03), lifted to addresses; for two servers exact reduction to one key of the distributed point function; refuted for repeated addresses |
| C62 | the client programs with one dishonest server among honest ones | positive part from C11 for any answers; refuted by explicit masks, independent of queries and randomness (linearity of the reconstruction) |
| C63 | the three programs against two predicate servers, the printed line included | arbitrary order of arrival; reduced to C21, C22 and C25 by showing that answers of equal length can be exchanged. `C21_text_any_length` settles texts of more than 32 bytes |
| C64 | the server program from options to running server, and a deployment of several of them with the clients of C60 | startup composed from C49, C58, C14, C15; the network built from the running servers is shown to consist of honest point servers; then C60. `C64_dump_partial` composes C17, C52, C57, C58 and C60 |
| C65 | the deployment of C64 with the predicate schemes and the clients of C63 | `C65_database`: loadServer on the chunks gives the description of the newest key of each stored address (C17, C52, C57); `count_addresses` turns counting descriptions into counting addresses; then C63 |
| C66 | the experiment programs `simulations/multi/server` and `client`: options, random databases, rows, repeated retrieval, reported bytes (Model/Simul) | composition of the server start, the contents of the random databases and the retrieval theorems of C01, C02 and C10; induction over blocks and repetitions |
| C67 | as C66 with the schemes fss-classic and fss-auth, `CreateRandomKeysDB`, `Randate`, `Ranstring` over an arbitrary generator | loop invariants for the generated keys; servers are honest predicate servers 0 and 1, then `text_count` (C21) for every repetition |
| C68 | the program `simulations/simul.go` with the primitives `cmp-vpir-lwe` and `cmp-vpir-lwe-128`: configuration, layout, random database, repeated retrieval, report by length (Model/Local) | shapes of all matrices along the exchange for the sizes; `amplify_exchange` (C33) and `reconstruct_honest` (C32) for the bits; `C36_computed_only_if_fits` for the overflow |
| C69 | as C68 with the primitive `cmp-vpir-dh` | `C39_retrieve_partial` for each repetition with explicit query and answer lengths; `C42_crash_iff` for the goroutines; `C39_zero_row_never` for the refutation |
| C70 | `RandomMerkleDB` and its call in `simulations/simul.go` | `sealed_of_mem` (C07, C09) for every block, induction over the repetitions |
| C71 | the tool `data/main.go` on a disk (a map from paths to files and directories) as a sequence of writes; reading of directories and files by tool and server (Model/Data) | induction over the keys relates the writes to the chunks of C52 (`splitLoop_spec`); directory listings from the disk; C17 for the keys; `C71_shown_partial` composes with C64 |
| C72 | the runs of C71 cut off after any number of writes, and sequences of such runs | every prefix of the writes corresponds to a prefix of the keys (`split_run`, `write_run`); every write goes to an output (`main_targets`); induction over the history |
| C73 | `GetSksOriginalDumpFiles` with a matcher for its regular expression (Model/Data) | induction over the name relates the matcher to containing an instance of the pattern |
| C74 | `PrimaryEmail` (Model/Pgp) | from the characterisation `filed` of C17 |
| C75 | the evaluation of a share as a program of small steps on the arrays that all handlers share, the handler of lib/server/fss.go with its calls left open, goroutines interleaved by an arbitrary schedule (Model/Shared) | simulation of the sequential function of Model/Fss by the steps when nothing else runs (`eval_sim`), invariant over schedules (`inv_run`); the counterexample is a schedule of 720 steps computed by the kernel |
| C76 | the server program of C64 as the answering function of the process of C44, and the client programs of C60 behind a network that returns what such processes return or fails (Spec/Uptime) | invariant over reachable states of the process (`answered_survived`); the outcome of a client computation is the same or a crash, compositionally (`SameOrEnd`); lengths of the queries and the panics of the server functions from C01, C55 and C64 |
| C77 | the main goroutine of the server with its channels for signals and errors and the notification function, around the process of C44 (Model/Life) | refinement to the process of C44 and an invariant over reachable states (`inv_reach`); a measure that every step of the process decreases; case analysis of the states at rest |
| C78 | the amplified client of C33 and the driver's table (Model/Lwe, Model/Local) | counting of multiplier vectors: exact case analysis of one repetition by its multiplier (`rep_cases`), bijection of the bad multipliers with an interval of 2B-1 words, union bound and exact sum over the sets of failing repetitions (`card_outvoted_le`, `card_outvoted_eq`) |
| C79 | `RandInt`, `Uint64`, `Int63`, `Seed`, `crypto/rand.Int` with the mutex, one step per read of the buffered source (Model/RandShared) | invariant over all schedules (`Good`): at most one goroutine is in a call and holds the mutex, finished draws tile the stream; lexicographic measure for the end of runs; counting of candidates |
| C80 | certificates and keys of lib/utils/tls.go, `LoadServersCertificates`, `x509.Verify` with chains, handshake, dialling (Model/Tls) | induction over chains (no root is an authority), characterisation of accepted peers; parity of the shares of a lookup |
| C81 | all handlers of cmd/grpc/client/web/mod.go with routing and tracing, `GetKey`, `GetDBInfos`, `RunQueries`, and the process that serves many requests (Model/Web) | invariants over all histories; refinement to the pages of Model/Client and Model/Cmd; characterisation of `strconv.Atoi` by numerals |
| C82 | lib/monitor (Model/Monitor) with rounding as a parameter | induction over the calls; monotonicity and error bounds of rounding to nearest |
| C83 | cmd/grpc/client/interactive/mod.go as a program, and the start of the web client (Model/Interactive) | induction over the inputs; characterisation of the start; reduction of single requests to C60, C63 and C81 |
| C84 | authenticated counting queries with one forging server (Model/Predicate, Model/Fss; the run in Spec/Forgery) | game hops: the forging server's view by hybrids over the levels of the tree and the derived values, with the MAC keys drawn afterwards; simulation of the honest answer from the other key; at most 54 of the p^3 hidden keys satisfy the checks |
| C85 | authenticated average queries with one forging server (as C84) | as C84, with a test for ten words; refutation by a concrete world in which the attack succeeds for all randomness and the tests have no advantage |
| C86 | `QueryBytes` and `ReconstructBytes` of lib/client/dh.go against an arbitrary server (Model/Dh; the view in Spec/Reaction) | simulation: the loop over all rows ends as a comparison with the honest answer unless a row differs by the secret element; one hop to uniform vectors; union bound over the rows |
| C87 | as C86 | C40 turns a wrong bit into a hit of the secret element; then as C86 |
| C88 | `QueryBytes` and `ReconstructBytes` of lib/client/lwe.go and lwe128.go against an arbitrary server (Model/Lwe; the view in Spec/ReactionLwe) | simulation: the loop over all columns ends as a comparison with the honest answer up to the noise unless a column differs by about the multiplier; hops with and without a hint on the noise; union bound over columns and distances |
| C89 | as C88 | C31 and C32 turn a wrong bit into a hit of the multiplier up to 2B; then as C88 with one column |
| C90 | `QueryBytes`, `Answer` and `ReconstructBytes` of the Merkle-authenticated lookup against one arbitrary server (Model/Point, Model/MerklePir; the view in Spec/ReactionMerkle) | two attacks for every database; otherwise the reaction is a function of message, deviation and requested block, and the bijection of C03 between random strings preserves it |
| C91 | `reconstruct` on answers whose words are not reduced, in whole count queries against one deviating server (Model/Predicate; Spec/WrapAround) | honest answers as tagged shares (from `count_core`), exact value of the 32-bit sum, primality of the modulus for the rejection |
| C92 | message and reaction of a count query against one lying server, over the client's randomness (Model/Predicate, Model/Fss; Spec/ReactionPredicate) | pointwise: accepted with the right result iff the five sums are the honest ones; union with C84; C53 applied to the test that sees message and predicted reaction |
| C93 | sizes of the messages of a lookup with the call options of the programs (Model/Wire); compressor a parameter | parity of the shares at a column; counting argument against lossless compressors; the bijection of C03 for the positive part |
| C94 | encoding of `QueryRequest` and `QueryResponse`, compression and size limits (Model/Wire) | round trips, case distinction on the limits, composition with C01 |
| C95 | sessions of lookups with an adaptive server (Spec/History) over the clients of Model/Point, Dh, Lwe and Predicate | hybrid argument by induction on the number of lookups, from C03, C86, C88, C92 |
| C96 | as C95 | union bound by induction on the number of lookups, from C84, C87, C89 |
| C97 | client objects with their state field, all sequences of calls (Model/Object) | invariant over the calls (scratch buffer of the key generation, length of the MAC keys); the state after a successful query does not depend on the one before; overlap by comparison with the query for the mixed index |
| C98 | `Reconstruct` of the LWE client with the caller's matrix as an in-out argument | witness computed by the kernel; the byte interface by C97 |
| C99 | main goroutine, handlers of calls and of HTTP requests, signal and error channels as a transition system (Model/Stop) | inductive invariant counting what went through the channel; decreasing measure; at-rest analysis; witness run for the refutation |
| C100 | the sizes with an arbitrary rounding to a nearest double and an arbitrary accurate logarithm (Model/Float) | a double closer to the quotient than the integer below it; Bernoulli's inequality keeps logarithms away from integers |
| C101 | binary form of times, local times of the servers, one database per server (Model/Zone) | selectors of the two servers compared key by key; then the counting theorem of C21 |
| C102 | the predicate run of Model/Predicate with random client seeds (Spec/Chance) | two hybrid arguments: other party's expansions replaced by random bytes level by level, then the walk's own expansions; union bound over the distinct selectors |
| C103 | `randElementWithPRG` and `drawKeys` (Model/Field, Model/Predicate) on a key stream with random blocks (Spec/Uniform) | law of the low 31 bits of one block by splitting coordinates; induction over the tries with a continuation of known mean, then over the keys |
| C104 | `GaussSample` with `Intn`, `Float64`, `Uint64` of math/rand on a list of random words (Model/Gauss), rounding as in `Spec/Monitor` | the sampler as a machine that reads one word at a time; recurrence for the mean over all words, solved as (chance of the value) × (common amount); bounds of the amount by induction; the table against exp by exact powers of one bounded value |
| C105 | the draws of `Query` from the client's generator and from the shared buffered one (Model/Coins on Model/Rand and Model/Gauss) | the words served are a bijection of the key stream bytes given the past; bytes of different positions are independent; C104 for the noise |
| C106 | C105's draws with the honest retrieval of C30 and C32 | exponential weights (10/7)^noise: the mean weight of one noise value shifted by 84 is below 2^-38 (checked over the 257 values with the rounded table), Markov and a union bound over columns and directions; with small noise the retrieval fails iff a one is stored and the multiplier is one of exactly 168·rows ∓ 1 words; the multiplier is uniform and independent of the noise |
| C107 | the draws of all base clients (Model/Coins) with the amplified retrieval of C33 | the multipliers of the base clients are bytes at different positions of one key stream, hence uniform and independent of each other and of the noise; with small noise the result is the decoding of votes that depend on the multipliers alone; exact count of the votes (C78) |
| C108 | the amplified query of C33 as bytes, probabilities as means over finite types | the message carries vectors s A + e with a multiplier added at one position; adding it to uniform vectors changes nothing; the vectors are replaced by uniform ones one at a time |
| C109 | the amplified retrieval of C33 against an arbitrary answering function | reduction of the reaction to a comparison with the honest answers (Lemmas/ReactionAmplify), hybrid argument over the repetitions, union bound over repetitions and columns |
| C110 | the amplified retrieval of C33 against an arbitrary answering function | a wrong vote means that the server shifted the honest answer of this repetition by the multiplier up to 2B-2; the first and t other votes must be wrong; hybrid argument, then independence of the multipliers of the message |
| C111 | goroutines, their channels and the receiving loop as steps (Model/Parallel), the work of a goroutine as in Model/Dh | invariant of the reachable states, a variant for termination, progress; the chunks of C42 put together |
| C112 | the kernels of C36 | the conditions of C36 shown to be necessary: otherwise taking the address of an element panics or an index is negative |
| C113 | the encodings of C37 | the length of the encoding bounds rows, columns and count; then the round trip of C37 |
| C114 | the programs of C71 with their schedules | replies collected in two fair schedules are permutations of each other; reconstruction depends on the collection only (C05) |
| C115 | the programs of C71 | every path to an output goes through the comparison; with parameters that differ the comparison fails before the network's answers are used |
| C116 | the handshake of C80 put below the programs of C71 and the messages they send | a failed dial ends the list of connections in an error, before anything is sent |
| C117 | the life of a server process as in C77 | the invariants of C77 |
| C118 | the shared source of C79 | the invariant of C79; counting |
| C119 | the deployment of C76 | the refinement of C76: an answer given while others are served is the answer given alone |
| C120 | the web process of C81 | induction over histories; the requests that end the process are those of C81_ends_iff |
| C121 | the server's memory as in C75 | what a query leaves in the buffers is overwritten before it is read |
| C122 | the client objects of C97 | induction over the sequence with the two properties of C97 |
| C123 | key generation for the single value 1 (Model/Fss), probabilities as means over finite types | the hybrid argument of C53 level by level; the final correction word depends on the party's last control bit only, so that guessing it costs a factor of two |
| C124 | `CreateRandomBitsDB`, `NewBitsDB`, `CreateZeroBytes` (Model/ElementDb) | invariants of the two loops, the conversion lemma of C29 and the counting of C28; a concrete stream refutes the full claim |
| C125 | sessions of independent runs of the key generation of C123 | induction over the queries, replacing one message after the other by random bytes at the cost of a factor of two each |
| C126 | `VerifyProof`, `DecodeProof`, `reconstructPIR` (Model/Merkle, Model/MerklePir) | the path is followed back from the root until it ends or leaves the tree; case distinction on the length of the proof |
| C127 | the three programs of C60, with any servers | reduction of the programs to `lookup` (`shown_lookup`), C126 and the e-mail check |
| C128 | as C72 | the theorems of C72 about repetition, without the claim that an interrupted run is noticed |
| C129 | message and end (result, error, panic) of an average query against one lying server, over the client's randomness (Model/Predicate, Model/Fss; Spec/ReactionAverage) | pointwise without coincidences: the ten sums are the honest ones, or a check fails, or C85's forgery test succeeds; C53 applied to the test that sees message and predicted end; refutation by computing all error terms for a concrete world |
| C130 | as C99 | the theorems of C99 restricted to signals, with the bound on the number of steps |
| C131 | reconstruction of point lookups (with and without Merkle proofs) and of statistics, from any bytes | equivalence of each outcome with a condition on the lengths and words of the answers; a check loop panics iff some check does after all the earlier ones passed |
| C132 | the LWE clients with the draws of their generators (Model/Coins), the default parameters, any server | change of variables from the key streams to a multiplier, a secret and words; reduction of C89; tail bound of C106; the lower bound is C106 with the large-noise part taken off |
| C133 | as C132, with the reaction of the client visible to the server | as C132 with the reduction of C88; incomplete draws cost their probability once |
| C134 | point queries of one client object with the generator threaded through them (Model/PointStream) | induction over the lookups: the random bytes of the key stream split into those of this lookup and the later ones; then C95 |
| C135 | the draws of the amplified client from the two generators (Model/Coins), its query and reconstruction (Model/Lwe) | averages over the generators are averages over multipliers, secrets and words (avg_many_eq); noise from one stream of words against noise from separate words by summing over all noise vectors; then C110 |
| C136 | as C135, with the message and the ending as the server sees them | two tests that agree when the words run out differ no more than on independent draws, up to three times the chance of that (judge_gap); then C109 and C108 |
| C137 | lattice queries of one client object with both generators threaded through them (Model/LweStream) | a session whose draws come to an end is a function of the list of its draws; shared against independent draws as in C135; independent draws give the sessions of C95 |
| C138 | as C137, with the bits the client takes | as C137, with C96 |
| C139 | predicate queries of one client object with its generator and its buffer threaded through them (Model/CountStream) | mean over the random bytes of the generator by induction over the session (rejection sampling as in C103), then the hybrid argument of C95 over C92 and C129 |
| C140 | as C139, with the numbers the client returns | as C139, with C96 over C84 and C85 |
| C141 | one lookup by either program with a coalition's behaviour as a function of its messages (Spec/Presence over Model/Web, Model/Interactive, Model/Client) | the fate of a web lookup as a function of the members' messages, which are uniform; hybrid argument of C95; for the interactive program C60 and the shape of cut answers |
| C142 | answers to arbitrary query messages (Model/Predicate, Model/Fss, Model/Query), the server process (Model/Rpc, Model/Deploy) | each loop either keeps its invariant or panics at an iteration determined by lengths alone (forLoop_decides), level by level from correction words to the whole answer; then C44/C76 for the process |
| C143 | answers to arbitrary queries (Model/Point), the server process (Model/Rpc, Model/Deploy) | loop invariants give every byte of the answer (answerVec_spec), compared with a specification that sums blocks row by row; short queries panic at the first missing bit; then C44/C76 for the process |
| C144 | AnswerBytes of the LWE and group servers on arbitrary bytes (Model/Lwe, Model/Matrix, Model/Dh) | the kernel either returns or is undefined (closure of a predicate under binds and loops), and returns only if all indices fit (C36); decoding of any bytes computed word by word; row sums by loop invariants |
| C145 | ReconstructBytes of the LWE, amplified LWE and group clients on arbitrary bytes (Model/Lwe, Model/Matrix, Model/Ecc, Model/Dh) | decoding of any bytes computed word by word; the first iteration that does not succeed decides a loop; tables as inductive predicates shown to have one outcome each |
| C146 | as C137, with the draws of 2t+1 base clients per lookup (drawGroup, Model/LweStream) and the amplified client's message and ending | as C137 with lists of draws cut into groups; C109 per lookup |
| C147 | as C146, with the bits the client takes | as C146, with C96 and C110 |
| C148 | QueryBytes of the group client with the generator threaded through the lookups (Model/DhStream) | reads take disjoint uniform bytes (avg_read), so that a session is one with independent coins; C95 |
| C149 | as C148, with the bits the client takes | as C148, with C96 and C87 |
| C150 | as C148, with the honest server (Model/Dh) | C39 for all scalars but those that make an element neutral; union bound; C96's sum |
| C151 | as C137, with the honest server | C106's exact condition for a failure, averaged over independent draws; Lemmas/LweStream's comparison with the shared generators |
| C152 | as C146, with the honest server | C107 for one lookup; Lemmas/AmplifyStream's comparison of shared and independent draws |
| C153 | as C139, with honest servers | C102 for one query with any keys; Lemmas/CountStream's comparison of the shared generator with independent draws |
| C154 | as C92, with answers of any number of words | the client's loop stops with a panic where the words end (Lemmas/ReactionLength); a short answer is judged by the first tag alone, which fits a wrong number for at most 6·p² of p³ MAC keys |
| C155 | as C85, with answers of any number of words | a first answer of other than ten words is checked like a count against the honest server's first five words (Lemmas/AverageLength), so a forgery of either half contradicts the bound of C84 |
| C156 | as C129, with answers of any number of words | the client compares number and sum tag by tag in turn and panics where the words end (Lemmas/ReactionAverageLength); the first tag of either fits a wrong value for at most 6·p² of p³ MAC keys |
| C157 | as C139, with answers of any number of words | the hybrid over the queries of C139 with C154 and C156 for each step |
| C158 | `arrivedRun`: runs with one lying server and either order of arrival; the programs' `executeStatsQuery` with one lying server | the proofs of C84, C154, C155, C156 with the order as a parameter; every result of the programs is a run in one of the orders |
| C159 | `statsSees`: the message of the lying server and whether the menu loop of the interactive client goes on, for one statistics question | the program goes on exactly if `executeStatsQuery` gives a number, which is a run of C158 with the order of arrival as a function of the message; then the bounds of C158 for tests that read only this from the ending |
| C160 | sessions of one client object with a lying server that chooses the time of its answers (`watchTimed`); sessions at the interactive menu (`menuSees`) | the session arguments of C139, C140 and C157 with the bounds of C158; C159 turns a question at the menu into a run of C158 |
| C161 | `webStatsSees`: the message of the lying server and whether the process of the web front end goes on after a request for a count | the process ends exactly if a call fails, the honest server answers every message the client can send it; then the bound on the message alone |
| C162 | the command-line client `main` with servers of which one answers queries as it likes | a printed number is the result of `arrivedRun` for the enumeration of the connections; then C158 |

## 4. Where the code disagrees with the property

| id | finding |
|----|---------|
| C04 | parameters are rejected only if *both* the index and the number of servers are bad; one server is accepted and gets the index in the clear; an index past the end panics later |
| C05, C25 | predicate clients: answers in the other order give a reject, or the negated count, which is accepted |
| C06 | two deployed servers read compressed keys as bit vectors and never answer |
| C07, C10 | many duplicate records, or two records with the same 64-bit FNV checksum, make the proof generator panic. If they do not reduce the number of tree levels there is no panic, but the honest answers for all but the last of the records with that checksum are rejected |
| C08, C11 | a proof without hashes is accepted for a 60-byte string; the client does not compare the index in the proof with the one it asked for, so one server can substitute another record |
| C12 | an empty answer or an all-zero value crashes the client |
| C14, C16 | fewer than ten keys crash the generators; looking up an identifier in an empty bucket crashes the client |
| C18 | from 2^52 + 1 blocks on the floating-point layout can be one place short |
| C19, C21, C29 | a derived value equal to the modulus is re-sampled from system randomness, so shares do not cancel |
| C20 | bit 256 is used in key generation and ignored in evaluation |
| C22 | no matching key: division by zero; clocks in different years: reject |
| C24 | the fifth component of the final correction word is the fourth MAC key up to sign |
| C27 | a year query denotes 30 November of the previous year and matches no key of the year |
| C30 | the default bound B = 84 rows is below the range of the noise sampler (128 rows) |
| C34 | an error in the first symbol of a block is never corrected |
| C36, C56 | C `int` index overflow; the 32-bit LWE server reads out of bounds on a short query |
| C37 | lengths of 2^32 bytes and more are truncated |
| C39, C43 | the neutral element has a one-byte encoding on NIST curves, so zero rows are unreadable |
| C42 | with few rows a digest goroutine gets a negative capacity and panics |
| C45 | the query channel is closed before the graceful stop: a late call panics the server |
| C46 | root, type and proof length of the servers are not compared; the first answer decides |
| C49 | an index out of range panics; "0" and "00" make the result depend on map order |
| C51 | algorithm and timestamp pages report the count 0 after an error; a year that is not a number ends the server |
| C55 | unknown targets, averages without conjunction and short texts end the predicate servers |
| C57 | entities above 8192 bytes are not stored |
| C58 | asking for more files than exist panics; chunk names stop sorting in order at 1000, so that with more than 1000 chunks a request for 102 or more files can load chunk 1000 instead of one of the first |
| C59 | unauthenticated predicate queries reveal a control bit of the other server |
| C60 | two servers as configured: the programs never show a key; an identifier in an empty bucket crashes them |
| C61 | equal addresses collapse to one connection, which gets the column of the e-mail in the clear |
| C62 | the first database description to arrive decides whether proofs are checked at all (downgrade); one server can make a loaded key look absent |
| C63 | Command line: the count is negated modulo 2^31-1 if the map of connections is enumerated in the other order. Interactive: empty text shows 0 instead of all; 'created before year' counts one instant; no match for an average ends the program. Texts whose 33rd byte is not ASCII always count 0 |
| C64 | Only five certificates are compiled in: a sixth configured server ends with an index panic. With two servers every program fails although all servers start (the server program never starts servers that expand keys). Without `-id` the server panics |
| C65 | Statistics use the e-mail of the primary identity as written, while keys are stored and looked up under the lower-cased address or another identity: "A@x" is found under "a@x" but not counted among the addresses beginning with "a" |
| C66 | The experiment client draws its first block with rand.Intn(total − needed): it never reads the last block and panics when all blocks are needed. For the Merkle scheme the number of blocks is computed with the block length including proof, so that fewer data bits are retrieved than for the plain scheme with the same options. Matrix databases drop number mod rows blocks (449 of 2097152 for 2 GiB in blocks of 1 KiB) |
| C67 | The counting experiment inherits the order dependence of C21/C63: about half of its runs compute p − n instead of n, unnoticed because the result is dropped. With inputSize 0 the servers panic: the client sends a key of depth 0 while the server selects hashes of 128 bits |
| C68 | The configuration of the repository (1 KiB, 1 MiB, 1 GiB) lets the C kernels index a 92682 × 92682 matrix with `int`: signed overflow, undefined behaviour in C, modelled as failure. A compiler that widens the index may still produce the intended result. The 32-bit experiment panics for every length other than the three of the table, after the database has been created |
| C69 | On a machine with 64 processors the 1 MiB experiment panics: 2897 rows in portions of 46, the last goroutine starts at row 2898. Databases with a row of zeros (or with digests that cancel) cannot be queried with P-256 (C39) |
| C70 | As in C07 and C10, distinct blocks with equal 64-bit checksums end the program. The block length is increased in every repetition, so that later repetitions allocate larger buffers than earlier ones; the measured times are not of identical work |
| C71 | The tool never removes files. Chunks left from an earlier run with more keys are loaded by the servers, which then have two keys for one address; so does importing into the chunk directory. `genDB` has an empty body and reports success. `genChunks` with its own first chunk as input empties it and reports success |
| C72 | Files are written in place, without rename or end marker: what an interrupted run leaves loads as a smaller database without any error |
| C73 | The pattern is not anchored: signatures such as `sks-dump-0000.pgp.asc` are read as key rings, and the import stops. Dumps of more than ten thousand files are truncated silently, as files with five digits do not match |
| C74 | `PrimaryEmail` compares before lower-casing: a key with the e-mails `Zed@x` and `abc@x` and none in its primary identity is stored under `zed@x`, not under the alphabetically first lower-cased one |
| C75 | The predicate servers keep scratch arrays for AES in the server object. The deployed server has one worker and is safe; the experiment server answers in the RPC handlers, so that overlapping queries overwrite each other's blocks: wrong counts without the authentication, rejections with it |
| C76 | Nothing recovers from a panic in the worker of cmd/grpc/server, so that one short or unsupported query, or one honest lookup with two point servers, ends the process for all clients |
| C77 | stopWorker closes the channel before GracefulStop refuses calls: a call arriving in between ends the process in a panic during a regular stop; STOPPING=1 is sent after the shutdown, not at its beginning |
| C78 | the client draws the secret multiplier from all 32-bit words, not from [2B, q-2B] as the script behind the repetition table assumes: an honest read of a stored one from 2^23 bits goes wrong silently with probability above 2^-60, not 2^-64 |
| C79 | `RandInt` does not release `prgMutex` when `crypto/rand.Int` panics (modulus zero or negative): after a recovered panic every later draw in the process blocks |
| C80 | all five server certificates are trusted at every address and name the same host, so one server's key (all five are in the source) impersonates every server and sees all shares of a lookup; the certificates expire on 12 January 2027, after which no client connects |
| C81 | one visitor asking for the year "abc" (`log.Fatal` in `ToCreationTimeClientFSS`), or one failed RPC, ends the web front end for all visitors |
| C83 | the interactive and the web client ignore `VPIR_CONFIG_POINT` and `VPIR_CONFIG_COMPLEX` (`staticConfig = true`) and dial four compiled-in addresses; the interactive client discards the output of `log`, so that an unreachable server, a disagreement of the servers and even a rejected answer end it without a word |
| C85 | `reconstruct` (lib/client/fss.go:85) tells averages from counts by the length of the first answer: a server 0 that drops the second half of its honest answer makes the client return the number of keys as their average age, with all checks succeeding (C85_average_cut). |
| C90 | `reconstructValuePIR` checks and reads only the requested row: a server that truncates its answer, or corrupts one row, learns from the panic or the rejection in which rows the requested record lies (`C90_short_answer`, `C90_flipped_row`, `C90_refuted`) |
| C91 | `(answers[0][j] + answers[1][j]) % ModP` is computed with `uint32`, so unreduced words wrap around: a server that adds the modulus to its first word is rejected exactly when at least two keys match (if its word exceeds the count), which tells it so (`C91_word_raised`, `C91_fewer_than_two`, `C91_refuted`) |
| C93 | gzip on the connections: the sizes of the answers of all servers together reveal the column looked up, for databases whose columns compress differently (`C93_column_seen`, `C93_any_compressor`, `C93_refuted`) |
| C97 | A client object keeps the state of one query only: reconstructing the answers of a first lookup after a second query was made returns, without an error, the block in the first one's column and the second one's row, also in the verified (Merkle) scheme |
| C98 | `LWE.Reconstruct` and `LWE128.Reconstruct` overwrite the answer matrix they are given; reconstructing it again usually rejects and can return the wrong bit |
| C99 | Experiment server: every request to the HTTP port sends to a channel of capacity one that is read once, and `Shutdown` waits without deadline for the handlers: three requests (or a signal each for two of them) leave a process that neither ends nor reacts to SIGTERM |
| C101 | counting queries by creation time match no key (the servers' times carry the local zone, the client's are in UTC); years are counted by local clocks, and servers in different zones make the client reject |
| C104 | The 128-bit noise is not symmetric: a sample -k is stored as -k - 1, so -1 never occurs (`C104_encodings`). |
| C106 | An honest retrieval of a one fails because of the multiplier, not the noise: it is drawn from all words, including those near 0, and the client does not check it. With 1024 rows the 32-bit client reads a one as a zero about once in 25000 times, without noticing; the noise contributes less than 2^-38000. A stored zero is not affected. |
| C107 | Amplification makes a wrong bit rarer, but not a failure: the decoder tests the first vote only, so an honest retrieval of a one fails at least as often as without amplification, however many repetitions there are. |
| C124 | `CreateRandomBitsDB` puts an unreduced, unreproducible entry into the database when a word of the source has its 31 low bits set (C29 seen from the database) |
| C126 | whoever can place one record of 60 chosen bytes in an authenticated database can have any string accepted as a record, by a proof that is one hash too long (`C126_planted`) |
| C129 | an average query panics (integer division by zero) exactly if nobody matches, so a server that sees whether the client survives learns whether anybody matches its own, secret, query (`C129_refuted`) |
| C132 | With 1024 rows the 32-bit LWE client returns a wrong bit about once in 25000 times even without a lie (C106), and no lie raises this above one in 6000 without solving LWE. The 128-bit client is the one to use for integrity. |
| C141 | The interactive client ends (`log.Fatalf`, interactive/mod.go:107) on every failed lookup other than a missing key. If no stored key has the position of the e-mail, the block is empty and the lookup fails, so each server, by the closed connection, learns that no key has this position; a server that cuts its answers short learns the row of the position. The web front end recovers and gives nothing away. |
| C144 | A query that announces 2^31 or more rows is answered by zeros without looking at the table, because the number of rows becomes negative as a C int; the server has then allocated an answer of that many rows. |
| C145 | The 128-bit client's bound on the noise is not symmetric: it accepts -(b+1) and -b, which the 32-bit client rejects, and never accepts b. A group answer with more elements than rows is accepted, one with fewer makes the client panic unless an earlier row is rejected first. |
| C158 | The client reconstructs from the answers in the order of arrival and tells a count from an average by the length of the first one only. So either server, by answering fast with half an answer, has the number of keys shown as their average age. |
| C159 | An average about no keys ends the interactive client with a division by zero, so a predicate server that sees the client vanish learns that nobody matched. |

## 5. Further observations from reading the code

These are about parts that no property depends on; they are not proved.

- `isExpired` (lib/pgp) has no caller: expired keys are kept in the dump. `getEmailAddressFromPGPId` and its regular expression are unused.
- The branches of the command-line client for the schemes "it" and "dpf" cannot be reached: `exec` rejects these names first.
- The clients dial with `WithBlock` and a timeout of ten seconds; the model has dialling succeed or fail.
