{"id": "C01", "title": "Multi-server point retrieval returns the requested block", "statement": "For a classical point-PIR client with n>=3 servers (and for n>=1 whenever bit-vector shares are used), running Query(i,n), sending share k to server k, Answer on every server and Reconstruct on the n answers returns exactly block i of the database, zero-extended to BlockSize, with no error and no panic.", "quantifier": "every database layout (rows, columns, variable block lengths <= BlockSize), every valid index i, every number of servers, every random string used to split the query", "why_tests_cant": "A test fixes a few layouts and one run of the RNG; the claim ranges over every layout, content, index and every random split.", "anchors": ["lib/client/pir_point.go: PIR.Query, PIR.Reconstruct, secretShare", "lib/client/client.go: reconstructPIR, reconstructValuePIR", "lib/server/point.go: PIR.Answer, xorValues", "lib/utils/utils.go: VectorToMatrixIndices"]}
{"id": "C02", "title": "Two-server point retrieval with compressed keys returns the requested block", "statement": "With two servers the client sends a pair of distributed-point-function keys; provided the DPF library expands the two keys to strings that differ in exactly the requested bit, Reconstruct returns block i; and the domain size the client asks the library for always contains the requested column.", "quantifier": "every layout, content, index, and every DPF implementation meeting the stated contract", "why_tests_cant": "Needs all layouts and all DPF outputs, not the keys drawn in one run.", "anchors": ["lib/client/pir_point.go: PIR.Query", "lib/server/point.go: NewPIRTwo, PIR.Answer"]}
{"id": "C03", "title": "A coalition of all but one server learns nothing about the index", "statement": "For n bit-vector shares, the joint distribution of the shares seen by any n-1 servers is the same for every requested index: for each view the number of random strings producing it does not depend on the index.", "quantifier": "every database width, every pair of indices, every missing server, every possible view", "why_tests_cant": "A distributional statement over all randomness; sampling cannot establish equality of distributions.", "anchors": ["lib/client/pir_point.go: secretShare"]}
{"id": "C04", "title": "Invalid point-query parameters are rejected", "statement": "QueryBytes/Query refuses a negative index or fewer than two servers (the documented precondition of the information-theoretic scheme) instead of producing a query.", "quantifier": "every integer index and every integer number of servers", "why_tests_cant": "The precondition check must be right for all integers; existing tests only use valid values.", "anchors": ["lib/client/client.go: invalidQueryInputsIT", "lib/client/pir_point.go: PIR.QueryBytes, PIR.Query"]}
{"id": "C05", "title": "Reconstruction does not depend on the order in which answers arrive", "statement": "Reconstruct (point and predicate clients) gives the same result for every permutation of the list of server answers, because the client manager collects them in arrival order.", "quantifier": "every list of answers (honest or not) and every permutation", "why_tests_cant": "Arrival order is scheduler dependent; tests see one schedule.", "anchors": ["cmd/grpc/client/manager/mod.go: Actor", "lib/client/client.go: reconstructValuePIR", "lib/client/fss.go: reconstruct"]}
{"id": "C06", "title": "Deployed servers interpret point queries in the format the client sends", "statement": "For every number n>=2 of connected servers, the query format produced by the point client is the one the Keyd server binary evaluates, so point lookups return the requested block.", "quantifier": "every number of servers, database and index", "why_tests_cant": "Cross-binary agreement; no test starts the real server binary with two servers.", "anchors": ["cmd/grpc/server/main.go: main", "lib/client/pir_point.go: PIR.Query", "lib/server/point.go: NewPIR, PIR.Answer"]}
{"id": "C07", "title": "Merkle proofs of stored records verify", "statement": "For a non-empty list of records, building the tree succeeds and, for every record, GenerateProof succeeds and VerifyProof(record, proof, Root()) is true; the proof names the position of a record with that content.", "quantifier": "every number of records (not only powers of two), every content and every hash function", "why_tests_cant": "All tree sizes and contents; tests use a handful.", "anchors": ["lib/merkle/merkletree.go: New, GenerateProof, Root", "lib/merkle/proof.go: VerifyProof"]}
{"id": "C08", "title": "A verified Merkle proof implies membership", "statement": "If VerifyProof accepts (data, proof) against the root of a tree, then data is the record stored at position proof.Index, unless an explicit collision (or a preimage of the all-zero padding digest) of the hash function is exhibited.", "quantifier": "every tree, every adversarial data and proof", "why_tests_cant": "Adversarial inputs cannot be enumerated.", "anchors": ["lib/merkle/proof.go: VerifyProof, DecodeProof"]}
{"id": "C09", "title": "Merkle proof wire format round-trips", "statement": "DecodeProof(encodeProof(p)) = p and the encoded length is 8+32*len(hashes), equal to EncodedProofLength for proofs generated by a tree.", "quantifier": "every proof with 32-byte hashes whose encoding fits in memory", "why_tests_cant": "All proofs.", "anchors": ["lib/merkle/proof.go: EncodeProof, DecodeProof", "lib/merkle/merkletree.go: EncodedProofLength"]}
{"id": "C10", "title": "Authenticated (Merkle) point retrieval is complete", "statement": "With honest servers the Merkle client accepts and returns exactly the stored record i (no proof bytes, no padding), for every index.", "quantifier": "every database of distinct records, layout, index, number of servers, randomness and hash function with 32-byte digests", "why_tests_cant": "All databases, indices and random splits.", "anchors": ["lib/database/merkle.go: CreateRandomMerkle, makeMerkleEntries", "lib/client/client.go: reconstructPIR", "lib/client/pir_point.go"]}
{"id": "C11", "title": "Authenticated retrieval returns the record at the requested index", "statement": "If the Merkle client accepts for requested index i, the returned record is record i of the database committed to by the root (up to hash collisions), whatever the malicious servers answer.", "quantifier": "every set of answers with at least one honest server", "why_tests_cant": "Quantifies over all adversaries.", "anchors": ["lib/client/client.go: reconstructPIR"]}
{"id": "C12", "title": "A malicious answer makes the client report an error, not crash", "statement": "Whatever bytes servers return, ReconstructBytes returns a value or an error; the client process never panics.", "quantifier": "every answer byte string", "why_tests_cant": "All malformed answers.", "anchors": ["lib/client/client.go: reconstructPIR", "lib/database/pgp.go: UnPadBlock", "lib/merkle/proof.go: DecodeProof", "lib/client/fss.go: reconstruct"]}
{"id": "C13", "title": "Block padding is invertible", "statement": "UnPadBlock(PadBlock(b,n)) = b and the padded length is a multiple of n; UnPadBlock(PadWithSignalByte(b) followed by any number of zero bytes) = b.", "quantifier": "every byte string (including ones ending in zeros or 0x80) and every positive block length and amount of zero extension", "why_tests_cant": "All byte strings.", "anchors": ["lib/database/pgp.go: PadBlock, PadWithSignalByte, UnPadBlock"]}
{"id": "C14", "title": "Every loaded key can be found in the block its identifier maps to", "statement": "In the key database, the block at position HashToIndex(id, n), once unpadded, is the concatenation of the packets of exactly the keys whose identifier hashes to that position, in database order; in particular it contains the packet of the requested key.", "quantifier": "every list of loaded keys, every hash function, every identifier", "why_tests_cant": "All key sets; bucket collisions depend on the data.", "anchors": ["lib/database/pgp.go: GenerateRealKeyBytes, makeHashTable", "lib/database/db.go: HashToIndex"]}
{"id": "C15", "title": "All servers build the same database from the same keys", "statement": "The generated database (entries, block lengths, root) depends only on the set of loaded keys, not on the order in which files are loaded, provided identifiers are distinct.", "quantifier": "every two orders of the same keys", "why_tests_cant": "All permutations.", "anchors": ["lib/database/pgp.go: sortById, makeHashTable, GenerateRealKeyBytes, GenerateRealKeyMerkle"]}
{"id": "C16", "title": "Looking up an absent identifier reports 'not found'", "statement": "When no key of the database has the requested identifier the client reports an error and does not crash.", "quantifier": "every key set and every identifier", "why_tests_cant": "Empty buckets depend on hash values.", "anchors": ["lib/database/pgp.go: GenerateRealKeyBytes, UnPadBlock", "cmd/grpc/client/manager/mod.go: GetKey"]}
{"id": "C17", "title": "Key-dump parsing keeps the newest valid key of every e-mail", "statement": "After processing any sequence of PGP entities, the key stored for an e-mail is the first one with the greatest creation time among the non-revoked entities with that primary e-mail; e-mails without such entities are absent.", "quantifier": "every sequence of entities", "why_tests_cant": "All histories of insertions.", "anchors": ["lib/pgp/pgp.go: saveKeyIfValid, AnalyzeKeyDump"]}
{"id": "C18", "title": "Database layout always has room for all blocks", "statement": "CalculateNumRowsAndColumns(n, matrix=true) gives a square layout with rows*cols >= n and (rows-1)^2 < n; without matrix it is 1 x n; every linear index below rows*cols corresponds to exactly one (row, column) pair and back.", "quantifier": "every number of blocks and index", "why_tests_cant": "All sizes.", "anchors": ["lib/database/db.go: CalculateNumRowsAndColumns", "lib/utils/utils.go: IncreaseToNextSquare, VectorToMatrixIndices"]}
{"id": "C19", "title": "Function-secret-sharing keys evaluate to the point function", "statement": "For keys generated by ClientInitialize/GenerateTreePF(a,b), and every input x of the same bit length (at most 256 bits), EvaluatePF(0,k0,x)+EvaluatePF(1,k1,x) mod p equals b componentwise if x = a and 0 otherwise.", "quantifier": "every PRF, every random seed, every a, x, b, every output block length", "why_tests_cant": "All keys, inputs and PRF behaviours; correctness relies on an induction over the tree path.", "anchors": ["lib/fss/client.go: GenerateTreePF", "lib/fss/server.go: EvaluatePF", "lib/fss/common.go: prf, convertBlock"]}
{"id": "C20", "title": "Function-secret-sharing works for inputs of any length", "statement": "The point-function property also holds for inputs longer than 256 bits (e-mail prefixes longer than 32 bytes).", "quantifier": "every input length", "why_tests_cant": "Lengths are unbounded; the boundary is a single bit position.", "anchors": ["lib/fss/server.go: EvaluatePF", "lib/fss/client.go: GenerateTreePF"]}
{"id": "C21", "title": "Counting queries return the number of matching keys", "statement": "For every counting query (by e-mail prefix/suffix/hash, public-key algorithm, creation time, or year AND e-mail), with two honest servers, Reconstruct returns the number of database keys matching the predicate, modulo 2^31-1, in both the unauthenticated and the authenticated scheme, and the authenticated client never rejects.", "quantifier": "every key database, query, randomness and PRF", "why_tests_cant": "All databases and queries.", "anchors": ["lib/client/fss.go: query, reconstruct", "lib/server/fss.go: answer", "lib/fss"]}
{"id": "C22", "title": "Average queries return the integer average of the matching keys", "statement": "For an AND/AVG query with honest servers the result is floor(sum of ages / number of matching keys); when no key matches an error is reported.", "quantifier": "every key database and query", "why_tests_cant": "All databases including those with no match.", "anchors": ["lib/client/fss.go: reconstruct", "lib/server/fss.go: answer"]}
{"id": "C23", "title": "A wrong predicate answer is accepted for at most one value of the MAC keys", "statement": "For every fixed additive deviation of the reconstructed answer whose data component is non-zero mod p, at most one of the p^4 authentication key vectors makes the client accept; consequently an accepted result is the honest one except for a 1/p^4 fraction of keys.", "quantifier": "every deviation, every honest answer, every MAC key", "why_tests_cant": "Counting argument over a field of 2^31-1 elements.", "anchors": ["lib/client/fss.go: reconstruct", "lib/field/field.go"]}
{"id": "C24", "title": "Authentication keys stay hidden from each server", "statement": "The key sent to a server does not determine any of the client's four MAC keys: every component of the final correction word is masked by pseudorandom output.", "quantifier": "every PRF and seed", "why_tests_cant": "A structural statement about all generated keys.", "anchors": ["lib/fss/common.go: convertBlock", "lib/fss/client.go: GenerateTreePF"]}
{"id": "C25", "title": "Predicate results do not depend on connection enumeration order", "statement": "The local client gives the same result whichever order it enumerates its server connections in.", "quantifier": "every iteration order of the connection map", "why_tests_cant": "Map iteration order is random; tests see one order.", "anchors": ["cmd/grpc/client/main.go: runQueries", "lib/client/fss.go: query", "lib/server/fss.go: answer"]}
{"id": "C26", "title": "Identifiers compare equal exactly when the predicate matches", "statement": "Two e-mails of sufficient length get the same selector bits iff they agree on the chosen prefix (or suffix); algorithms, years and composed selectors likewise; bit conversion is injective and length preserving.", "quantifier": "every pair of inputs", "why_tests_cant": "All strings.", "anchors": ["lib/query/query.go: IdForEmail, IdForPubKeyAlgo, IdForYearCreationTime, ToAndClientFSS", "lib/server/fss.go:86-97", "lib/utils/encoding.go: ByteToBits"]}
{"id": "C27", "title": "A year in a query denotes that calendar year", "statement": "A query built for creation year y selects keys created in year y.", "quantifier": "every year", "why_tests_cant": "Month/day normalisation must be right for all years.", "anchors": ["lib/query/query.go: ToCreationTimeClientFSS, ToAndClientFSS"]}
{"id": "C28", "title": "Sampled field elements are canonical", "statement": "RandElementWithPRG/RandVectorWithPRG return elements strictly below 2^31-1 for every random stream on which they return.", "quantifier": "every random stream and vector length", "why_tests_cant": "All streams; the rejected value is hit with probability 2^-31.", "anchors": ["lib/field/field.go: RandElementWithPRG, RandVectorWithPRG"]}
{"id": "C29", "title": "Bytes convert to the same field elements on client and servers", "statement": "BytesToElements is a deterministic function of the bytes with canonical (<2^31-1) results.", "quantifier": "every byte string", "why_tests_cant": "The failing inputs have density 2^-31.", "anchors": ["lib/field/field.go: BytesToElements, toElement"]}
{"id": "C30", "title": "Single-server LWE retrieval returns the requested bit", "statement": "With an honest server, if the accumulated noise of each column stays below B and the secret multiplier t is at distance at least 2B from 0 mod 2^32, Reconstruct accepts and returns the stored bit (i,j).", "quantifier": "every binary database whose matrices have fewer than 2^31 entries (beyond that see C36), index, seed, secret, noise and t in the stated range", "why_tests_cant": "All databases and random choices.", "anchors": ["lib/client/lwe.go", "lib/server/lwe.go", "lib/database/lwe.go"]}
{"id": "C31", "title": "A wrong LWE bit is accepted only if the server hits the secret multiplier", "statement": "If the LWE client accepts a bit different from the stored one, then the deviation of the server's answer in that column is within 2B of t or of -t modulo 2^32; for every fixed deviation at most O(B) of the 2^32 values of t allow it.", "quantifier": "every database, answer, noise within bound, and t", "why_tests_cant": "Quantifies over all adversarial answers.", "anchors": ["lib/client/lwe.go: Reconstruct, inRange"]}
{"id": "C32", "title": "The 128-bit LWE scheme has the same correctness and integrity", "statement": "C30 and C31 hold for the 128-bit modulus client, server and database, with its own acceptance interval.", "quantifier": "as C30/C31 with modulus 2^128; the interval is [-(B+1), B-1] and t is at distance more than 2B from 0 mod 2^128", "why_tests_cant": "as C30/C31", "anchors": ["lib/client/lwe128.go", "lib/server/lwe128.go", "lib/database/lwe128.go"]}
{"id": "C33", "title": "Amplified retrieval returns the stored bit and is forged only by forging most repetitions", "statement": "The amplified client returns the stored bit when every repetition is honest and within noise; if it accepts a wrong bit, then more than half of the 2t+1 repetitions (including the first) individually accepted a wrong bit.", "quantifier": "every repetition count, index and answers, every database whose query and answer encodings fit the four-byte length field (beyond that see C37)", "why_tests_cant": "All adversaries.", "anchors": ["lib/client/amplify.go", "lib/server/amplify.go", "lib/ecc/ecc.go"]}
{"id": "C34", "title": "The repetition code corrects up to t errors", "statement": "Decode of a word differing from Encode(v) in at most t of its 2t+1 positions returns v.", "quantifier": "every t, symbol and error pattern", "why_tests_cant": "All error patterns.", "anchors": ["lib/ecc/ecc.go: ECC.Encode, ECC.Decode"]}
{"id": "C35", "title": "The repetition code never returns a minority symbol", "statement": "Whenever Decode returns a value without error, that value occurs in more than half of the positions, hence with at most t errors a returned value is the encoded one.", "quantifier": "every received word", "why_tests_cant": "All words.", "anchors": ["lib/ecc/ecc.go: ECC.Decode"]}
{"id": "C36", "title": "Matrix products are exact modulo the word size", "statement": "Mul and BinaryMul (32- and 128-bit, computed by the C kernels) return, at every position, the inner product of the row and the column modulo 2^32 or 2^128; dimension mismatches are refused.", "quantifier": "every pair of matrices with conforming dimensions", "why_tests_cant": "All sizes and contents.", "anchors": ["lib/matrix/matrix.go: Mul, BinaryMul", "lib/matrix/matrix128.go", "lib/matrix/matrix.c"]}
{"id": "C37", "title": "Matrix wire formats round-trip", "statement": "BytesToMatrix(MatrixToBytes(m)) = m for 32-bit and 128-bit matrices, and BytesToMatrices(MatricesToBytes(l)) = l for non-empty lists of equally sized matrices.", "quantifier": "every matrix with dimensions below 2^32", "why_tests_cant": "All matrices.", "anchors": ["lib/matrix/matrix.go: MatrixToBytes, BytesToMatrix, MatricesToBytes, BytesToMatrices", "lib/matrix/matrix128.go"]}
{"id": "C38", "title": "Sampled LWE noise is bounded", "statement": "Every coefficient sampled by GaussSample has absolute value at most 128 (one less than the table length), and the 128-bit encoding of it is within one of the same integer modulo 2^128.", "quantifier": "every random stream", "why_tests_cant": "All streams.", "anchors": ["lib/utils/gauss.go: GaussSample", "lib/matrix/matrix.go: NewGauss", "lib/matrix/matrix128.go: NewGauss128"]}
{"id": "C39", "title": "Single-server group-based retrieval returns the requested bit", "statement": "With an honest server the DH client accepts and returns the stored bit, whenever the blinded query element is not the identity.", "quantifier": "every prime-order (indeed commutative) group, database, index, r and t", "why_tests_cant": "All databases and random choices.", "anchors": ["lib/client/dh.go", "lib/server/dh.go", "lib/database/elliptic.go"]}
{"id": "C40", "title": "A wrong group-based bit is accepted only if the server knows the blinding element", "statement": "If the DH client accepts, every row's deviation from the honest answer is 0 or plus/minus the secret element t*H(iy); if the returned bit is wrong the deviation in the requested row is exactly plus or minus that element.", "quantifier": "every group, database, answer", "why_tests_cant": "All adversarial answers.", "anchors": ["lib/client/dh.go: Reconstruct"]}
{"id": "C41", "title": "The client refuses row digests that do not match the trusted digest", "statement": "NewDH proceeds only if the hash of the row digests equals the trusted digest, so accepted row digests equal the honest ones or a hash collision is exhibited.", "quantifier": "every list of row digests and every hash function", "why_tests_cant": "All digests.", "anchors": ["lib/client/dh.go: NewDH"]}
{"id": "C42", "title": "Parallel digest computation equals sequential computation for every size", "statement": "CreateRandomEllipticWithDigest computes, for every number of rows and goroutines and every schedule, one digest per row in row order, and never crashes.", "quantifier": "every number of rows, goroutines and completion order", "why_tests_cant": "All sizes and schedules.", "anchors": ["lib/database/elliptic.go: CreateRandomEllipticWithDigest", "lib/server/dh.go: Answer"]}
{"id": "C43", "title": "Vectors of group elements round-trip through the wire format", "statement": "Unmarshalling the marshalled vector returns the same elements, for every vector of group elements.", "quantifier": "every vector, including identity elements", "why_tests_cant": "All vectors.", "anchors": ["lib/database/elliptic.go: MarshalGroupElements, UnmarshalGroupElements"]}
{"id": "C44", "title": "Every RPC receives the answer to its own query", "statement": "For every interleaving of concurrent Query calls, cancellations and the worker, a call that returns a reply returns the database answer of the query it carried, each enqueued query is answered exactly once, in the order of enqueueing, and cancelled calls never block the worker.", "quantifier": "every schedule of any number of clients and the worker", "why_tests_cant": "Schedules are unbounded.", "anchors": ["cmd/grpc/server/main.go: Query, startWorker"]}
{"id": "C45", "title": "Shutting down does not crash in-flight requests", "statement": "Stopping the server while requests are being handled lets them finish (graceful stop) without crashing.", "quantifier": "every schedule of requests and shutdown", "why_tests_cant": "Race between closing the channel and late senders.", "anchors": ["cmd/grpc/server/main.go: stopWorker, Query, main"]}
{"id": "C46", "title": "The client proceeds only if all servers agree on the database", "statement": "LoadDBInfos/DBInfo retrieval succeeds only if all servers report the same database parameters, including root, PIR type and proof length.", "quantifier": "every set of reported infos and every arrival order", "why_tests_cant": "All reports and orders.", "anchors": ["cmd/grpc/client/main.go: equalDBInfo, retrieveDBInfo", "cmd/grpc/client/manager/mod.go: GetDBInfos"]}
{"id": "C47", "title": "The pseudo-random generator never reuses key-stream bytes", "statement": "In any sequence of reads the key-stream positions consumed by different reads are disjoint, and a read into a zeroed buffer returns exactly key-stream bytes.", "quantifier": "every sequence of read sizes", "why_tests_cant": "All histories.", "anchors": ["lib/utils/rand.go: PRGReader.Read"]}
{"id": "C48", "title": "Client and server derive the same LWE matrix", "statement": "For equal seed and number of rows, the matrix derived by the client equals the one the database digest was computed with.", "quantifier": "every seed and size", "why_tests_cant": "All seeds and sizes.", "anchors": ["lib/client/lwe.go: NewLWE", "lib/database/lwe.go: Digest", "lib/matrix/matrix.go: NewRandom", "lib/utils/rand.go"]}
{"id": "C49", "title": "Server addresses follow the configured index", "statement": "For configurations with indices 0..n-1, LoadConfig yields the addresses sorted by index, independently of map iteration order; other index sets are refused with an error.", "quantifier": "every configuration and iteration order", "why_tests_cant": "Map order is random.", "anchors": ["lib/utils/config.go: LoadConfig"]}
{"id": "C50", "title": "Vectors of 32-bit words round-trip through the wire format", "statement": "ByteSliceToUint32Slice(Uint32SliceToByteSlice(v)) = v, lengths are 4 times, and any byte string of length 4k round-trips the other way.", "quantifier": "every vector", "why_tests_cant": "All vectors.", "anchors": ["lib/utils/encoding.go"]}
{"id": "C51", "title": "On failure the web front end reports no count", "statement": "When a counting query fails the HTTP handler reports an error and never reports a count.", "quantifier": "every request and every failure point", "why_tests_cant": "All failure points.", "anchors": ["cmd/grpc/client/web/mod.go: getHandleCountEmail, getHandleCountAlgo, getHandleCountTimestamp"]}
{"id": "C52", "title": "Splitting a key dump into chunks preserves the keys", "statement": "Concatenating the chunk files in order gives exactly the input sequence of keys; every chunk but the last exceeds the size limit by less than one key.", "quantifier": "every sequence of keys", "why_tests_cant": "All sequences and sizes.", "anchors": ["data/main.go: splitFullDumpIntoChunks"]}
{"id": "C53", "title": "A server that tells two queries apart breaks the underlying problem", "statement": "For every test a server may apply to the query it receives from the LWE, LWE-128, group-based or authenticated predicate client, the advantage in telling two indices (or two predicates of the same length) apart is at most the sum of the advantages of explicit tests, built from the given one, against LWE, the group problem or the AES-based generator, plus 10/2^31 for the predicate keys.", "quantifier": "every pair of indices or predicates, every test, every database shape, all other parameters of the query", "why_tests_cant": "It bounds the distribution of queries over all coins and for all tests.", "anchors": ["lib/client/lwe.go", "lib/client/dh.go", "lib/client/fss.go", "lib/fss/client.go"]}
{"id": "C54", "title": "Buffered random words are consecutive, unrepeated generator output", "statement": "The k-th 64-bit value served by the buffered random source is determined by the k-th consecutive 8 bytes of generator output: no byte of the stream is served twice or skipped, for any number of draws and across buffer refills.", "quantifier": "every number of draws and every generator stream", "why_tests_cant": "Unbounded sequences of draws crossing refill boundaries.", "anchors": ["lib/utils/rand.go: NewBufPRG, Uint64"]}
{"id": "C55", "title": "A server survives every query message", "statement": "Whatever message a client sends, the server answers it or returns an error to that client; it never terminates, so other clients keep being served.", "quantifier": "every query message (targets, flags, key depths, key contents), every loaded database", "why_tests_cant": "The space of messages is unbounded and includes combinations no client library produces; the failing ones terminate the test process itself.", "anchors": ["lib/server/predicate_pir.go: Answer", "lib/server/predicate_apir.go: Answer", "lib/server/fss.go: answer", "lib/fss/server.go: EvaluatePF", "cmd/grpc/server/main.go: startWorker"]}
{"id": "C56", "title": "The LWE servers handle malformed queries safely", "statement": "Whatever bytes a client sends as a query, the LWE server answers or refuses; it never reads memory outside the query.", "quantifier": "every query byte string and every database", "why_tests_cant": "Out-of-bounds reads in the C kernel are silent in tests and depend on header fields no client library produces.", "anchors": ["lib/server/lwe.go: AnswerBytes", "lib/server/lwe128.go: AnswerBytes", "lib/matrix/matrix.go: BytesToMatrix, BinaryMul", "lib/matrix/matrix.c"]}
{"id": "C57", "title": "A lookup returns the newest valid key of the imported dump", "statement": "After importing a key dump, writing it to disk, splitting it into files and building the key database from them, looking up an e-mail address through honest servers returns the armoured form of the newest non-revoked key with that primary e-mail, without its subkeys.", "quantifier": "every dump, every split into files, every map enumeration order, every e-mail address, any number of servers", "why_tests_cant": "All histories of imports and all hash collisions.", "anchors": ["lib/pgp/pgp.go: AnalyzeKeyDump, WriteKeysOnDisk, LoadKeysFromDisk, RecoverKeyFromBlock", "lib/database/pgp.go: GenerateRealKeyBytes", "cmd/grpc/client/manager/mod.go: GetKey"]}
{"id": "C58", "title": "The server loads the configured number of key files", "statement": "With any requested number of files the server loads exactly that many of the chunk files written by the splitter, from the first chunk on, or reports an error.", "quantifier": "every number of chunks, every requested number", "why_tests_cant": "All numbers of files; the order is that of the file names.", "anchors": ["cmd/grpc/server/main.go: getSksFiles", "lib/pgp/pgp.go: GetAllFiles", "data/main.go: splitFullDumpIntoChunks"]}
{"id": "C59", "title": "Predicate privacy of unauthenticated queries", "statement": "Whatever key a server receives from the predicate client without authentication, it could equally have received it for any other predicate of the same kind, so that no predicate can be ruled out.", "quantifier": "every predicate of the same length, both servers, every outcome of the client's randomness", "why_tests_cant": "It concerns the set of all keys the client can produce; a run shows one key.", "anchors": ["lib/client/predicate_pir.go:18-28", "lib/fss/common.go:68-72", "lib/fss/client.go:125-150"]}
{"id": "C60", "title": "The client programs show the key that is stored", "statement": "For every loaded key, the command-line client, the interactive client and the web page of the key directory show exactly that key when its e-mail is looked up, whatever the order in which servers are enumerated and answers arrive; for an e-mail without a key they say so.", "quantifier": "every key set, every number of servers, every order of map iteration and of arrival, every outcome of the client's randomness", "why_tests_cant": "It quantifies over schedules of goroutines and map iterations, which a test run samples once.", "anchors": ["cmd/grpc/client/main.go:102-192", "cmd/grpc/client/main.go:278-419", "cmd/grpc/client/manager/mod.go:38-217", "cmd/grpc/client/interactive/mod.go:172-205", "cmd/grpc/client/web/mod.go:211-249"]}
{"id": "C61", "title": "What the client programs send hides the e-mail looked up", "statement": "The messages that leave a client program during a lookup, as seen by all servers but one, are distributed in the same way for every e-mail.", "quantifier": "every pair of e-mails, every coalition of all but one server, every list of server addresses, every order of enumeration", "why_tests_cant": "It is a statement about distributions, and about every configuration, including repeated addresses.", "anchors": ["cmd/grpc/client/main.go:120-139", "cmd/grpc/client/main.go:278-303", "cmd/grpc/client/main.go:394-419", "cmd/grpc/client/manager/mod.go:38-103"]}
{"id": "C62", "title": "A key that is shown is authentic", "statement": "When the database is authenticated and at least one server is honest, a key shown by a client program for an e-mail is the key that was loaded for that e-mail, and the program says that there is no key only if none was loaded.", "quantifier": "every behaviour of the dishonest servers, every e-mail, every key set, every order of arrival", "why_tests_cant": "It quantifies over all strategies of a dishonest server.", "anchors": ["cmd/grpc/client/main.go:342-392", "cmd/grpc/client/main.go:448-460", "cmd/grpc/client/manager/mod.go:145-184", "lib/client/pir_point.go:70-111"]}
{"id": "C63", "title": "The statistics the client programs show are those of the question asked", "statement": "With two honest predicate servers holding the same keys, the number that the web page, the interactive client or the command-line client shows is the number of keys (or the average age of the keys) that the question asked by the user describes: addresses beginning or ending with a text, keys of an algorithm, keys created before a year, keys of 2018 with a suffix; for every text, every order in which connections are enumerated and answers arrive.", "quantifier": "all databases of fewer than 2^31-1 keys, texts, options, form requests, randomness, and orders of enumeration and arrival", "why_tests_cant": "Tests run one database and one order of a Go map; the sign of the result depends on the enumeration order, and the wrong captions and the empty text give plausible numbers.", "anchors": ["cmd/grpc/client/main.go:150-262", "cmd/grpc/client/main.go:394-419", "cmd/grpc/client/interactive/mod.go:208-470", "cmd/grpc/client/web/mod.go:251-408", "lib/query/query.go:82-187", "lib/server/fss.go:25-139"]}
{"id": "C64", "title": "From the key dump and the configuration to the key on the screen", "statement": "Write a configuration with servers numbered from 0, start the server program for each of them on the same directory of key files with the same scheme: every server starts, listens on its own address, and each of the three client programs, given the same configuration, shows for an e-mail address the key stored for it. When the files come from importing a key dump, that is the newest key of the address that is not revoked, without subkeys. A server whose number, file count or scheme does not fit ends instead of serving something else.", "quantifier": "every configuration, key set, dump, splitting into files, order of iteration of the maps on every machine, order of directory listing, order of arrival of the answers, every random string of the client", "why_tests_cant": "Involves several processes whose map iterations differ from run to run, and databases of any size; no test starts a deployment.", "anchors": ["cmd/grpc/server/main.go:80-161", "cmd/grpc/server/main.go:298-355", "lib/pgp/pgp.go:36-189", "data/main.go:57-134", "lib/utils/config.go:23-43", "lib/utils/tls.go:161-175", "cmd/grpc/client/main.go:94-240"]}
{"id": "C65", "title": "From the key dump to the number on the screen", "statement": "Import a key dump, split it into files, start two servers that answer statistics on these files: the number that the command line, the web pages and the interactive client show for a question is the number of addresses of the dump with a stored key that satisfies it; in particular, the number shown for addresses ending with a text is the number of addresses with a stored key that end with it.", "quantifier": "every dump, splitting, map order on every machine, question, order of arrival of the answers, random string", "why_tests_cant": "Involves the import, two servers and a client, and holds for databases of any size; no test combines them.", "anchors": ["data/main.go:57-134", "lib/pgp/pgp.go:36-189", "cmd/grpc/server/main.go:108-150", "lib/server/fss.go", "cmd/grpc/client/main.go:187-262", "cmd/grpc/client/web/mod.go:240-420", "cmd/grpc/client/interactive/mod.go:280-470"]}
{"id": "C66", "title": "The retrieval experiments measure what they claim", "statement": "Start the servers of the multi-server experiment with the same options and the client with a number of bits to retrieve that their database holds: every repetition retrieves the same consecutive blocks of the servers' random data, at least the bits asked for, and reports the number of bytes actually sent to the servers.", "quantifier": "every number of servers up to five, database and block size, number of repetitions, random draw, order of arrival of the answers and of the configuration", "why_tests_cant": "The experiments take hours, draw random positions and discard what they retrieve; a test sees one run and cannot tell a wrong block from a right one.", "anchors": ["simulations/multi/server/server.go:34-246", "simulations/multi/client/client.go:81-311", "simulations/multi/client/client.go:361-364", "lib/database/bytes.go:49-70", "lib/database/merkle.go:14-60", "lib/utils/utils.go:31-37"]}
{"id": "C67", "title": "The counting experiments count", "statement": "Start the two servers of the counting experiment and its client: each server generates the same 100000 keys with valid addresses, dates and algorithms, and each repetition of the client obtains the number of keys whose address begins with its random string.", "quantifier": "every generator, length of the string, number of repetitions, random bytes of clients and servers, order of arrival and of the connections", "why_tests_cant": "The result is discarded by the program, and depends on the enumeration order of a map and on random strings.", "anchors": ["simulations/multi/server/server.go:92-159", "simulations/multi/client/client.go:137-204", "lib/database/db.go:123-158", "lib/utils/utils.go:40-57", "lib/server/fss.go:27-40"]}
{"id": "C68", "title": "The LWE experiment measures retrievals that work", "statement": "Run the single-machine experiment with the LWE scheme (32 or 128 bit) on the database lengths of the paper: it finishes, every repetition retrieves the bit stored at a random position of a random square database, and the report lists for every length the configured number of repetitions with the sizes of digest, query and answer.", "quantifier": "every configuration, random database, position, secret, and noise within the bounds of the scheme", "why_tests_cant": "The experiment runs for hours and drops the bits it retrieves; sizes depend on the layout of every length, and the largest length exceeds the index arithmetic of the C kernels.", "anchors": ["simulations/simul.go:49-286", "simulations/types.go:3-13", "simulations/simul.toml:1-4", "lib/database/lwe.go:27-62", "lib/database/lwe128.go:24-60", "lib/client/amplify.go:18-66", "lib/matrix/matrix.c:3-45", "lib/matrix/matrix.go:206-208"]}
{"id": "C69", "title": "The group-scheme experiment measures retrievals that work", "statement": "Run the single-machine experiment with the group scheme: it finishes for all lengths (2^33 is left out), every repetition retrieves the bit stored at a random position, and the report lists the sizes of row digests and hash, query and answer.", "quantifier": "every configuration, number of processors, random database, position and non-neutral blinding", "why_tests_cant": "Whether the program finishes depends on the number of processors, the length and the random bits; tests run on one machine with one length.", "anchors": ["simulations/simul.go:49-203", "simulations/simul.go:288-340", "lib/database/elliptic.go:20-91", "lib/client/dh.go:23-108", "lib/server/dh.go:19-74"]}
{"id": "C70", "title": "The preprocessing experiment computes usable records", "statement": "Run the single-machine experiment with the primitive preprocessing: every repetition computes, for each block of the random data in order, a record with a proof that a client holding the root of the tree accepts, and the report has one entry for each repetition.", "quantifier": "every configuration, hash function, number of repetitions and random data with distinct blocks", "why_tests_cant": "The records are computed in memory and dropped; the program only measures time.", "anchors": ["simulations/preprocessing.go:14-92", "simulations/simul.go:110-174", "lib/merkle/merkletree.go:1-141", "lib/merkle/proof.go:1-126", "lib/database/pgp.go:170-172"]}
{"id": "C71", "title": "Preparing a key dump delivers its keys to the servers", "statement": "Import a directory with a key dump, split the result into a directory of chunks and start a server on all files of this directory: both commands report success, the server loads every newest key that is not revoked exactly once and nothing else, and the clients show it.", "quantifier": "every disk, key dump, order of map enumeration and chunk limit; every number of chunks", "why_tests_cant": "The result depends on what is on the disk before, on the order in which Go enumerates maps, on the sizes of all keys and on the names of all files; the tool has no tests.", "anchors": ["data/main.go:1-163", "lib/pgp/pgp.go:36-211", "cmd/grpc/server/main.go:298-341"]}
{"id": "C72", "title": "Interrupted preparation can be repeated and is noticed", "statement": "Interrupt the import or the splitting after any number of writes: running the same command again gives the same files as an uninterrupted run; no run touches other files than its outputs; and a server started on what an interrupted run left reports an error.", "quantifier": "every disk, history of complete and interrupted runs, interruption point and order of map enumeration", "why_tests_cant": "Crash points and histories are unbounded; the tool has no tests.", "anchors": ["data/main.go:31-134", "lib/pgp/pgp.go:96-129", "lib/pgp/pgp.go:169-193"]}
{"id": "C73", "title": "The files of a dump are found", "statement": "Given a directory, the import reads exactly the files of a key dump in it: those named sks-dump-NNNN.pgp, in the order of their numbers.", "quantifier": "every directory and every set of file names", "why_tests_cant": "The set of names is unbounded; tests have one directory with two files.", "anchors": ["lib/pgp/pgp.go:131-167", "data/main.go:60-76"]}
{"id": "C74", "title": "Keys are stored under their documented address", "statement": "A key is stored and found under the lower-cased e-mail of its primary identity or, if this is empty, the alphabetically first non-empty lower-cased e-mail of its identities; the case of letters and the order of identities in memory do not matter.", "quantifier": "every key, set of identities and order of enumeration", "why_tests_cant": "Go enumerates the identities in random order; the choice depends on all e-mails of a key, with all combinations of case.", "anchors": ["lib/pgp/pgp.go:231-245", "lib/pgp/pgp.go:63-94"]}
{"id": "C75", "title": "Queries that a predicate server handles at the same time are answered as if alone", "statement": "Whatever queries a predicate server handles at the same time or has handled before, each gets the answer it would get from a new server to which it is the only query.", "quantifier": "every number of concurrent and earlier queries, every interleaving of their steps, every database and every query, well-formed or not", "why_tests_cant": "The answers depend on how the goroutines of the RPC handlers interleave inside the evaluation of a share; the tests issue one query at a time.", "anchors": ["simulations/multi/server/server.go:205-217", "cmd/grpc/server/main.go:256-292", "lib/fss/common.go:15-72", "lib/fss/server.go:34-86", "lib/server/fss.go:42-138", "lib/server/predicate_apir.go:25-34", "lib/server/predicate_pir.go:20-29"]}
{"id": "C76", "title": "A server keeps running and clients are not disturbed, whatever other clients send", "statement": "A server that has started keeps running until it is shut down, whatever queries any number of clients send it; and what a client program shows does not depend on what other clients do at the same time.", "quantifier": "every deployment, every number of clients, every query they send, every interleaving of calls, cancellations and answers", "why_tests_cant": "One query of one client decides over the process that all clients use; tests send well-formed queries, one at a time.", "anchors": ["cmd/grpc/server/main.go:80-172", "cmd/grpc/server/main.go:256-292", "lib/server/point.go:29-90", "lib/server/fss.go:27-138", "cmd/grpc/client/main.go:278-340", "cmd/grpc/client/main.go:394-419", "cmd/grpc/client/manager/mod.go:71-217"]}
{"id": "C77", "title": "The service manager is told the truth and a stop loses no call", "statement": "The server tells the service manager that it is ready only when it accepts calls, and that it stops only when it stops; after SIGINT or SIGTERM the process ends in an orderly way, and every call it accepted gets the answer or the error of its own query unless the client gave up.", "quantifier": "every number of calls, every answering function, every interleaving of calls, cancellations, signals, answers, failures of the listener and of the notification socket", "why_tests_cant": "A stop races with the calls in flight and the calls just arriving; a test sees one order of events.", "anchors": ["cmd/grpc/server/main.go:163-219", "cmd/grpc/server/main.go:256-296", "cmd/grpc/sdnotify/sdnotify.go:28-86"]}
{"id": "C78", "title": "The configured repetitions keep forgeries unlikely", "statement": "With the number of repetitions the benchmark driver uses for a database length, a server whose deviations do not depend on the client's secret multipliers makes the amplified LWE client accept a wrong bit with probability at most 2^-64 over those multipliers.", "quantifier": "every database of the length, every position, secrets, noise within the bound, and all deviations of the server from the honest answers", "why_tests_cant": "The probability is far below anything a test can observe, and it concerns all deviations at once.", "anchors": ["lib/client/amplify.go:18-65", "lib/client/lwe.go:39-99", "simulations/simul.go:99-106", "simulations/simul.go:247-254", "scripts/integrity_amplification.py:1-30", "lib/utils/lwe.go"]}
{"id": "C79", "title": "Goroutines that draw random numbers at the same time get independent numbers and none waits for ever", "statement": "Any number of goroutines may draw 64-bit words, 63-bit words and numbers below a bound from the process's random source at the same time. Whatever the schedule, every number returned comes from its own part of the generator's stream, no part is used twice or left out, numbers below m are below m and equally likely, and as long as a goroutine has draws to make some goroutine can go on.", "quantifier": "every number of goroutines, every sequence of calls of each, every schedule and every generator stream", "why_tests_cant": "A test sees a few schedules; overlapping draws or a lock that is never released show up only in some of them.", "anchors": ["lib/utils/rand.go:36-51", "lib/utils/rand.go:119-156"]}
{"id": "C80", "title": "A query reaches only the server it is meant for", "statement": "When a client program has connected to its configured servers, the peer behind the i-th address is server i, even if somebody else answers at that address: nobody who does not know the secret key of server i receives the query meant for it. In particular no single party receives two of the queries of a lookup. Genuine servers are accepted.", "quantifier": "every assignment of peers to addresses, every certificate chain a peer shows and every set of secret keys it knows, every time, every list of addresses, every lookup", "why_tests_cant": "Tests run genuine servers on one computer; who is accepted in place of a server shows only against peers nobody has written.", "anchors": ["lib/utils/tls.go:14-187", "cmd/grpc/server/main.go:123-135", "cmd/grpc/client/manager/mod.go:36-63", "cmd/grpc/client/main.go:120-139"]}
{"id": "C81", "title": "The web front end stays up and every visitor gets a reply", "statement": "As long as the servers answer every call, every request that reaches the web front end gets a reply, whatever this and all other visitors ask for and in whatever order the handlers run: the reply is that of the visitor's own request, carries its request identifier, and no visitor can stop the site for others.", "quantifier": "every history of arriving requests with arbitrary paths and forms, every interleaving of their handlers, every behaviour of the servers that answers the calls", "why_tests_cant": "Tests send well-formed requests one at a time; that one odd request takes down the requests of others shows only in some histories.", "anchors": ["cmd/grpc/client/web/mod.go:80-138", "cmd/grpc/client/web/mod.go:211-441", "cmd/grpc/client/manager/mod.go:220-248", "lib/query/query.go:111-125"]}
{"id": "C82", "title": "Recorded CPU costs are the CPU time used", "statement": "Whatever sequence of calls a program makes on its CPU monitor, a recorded cost is never negative and equals the user and system time that the process has used since the measurement was last started (by creation, reset or record-and-reset), to within ten nanoseconds; recording does not disturb the measurement; and the costs of consecutive phases add up to the cost of the whole.", "quantifier": "every sequence of calls, every sequence of readings of kernel clocks that never go back, every rounding to nearest, processes up to 2^32 milliseconds of CPU time (2^43 seconds for the sign)", "why_tests_cant": "The costs come from floating-point sums and differences of clock readings; whether some carry between seconds and microseconds gives a negative or distorted cost depends on values that no test controls.", "anchors": ["lib/monitor/mod.go:9-52", "simulations/preprocessing.go:36-63"]}
{"id": "C83", "title": "The interactive client works with the configured servers and reports what goes wrong", "statement": "The interactive client works with the servers named by its configuration files, and however many requests are entered in whatever order, each prints what it would print alone and the program ends only when the user leaves it or after saying what went wrong, as long as the servers answer every call.", "quantifier": "every environment, configuration file, network and library, every sequence of inputs, every order of delivery", "why_tests_cant": "The program is a loop around prompts with an unbounded history of requests; tests cover neither a server that is caught cheating in the middle of a session nor the start with another configuration.", "anchors": ["cmd/grpc/client/interactive/mod.go:23-121", "cmd/grpc/client/interactive/mod.go:123-205", "cmd/grpc/client/interactive/mod.go:208-436", "cmd/grpc/client/web/mod.go:141-187"]}
{"id": "C84", "title": "One server cannot have a wrong count accepted", "statement": "When one of the two servers, knowing its message, answers an authenticated counting query as it likes and the other one is honest, the client returns a number other than the one it gets from two honest servers only with negligible probability over its randomness.", "quantifier": "every database, every counting query the client builds, every strategy of either server, every order of the messages, every block cipher (through the advantage of explicit tests), every MAC key, seed and control bit", "why_tests_cant": "A probability over 2^300 client states and an adversary that is an arbitrary function of its message; tests can only try some wrong answers.", "anchors": ["lib/client/fss.go:47-72", "lib/client/fss.go:83-135", "lib/fss/client.go", "lib/fss/server.go", "lib/server/fss.go"]}
{"id": "C85", "title": "One server cannot have a wrong average accepted", "statement": "When one of the two servers, knowing its message, answers an authenticated average query as it likes and the other one is honest, the client returns a number other than the one it gets from two honest servers only with negligible probability over its randomness.", "quantifier": "every database, every average query the client builds, every strategy of either server, every order of the messages, every block cipher (through the advantage of explicit tests), every MAC key, seed and control bit", "why_tests_cant": "A probability over 2^300 client states and an adversary that is an arbitrary function of its message; the successful attack consists of sending less, which no test of wrong values tries.", "anchors": ["lib/client/fss.go:83-135", "lib/server/fss.go"]}
{"id": "C86", "title": "The client's reaction tells a lying server of the group scheme nothing about the index", "statement": "A server that answers a single-server lookup over a group as it likes and then sees whether the client accepts, rejects or fails cannot tell two indices apart, except by solving the Diffie-Hellman problem or guessing a group element.", "quantifier": "every database with published row digests, every group with decodable encodings, every strategy of the server, every pair of indices, every test on the message and the reaction, every distribution of the first scalar", "why_tests_cant": "A statement on distributions over all scalars and arbitrary strategies; a test would have to find the one deviation whose acceptance depends on the index.", "anchors": ["lib/client/dh.go:39-70", "lib/client/dh.go:72-108", "lib/server/dh.go:19-74"]}
{"id": "C87", "title": "A lying server of the group scheme has a wrong bit accepted only with negligible probability", "statement": "Whatever a server answers to a single-server lookup over a group, the client returns a bit other than the stored one only if the server solves the Diffie-Hellman problem or guesses a group element.", "quantifier": "every database with published row digests, every group with decodable encodings, every strategy of the server, every index, every distribution of the first scalar", "why_tests_cant": "A probability over all scalars for arbitrary strategies.", "anchors": ["lib/client/dh.go:39-70", "lib/client/dh.go:72-108"]}
{"id": "C88", "title": "The client's reaction tells a lying server of the LWE schemes nothing about the index", "statement": "A server that answers a single-server lookup based on LWE as it likes and then sees whether the client accepts, rejects or fails cannot tell two indices apart, except by solving the LWE problem (where one comparison with the noise may be asked for), guessing the multiplier, or when the noise is too large.", "quantifier": "every bit database with its digest, both word sizes, every strategy of the server, every pair of indices, every test on the message and the reaction, every joint distribution of secret and noise", "why_tests_cant": "A statement on distributions over secrets, noise and multipliers and arbitrary strategies.", "anchors": ["lib/client/lwe.go:39-99", "lib/client/lwe128.go:40-102", "lib/server/lwe.go:20-29"]}
{"id": "C89", "title": "A lying server of the LWE schemes has a wrong bit accepted only if it finds the multiplier", "statement": "Whatever a server answers to a single-server lookup based on LWE, the client returns a bit other than the stored one only if the server solves the LWE problem, guesses the multiplier up to twice the noise bound, or the noise is too large.", "quantifier": "every bit database with its digest, both word sizes, every strategy of the server, every index, every joint distribution of secret and noise", "why_tests_cant": "A probability over secrets, noise and multipliers for arbitrary strategies.", "anchors": ["lib/client/lwe.go:39-99", "lib/client/lwe128.go:40-102"]}
{"id": "C90", "title": "A lying server of a verified lookup must not learn the index from the client's reaction", "statement": "In a Merkle-authenticated lookup with several servers, one server may answer its message with any bytes and then notice whether the client returns a record, rejects or panics. Message and reaction together must not depend on which index is looked up.", "quantifier": "all databases of sealed records, all hash functions with 32-byte digests, all server counts from three, all server positions, all answering strategies, all pairs of indices, all random strings", "why_tests_cant": "Tests use honest servers; the claim compares distributions of what a malicious server observes over all its strategies.", "anchors": ["lib/client/client.go:49-87", "lib/client/pir_point.go:46-78", "lib/server/point.go:55-79"]}
{"id": "C91", "title": "An answer to a predicate query counts for the field elements it stands for, however its words are written", "statement": "In an authenticated predicate (count) query, the words of a server's answer stand for elements of the field. When one server sends exactly the elements it is asked for, but writes some of them as 32-bit words that are not reduced modulo the prime, the client must react as in an honest run; in particular its reaction must not depend on how many keys match.", "quantifier": "all databases, all count queries, both connection orders, either server, every way of writing the words, all randomness for which no derived value equals the modulus", "why_tests_cant": "Tests only use servers that send reduced words; the claim is about every representation of every answer.", "anchors": ["lib/client/fss.go:83-135", "lib/client/client.go:37-45"]}
{"id": "C92", "title": "The client's reaction to a lying server of a count query that sends well-formed answers tells it nothing", "statement": "In an authenticated count query one of the two servers answers with five words, none above 2^32 minus the prime, that depend on its message in whatever way (or fails to answer), and notices whether the client accepts or rejects. For two queries with the same public part and predicates of the same length, message and reaction together must look alike up to the security of the generator: the server can compute the reaction from its own message.", "quantifier": "all databases, all count queries, either server, both connection orders, all strategies with well-formed answers, all tests on message and reaction", "why_tests_cant": "Compares distributions of what a malicious server observes over all its strategies; honest-server tests show nothing of it.", "anchors": ["lib/client/fss.go:47-135", "lib/fss/client.go:18-97", "lib/server/fss.go:42-131"]}
{"id": "C93", "title": "The sizes of the encrypted messages do not tell which record is looked up", "statement": "Somebody who watches the encrypted connections of a lookup between the client and all servers sees the sizes of queries and answers. These must not depend on which record is looked up.", "quantifier": "all databases, all server counts from three, all pairs of indices, all random strings, all lossless compressors", "why_tests_cant": "Concerns the joint distribution of sizes on all connections over all random choices and all database contents; a test sees single sizes.", "anchors": ["cmd/grpc/client/main.go:68-72", "cmd/grpc/client/interactive/mod.go:57-61", "cmd/grpc/client/web/mod.go:75-79", "cmd/grpc/server/main.go:132-136", "lib/client/pir_point.go:46-68", "lib/server/point.go:55-79"]}
{"id": "C94", "title": "A message of at most 1 GiB arrives as it was sent, and a larger one makes the call fail", "statement": "A query and its answer that have at most 1 GiB, before and after compression, pass between client and server unchanged, and what a server reports instead of an answer is reported to the client; a call with a larger query or answer fails with an error. So lookups in databases with at most 512 MiB in a column find every record over the connections, and those in databases with more than 1 GiB in a column all fail with an error.", "quantifier": "all lossless compressors, all servers, all queries and answers, all databases, all indices, all server counts but two, all orders of arrival", "why_tests_cant": "Limits and encodings concern messages of every size; tests exchange a few small ones.", "anchors": ["lib/proto/vpir.proto:12-18", "cmd/grpc/client/main.go:68-72", "cmd/grpc/client/main.go:421-433", "cmd/grpc/client/manager/mod.go:188-236", "cmd/grpc/server/main.go:132-136", "cmd/grpc/server/main.go:256-276"]}
{"id": "C95", "title": "Many lookups, chosen by the server, reveal no more than the sum of what each one reveals", "statement": "A server watches any number of lookups of one client. Before each it proposes two things to look up, one of which the client takes (always the first or always the second), and fixes how it will answer, depending on everything it has seen so far. Its advantage in telling the two clients apart is at most the expected sum of the bounds for the single lookups: zero for all but one of the servers of a multi-server lookup; the advantages of explicit tests against the Diffie-Hellman or LWE problem plus guessing terms for the single-server schemes, where the server answers as it likes and sees how the client ends; and for count queries, where a server answers with five words of at most 2^32 minus the modulus and sees how the client ends, the advantages of tests against the generator, the chance that honest runs go wrong, and 10/2^31 + 1728/p^3.", "quantifier": "all adaptive servers, all numbers of lookups, all proposals of indices (or of predicates with the same public part and length), all ways of answering, all databases", "why_tests_cant": "A statement about distributions over the coins of arbitrarily long adaptive sessions.", "anchors": ["lib/client/pir_point.go:46-110", "lib/client/dh.go:39-108", "lib/client/lwe.go:39-99", "lib/client/lwe128.go:40-102", "lib/client/predicate_apir.go", "lib/client/fss.go"]}
{"id": "C96", "title": "In a session of many lookups a lying server gets a wrong result accepted at most with the sum of the chances of each", "statement": "A server watches any number of lookups of one client. Before each it decides what the client looks up and how it will answer, depending on everything it has seen so far, including how the client ended. The probability that at least one lookup ends with a wrong bit (single-server schemes) or a wrong count (count queries, one of the two servers lying) is at most the expected sum of the bounds for the single lookups.", "quantifier": "all adaptive servers, all numbers of lookups, all ways of answering, all databases", "why_tests_cant": "A statement about probabilities over the coins of arbitrarily long adaptive sessions; the events are far too rare to be seen in tests.", "anchors": ["lib/client/dh.go:72-108", "lib/client/lwe.go:74-99", "lib/client/lwe128.go:75-102", "lib/client/fss.go", "lib/client/predicate_apir.go"]}
{"id": "C97", "title": "One client object serves any number of lookups", "statement": "A client object (multi-server, group, LWE, amplified LWE or predicate client) can be used for any number of lookups, also for several at a time: whatever calls were made on it before, in any order and with any arguments, a query sends what a new object would send, and the answers to a query are reconstructed as by a new object on which only that query was made, or rejected.", "quantifier": "every history of query and reconstruct calls on one object (also ones that panic and ones given arbitrary bytes), all queries, coins, databases and answers", "why_tests_cant": "Tests make a new client for every lookup, or use one strictly in turn; the claim is about all histories of calls.", "anchors": ["lib/client/client.go:16-33", "lib/client/pir_point.go:20-78", "lib/client/dh.go:14-108", "lib/client/lwe.go:15-95", "lib/client/lwe128.go:16-96", "lib/client/amplify.go:13-65", "lib/client/fss.go:16-135", "simulations/simul.go:213-337"]}
{"id": "C98", "title": "An answer can be reconstructed again", "statement": "Reconstructing an answer does not change it: a second call of the LWE client with the same answer gives the same bit.", "quantifier": "all databases, coins, positions and honest answers", "why_tests_cant": "A test reconstructs an answer once; whether the second result differs depends on the coins.", "anchors": ["lib/client/lwe.go:74-95", "lib/client/lwe128.go:75-96", "lib/matrix/matrix.go"]}
{"id": "C99", "title": "An experiment server that is asked to stop ends", "statement": "Once an experiment server has been asked to stop, by a signal or by a request to its HTTP port, it lets every call it has accepted return the result of its own query and then ends, whatever else clients, signals and requests do meanwhile.", "quantifier": "every schedule of calls, cancellations, signals, HTTP requests, failures of the listener and of the goroutines of the process; every answering function that does not panic", "why_tests_cant": "A test sends one request to stop and sees the process end; the claim is about all schedules and any number of requests.", "anchors": ["simulations/multi/server/server.go:147-182", "simulations/multi/server/server.go:218-230"]}
{"id": "C100", "title": "Sizes computed in floating point are the exact ones", "statement": "Numbers of blocks, of rows per goroutine and of tree levels, which the code computes with 64-bit floating-point divisions, logarithms and ceilings, are exactly the least numbers that suffice: no bit, row or record is left out and none is added.", "quantifier": "all sizes below 2^53 (numbers of records: up to the 2^32 that have an index), every rounding to a nearest double, every logarithm that is exact for powers of two and off by less than 2^-32 elsewhere", "why_tests_cant": "Rounding errors show for particular pairs of large numbers only; the claim is about all of them.", "anchors": ["lib/database/elliptic.go:36", "lib/server/dh.go:30", "simulations/simul.go:343-345", "simulations/multi/client/client.go:361-364", "lib/merkle/merkletree.go:61", "lib/merkle/merkletree.go:77", "lib/merkle/merkletree.go:93"]}
{"id": "C101", "title": "The time zones of the servers do not matter for counting queries", "statement": "Counting queries give the number of keys asked for, counted by the creation times as published (which are instants, in UTC), whatever the time zones of the machines that the two servers run on.", "quantifier": "all lists of keys with all creation times, all pairs of zones with offsets below a day, all queries by e-mail, algorithm, creation time and year, all randomness", "why_tests_cant": "Tests run client and servers in one process in one zone, with keys not created around New Year; the claim is about all zones and creation times.", "anchors": ["lib/database/pgp.go:199-226", "lib/query/query.go:111-141", "lib/query/query.go:193-206", "lib/server/fss.go:71-97"]}
{"id": "C102", "title": "Honest counts and averages go wrong only by a rare coincidence", "statement": "With two honest servers, a counting query or an average of the authenticated scheme gives the right number, and the client does not reject, for all but a small part of the client's random seeds, whatever else the three parties draw. The part is at most (N + 2) times four chances in 2^31, where N is the number of distinct selectors among the keys, plus what an explicit list of tests can gain against the pseudo-random generator.", "quantifier": "all databases, all counting queries and averages the client builds, all hashes with 32 bytes, all ciphers, all fresh randomness of client and servers; the chance is over all seeds and control bytes", "why_tests_cant": "The coincidence (a derived 31-bit value equal to the modulus) has chance about 2^-29 per selector; tests never see it, and no number of test runs gives a bound for every database and cipher.", "anchors": ["lib/fss/client.go:25-131", "lib/fss/server.go:34-81", "lib/field/field.go:24-50", "lib/client/fss.go:83-135"]}
{"id": "C103", "title": "The secret keys of an authenticated count are uniform and drawing them ends", "statement": "The authentication keys a client draws for a predicate query are always below the modulus, every vector of such keys is drawn with exactly the same chance, whatever was read from the client's random source before, and drawing does not end within k tries per key with a chance of at most (number of keys) / 2^(31 k). So a change of the answers that is chosen without the keys and changes the count is accepted with a chance of at most 1 / p^(number of keys).", "quantifier": "all numbers of keys, all numbers of tries, all positions and earlier contents of the random source; the chance is over the random bytes read", "why_tests_cant": "Uniformity over (2^31 - 1)^4 key vectors and a tail bound are statements about all random bytes; sampled keys can only be tested statistically, and a modulo bias of 2^-31 is invisible to a test.", "anchors": ["lib/field/field.go:45-66", "lib/client/fss.go:47-63"]}
{"id": "C104", "title": "The noise of a lattice query is a discrete Gaussian, and sampling it ends", "statement": "There is a symmetric distribution on the integers from -128 to 128, equal to the discrete Gaussian of width 6.4 up to a factor of 1 ± 1/50000 and an absolute error of 2^-62, such that the samples in a client's noise matrix are independent draws from it: with n random words per sample, every sequence of m samples has the product of its chances, up to a factor between (1 - 1.1·0.97^n)^m and 1. Sampling m values does not end within n·m random words with a chance of at most m·1.1·0.97^n, and it never crashes. The 32-bit noise matrix holds these samples; the 128-bit one holds the sample minus 1 wherever the sample is negative, so that no cell is ever -1.", "quantifier": "all matrix sizes, all sequences of samples, all numbers of random words, all roundings to a nearest double; the chance is over the random words", "why_tests_cant": "A sampler off by one in its index range, with a biased sign or a wrong table entry produces samples that look right; a test can only compare histograms, and none of them sees chances below a billionth or dependence between samples.", "anchors": ["lib/utils/gauss.go:5-49", "lib/utils/rand.go:49-51", "lib/utils/rand.go:127-148", "lib/matrix/matrix.go:117-124", "lib/matrix/matrix128.go:77-89", "lib/utils/lwe.go:29"]}
{"id": "C105", "title": "A lattice query uses a uniform secret and multiplier and independent Gaussian noise", "statement": "Whatever the client's random generator and the generator shared by the whole process have delivered before, the secret vector and the multiplier drawn for a query are exactly uniform over words of 32 or 128 bits, its noise values are independent draws from one distribution near the discrete Gaussian of width 6.4, and all of these are independent of each other: every combination of a multiplier, a secret and noise values occurs with the product of the chances, up to a factor between (1 - 1.1·0.97^c)^rows and 1, when c random words are available per noise value. Drawing does not end within these words with a chance of at most rows·1.1·0.97^c, and it never crashes.", "quantifier": "all word lengths up to 16 bytes, all numbers of rows, all positions and earlier outputs of both generators, all multipliers, secrets and noise sequences; the chance is over the key streams from the current positions on", "why_tests_cant": "A generator whose buffered output overlaps with what it served before, or a secret and noise taken from the same bytes, gives queries that decode correctly and look random; tests only see that answers are right.", "anchors": ["lib/client/lwe.go:39-66", "lib/client/lwe128.go:40-67", "lib/matrix/matrix.go:102-124", "lib/matrix/matrix128.go:61-89", "lib/utils/rand.go:101-154", "lib/utils/gauss.go:30-49"]}
{"id": "C106", "title": "An honest lattice retrieval fails only rarely", "statement": "For every database of bits published with its digest, every entry and whatever the random generators delivered before: a retrieval of a stored zero from the honest server goes wrong for at most a part 2·columns/2^(38·rows) of the random bytes. A retrieval of a stored one goes wrong for a part (168·rows − 1)/2^32 with the 32-bit client and (168·rows + 1)/2^128 with the 128-bit client, up to the same term and to the chance that the random words drawn do not suffice.", "quantifier": "all databases within the sizes the kernels can handle, all entries, all pasts of both generators, all expansions of the public seed, all roundings to a nearest double; the chance is over the key streams from the current positions on", "why_tests_cant": "The decoding bound of 84 per row and the multiplier are random; a test of a few retrievals cannot tell a failure rate of 2^-13 from one of 2^-20, nor see which part is due to noise.", "anchors": ["lib/client/lwe.go:39-99", "lib/client/lwe128.go:40-102", "lib/server/lwe.go:20-29", "lib/server/lwe128.go:20-29", "lib/utils/lwe.go:24-68", "lib/utils/gauss.go:30-49", "lib/utils/rand.go:101-154"]}
{"id": "C107", "title": "How often an honest amplified lattice retrieval goes wrong", "statement": "For every database of bits published with its digest, every entry, every number t of errors to be corrected and whatever the random generators delivered before: the amplified client accepts a wrong bit for a stored one exactly as often as, of 2t+1 independent events of chance p = (168·rows − 1)/2^32, the first and more than t altogether happen; it returns the stored one exactly as often as the first and more than t altogether of them do not happen; for a stored zero neither goes wrong. All this holds up to a part (2t+1)·2·columns/2^(38·rows) of the random bytes and to the chance that the random words drawn do not suffice.", "quantifier": "all databases within the sizes the kernels can handle, all entries, all numbers of repetitions below 2^32, all pasts of both generators, all expansions of the public seed, all roundings to a nearest double; the chance is over the key streams from the current positions on", "why_tests_cant": "The chances are far below what repeated runs can resolve, and the base clients share one generator and one noise source, so that their independence is a matter of which positions of the streams they read.", "anchors": ["lib/client/amplify.go:17-65", "lib/ecc/ecc.go:24-47", "lib/server/amplify.go:11-36", "lib/client/lwe.go:39-99", "lib/utils/gauss.go:30-49", "lib/utils/rand.go:101-154"]}
{"id": "C108", "title": "An amplified lattice query does not reveal the index", "statement": "For every pair of entries, every number of repetitions, every digest and database size the client was given and every test on the one message of the amplified 32-bit LWE client: the test tells the message for one entry from that for the other with an advantage of at most the sum of the advantages of explicit tests for the learning-with-errors problem, each on a single vector.", "quantifier": "all entries, all numbers of repetitions, all digests, all database sizes the kernels can handle, all expansions of the public seed, all tests (bounded or not), all distributions of secrets, noise and multipliers independent between repetitions", "why_tests_cant": "The same index is queried with several fresh secrets under one public matrix in one message; that nothing about the index follows from their combination is a statement about distributions and all tests.", "anchors": ["lib/client/amplify.go:17-65", "lib/client/lwe.go:39-99", "lib/matrix/matrix.go:53-100", "lib/ecc/ecc.go:24-47"]}
{"id": "C109", "title": "A lying server learns nothing about the index from how the amplified lattice client ends", "statement": "For every pair of entries of a database published with its digest, every number of repetitions and every server, whatever it answers: message and reaction (result, rejection or panic) of the amplified 32-bit LWE client tell the one entry from the other with an advantage of at most that of explicit tests for the learning-with-errors problem, plus 2n times the chance that the noise of a column is too large, plus 2n * columns * (8B-6) times the largest chance of a multiplier, n being the number of repetitions.", "quantifier": "all databases and digests, all pairs of entries, all numbers of repetitions, all servers, all tests on message and reaction, all distributions of secrets, noise and multipliers independent between repetitions", "why_tests_cant": "The reaction depends on all answers and all secrets, and a server may choose its answers after seeing all queries; no set of servers covers that.", "anchors": ["lib/client/amplify.go:17-65", "lib/client/lwe.go:39-99", "lib/matrix/matrix.go:53-100", "lib/ecc/ecc.go:24-47", "lib/server/amplify.go:11-36"]}
{"id": "C110", "title": "How likely a lying server makes the amplified lattice client take a wrong bit", "statement": "For every database published with its digest, every entry, every number t of errors to be corrected and every server, whatever it answers after seeing the query: the amplified 32-bit LWE client returns a wrong bit with a probability of at most the advantage of 2t+1 explicit tests for the learning-with-errors problem, plus 2t+1 times the chance that the noise of the entry's column is too large, plus C(2t,t) * ((8B-6) * e)^(t+1), e being the largest chance of a multiplier (2^-32 for random bytes).", "quantifier": "all databases and digests, all entries, all numbers of errors to be corrected, all servers, all distributions of secrets, noise and multipliers independent between repetitions", "why_tests_cant": "The probabilities are below 2^-79 for small databases, and the server may choose its answers depending on all queries at once.", "anchors": ["lib/client/amplify.go:17-65", "lib/client/lwe.go:39-99", "lib/matrix/matrix.go:53-100", "lib/ecc/ecc.go:24-47", "lib/server/amplify.go:11-36"]}
{"id": "C111", "title": "The digests of the rows do not depend on how the goroutines are scheduled", "statement": "When the digests of a new database for the group scheme are computed by several goroutines, every schedule ends, and whenever it ends with a result the result is one digest per row in the order of the rows, as a single loop over the rows would compute it. Whether the computation panics depends on the number of rows and goroutines only, and with at least (n-1)^2 rows for n goroutines it never does.", "quantifier": "all groups, all databases, all numbers of rows, columns and goroutines, all schedules", "why_tests_cant": "Goroutines finish in any order and tests see a handful of schedules for a handful of sizes.", "anchors": ["lib/database/elliptic.go:36-54", "lib/database/elliptic.go:75-91"]}
{"id": "C112", "title": "Matrix products are refused or exact", "statement": "For matrices with fewer than 2^31 rows and columns, Mul and BinaryMul (32 and 128 bits) return a matrix exactly if the dimensions match and none of the three matrices is empty or has more entries than the kernels can index, and whatever they return is the product modulo 2^32 or 2^128 at every position.", "quantifier": "all matrices with dimensions below 2^31, all entries", "why_tests_cant": "The kernels compute in C with int indices on raw memory; which sizes make them fail or go wrong can only be found by reasoning about all sizes.", "anchors": ["lib/matrix/matrix.go:150-184", "lib/matrix/matrix128.go", "lib/matrix/matrix.c"]}
{"id": "C113", "title": "Every matrix that fits in a message is read back", "statement": "A non-empty 32-bit or 128-bit matrix, or a list of equally sized non-empty 32-bit matrices, whose encoding is at most one GiB long (the largest message the servers and clients accept) is decoded to what was encoded.", "quantifier": "all non-empty matrices and lists of matrices of every size up to the message limit", "why_tests_cant": "The limits come from 32-bit length fields; only reasoning about all sizes shows that the message limit is reached first.", "anchors": ["lib/matrix/matrix.go:39-100", "lib/matrix/matrix128.go", "cmd/grpc/server/main.go:133-134"]}
{"id": "C114", "title": "What a lookup shows does not depend on the order in which servers answer", "statement": "If all servers report the same database parameters, the interactive client, the web front end and the command-line client (point schemes, plain and verified, with the connections enumerated in the same order) show the same for any two orders in which the replies of the servers arrive, whatever the servers answer: right, wrong, malformed or not at all.", "quantifier": "all servers and answers, all pairs of fair schedules, all keys looked up", "why_tests_cant": "The order of arrival depends on the network; the claim compares all pairs of orders for arbitrary answers.", "anchors": ["cmd/grpc/client/main.go:278-340", "cmd/grpc/client/main.go:394-419", "cmd/grpc/client/manager/mod.go:71-217", "cmd/grpc/client/web/mod.go:211-300", "cmd/grpc/client/interactive/mod.go"]}
{"id": "C115", "title": "Nothing is shown unless the servers agree on the size of the database", "statement": "The command-line client, the interactive client and the web front end show a key, that there is no key, or a number only if all servers report the same numbers of rows and columns and the same block size. If they do not, what the programs do is independent of what the servers would answer to queries: they are not asked.", "quantifier": "all servers, all reported parameters, all schedules, all lookups and statistics", "why_tests_cant": "Servers may report anything and at different times; the claim is about every combination in all programs.", "anchors": ["cmd/grpc/client/main.go:278-340", "cmd/grpc/client/main.go:342-371", "cmd/grpc/client/main.go:448-460", "cmd/grpc/client/manager/mod.go:71-140", "cmd/grpc/client/web/mod.go:211-441"]}
{"id": "C116", "title": "No query leaves a client while a stranger answers at one of the addresses", "statement": "If somebody who knows none of the five secret keys answers at one of the configured addresses, or nobody does, no client program sends a query to any address and none shows anything. Every message that does leave a client goes to a configured address at which somebody answers who proved knowledge of the secret key of one of the five certificates, within its validity.", "quantifier": "all configurations, all peers and what they know, all times, all queries, all schedules", "why_tests_cant": "A test cannot let arbitrary adversaries answer at every address at every time.", "anchors": ["lib/utils/tls.go:14-187", "cmd/grpc/client/manager/mod.go:36-63", "cmd/grpc/client/main.go:120-139", "cmd/grpc/client/main.go:435-446"]}
{"id": "C117", "title": "The service manager is never told too early and every accepted call is settled before the end", "statement": "In every state a server process can get into: the service manager was told READY at most once and only by a step after which calls are accepted, STOPPING at most once and only when the process exits; and when the process has exited by itself, every call it accepted had returned the answer or the error of its own query unless its client gave up. The process makes a bounded number of steps per call and never waits for anything but calls and signals.", "quantifier": "all histories of calls, signals, failures and schedules", "why_tests_cant": "Calls, signals and failures may come at any moment; tests see a few moments.", "anchors": ["cmd/grpc/server/main.go:163-219", "cmd/grpc/server/main.go:256-296", "cmd/grpc/sdnotify/sdnotify.go:28-86"]}
{"id": "C118", "title": "Numbers drawn by several goroutines at once use disjoint parts of one stream", "statement": "Whatever programs any number of goroutines run and however they are scheduled, the numbers they have drawn from the process's random source are explained by draws that use the generator's stream one after the other without gap or overlap; numbers asked for below m are below m, each of them comes from equally many byte strings, and more than half of the byte strings of an attempt yield a number.", "quantifier": "all numbers of goroutines, all programs, all schedules, all bounds m", "why_tests_cant": "Interleavings inside buffered reads cannot be enumerated by a test.", "anchors": ["lib/utils/rand.go:36-51", "lib/utils/rand.go:119-156"]}
{"id": "C119", "title": "A result shown is not changed by other clients", "statement": "Whatever any number of other clients send to the servers at the same time, a client program that would show a result if it were alone shows that result or ends with an error of the network; it never shows a different one.", "quantifier": "all servers, all requests of other clients, all schedules, all lookups and statistics", "why_tests_cant": "Other clients may send anything at any moment.", "anchors": ["cmd/grpc/server/main.go:80-172", "cmd/grpc/server/main.go:256-292", "cmd/grpc/client/main.go:278-340", "cmd/grpc/client/manager/mod.go:71-217"]}
{"id": "C120", "title": "A visitor of the web front end gets the reply to their own request", "statement": "In every history of requests to the web front end, however their handlers overlap, a request that got a reply got that of its own handler, and a connection was closed without a reply only if its own handler panicked. With servers that answer every call the process is down only if a visitor asked for a year that is not a number.", "quantifier": "all histories of requests, all overlaps of handlers, all servers that answer", "why_tests_cant": "Requests may overlap in every way, and every form content may be sent.", "anchors": ["cmd/grpc/client/web/mod.go:80-138", "cmd/grpc/client/web/mod.go:211-441"]}
{"id": "C121", "title": "What a predicate server answers does not depend on earlier queries", "statement": "A predicate server that handles its queries one after the other gives to each the answer a new server would give, whatever queries came before: two histories that end with the same query end with the same answer.", "quantifier": "all databases, all histories of queries (well formed or not), all queries", "why_tests_cant": "The server keeps buffers and ciphers between queries; no test covers all histories.", "anchors": ["lib/fss/common.go:15-72", "lib/fss/server.go:34-86", "lib/server/fss.go:42-138", "simulations/multi/server/server.go:205-217"]}
{"id": "C122", "title": "Lookups made one after the other with one client object do not influence each other", "statement": "Lookups made one after the other with one object (multi-server, group, LWE with 32 or 128 bits, amplified LWE or predicate client) return what as many new objects would return, one for each lookup, whatever calls were made on the object before, whatever is looked up and whatever the servers answer, also if some of the lookups fail.", "quantifier": "all client kinds, all earlier calls, all sequences of lookups, all answers", "why_tests_cant": "The state of the last query stays in the object; only reasoning about all histories shows that nothing of it gets into a later lookup.", "anchors": ["lib/client/pir_point.go:20-78", "lib/client/dh.go:14-108", "lib/client/lwe.go:15-95", "lib/client/lwe128.go:16-96", "lib/client/amplify.go:13-65", "lib/client/fss.go:16-135", "simulations/simul.go:213-337"]}
{"id": "C123", "title": "An unauthenticated predicate query reveals at most one bit about the predicate", "statement": "Whatever a server concludes from the message of the predicate client without authentication, it would conclude at least half as often from random bytes that have nothing to do with the predicate, up to the advantages of explicit tests against the AES-based generator. In particular, if one of N predicates of the same length is asked for, all equally likely, a server guesses it with a probability of at most 2/N plus these advantages. A server that ignores the last word of the message learns nothing.", "quantifier": "all block ciphers, all predicates, both servers, all tests and guessing strategies, all sets of predicates of the same length", "why_tests_cant": "The claim is about probabilities over all keys and about every strategy of a server.", "anchors": ["lib/client/predicate_pir.go:18-51", "lib/client/fss.go:47-72", "lib/fss/client.go", "lib/fss/common.go:59-72"]}
{"id": "C124", "title": "A random database of field elements has the size asked for and unbiased, reduced entries", "statement": "Creating a random database of field elements from a source that delivers enough bytes gives whole columns of full blocks, as many as fit the number of bits asked for and at least one; every entry is a reduced field element and depends only on the source. A source that ends early is reported as an error, and no list of entries is more likely than another.", "quantifier": "all sources of random bytes, all sizes, numbers of rows and block lengths, all states of the system's own randomness", "why_tests_cant": "A test draws a few streams; the words for which the conversion falls back on other randomness occur once in two thousand million draws.", "anchors": ["lib/database/db.go:83-121", "lib/database/bytes.go:15-27", "lib/field/field.go:28-47", "lib/field/field.go:93-101"]}
{"id": "C125", "title": "Several unauthenticated predicate queries reveal at most one bit each", "statement": "Whatever a server concludes from all the messages of m queries of the predicate client without authentication, it would conclude at least 2^-m times as often from random bytes that have nothing to do with the predicates, up to the advantages of explicit tests against the AES-based generator. In particular, if one of N equally likely secrets decides which m predicates are asked for, a server guesses it with a probability of at most 2^m/N plus these advantages, even if all m queries ask for the same predicate.", "quantifier": "all block ciphers, all numbers of queries, all predicates, both servers, all tests and guessing strategies, all ways in which a secret decides what is asked for", "why_tests_cant": "The claim is about probabilities over all keys of a whole session and about every strategy of a server.", "anchors": ["lib/client/predicate_pir.go:18-51", "lib/client/fss.go:47-72", "lib/fss/client.go", "lib/fss/common.go:59-72"]}
{"id": "C126", "title": "Everything that passes for a record, with proofs of any length", "statement": "Whatever string and proof (of any number of 32-byte hashes) VerifyProof accepts against the root of a tree: either the string is the record stored at the position of the proof; or the string and the position together are the digests of two neighbouring nodes; or some stored record together with its position is made of two digests, one of which the verification computes; unless the verification shows a collision or a preimage of the padding digest. Both confusions need a string of exactly 60 bytes, so an authenticated client whose database has no record of 60 bytes accepts only records and the first 60 bytes of two neighbouring digests, whatever the servers answer.", "quantifier": "all hash functions with digests of 32 bytes, all records (up to 2^31), all strings, all proofs of all lengths, all sets of answers", "why_tests_cant": "The adversary chooses the string, the length of the proof and every hash in it; honest proofs only ever have the height of the tree.", "anchors": ["lib/merkle/proof.go:45-98", "lib/merkle/merkletree.go", "lib/client/client.go:49-76"]}
{"id": "C127", "title": "With the right root, a program shows the loaded key or none", "statement": "Once the first database description to arrive has the type and root of the database of the loaded keys, a key shown by the command line client, the interactive client or the web client is the loaded key with the requested e-mail, whatever the servers answer and however long the proofs are, unless the verification of the record and proof made from these answers shows a collision; provided no stored block has exactly 60 bytes and no two neighbouring digests read as a key ring with that e-mail, which holds if no key ring of fewer than 60 bytes contains a key.", "quantifier": "all sets of loaded keys, all answers of all servers, all arrival orders, all e-mails, all three programs", "why_tests_cant": "A test server answers in a few wrong ways; the claim is about every answer.", "anchors": ["cmd/grpc/client/main.go:150-340", "cmd/grpc/client/manager/mod.go:71-142", "cmd/grpc/client/interactive/mod.go", "cmd/grpc/client/web/mod.go", "lib/client/client.go:49-76", "lib/merkle/proof.go:45-98"]}
{"id": "C128", "title": "Interrupted preparation can be repeated", "statement": "Interrupt the import of a dump or the splitting into chunks after any number of writes: the same command run again succeeds and leaves the disk of an uninterrupted run, also if the keys are enumerated in another order. No sequence of complete and interrupted runs changes or removes any file but the outputs, and after any such sequence an import followed by splitting yields chunks with exactly the keys of the dump.", "quantifier": "every disk, dump, interruption point, history of complete and interrupted runs, order of map enumeration", "why_tests_cant": "A test interrupts at a few points; the claim is about every write and every history.", "anchors": ["data/main.go:31-134", "lib/pgp/pgp.go:96-129", "lib/pgp/pgp.go:169-193"]}
{"id": "C129", "title": "The client's reaction to a lying server of an average query that sends well-formed answers tells it nothing", "statement": "In an authenticated average query one of the two servers answers with ten words, none above 2^32 minus the prime, that depend on its message in whatever way (or fails to answer), and notices whether the client returns a result, reports an error or panics. For two queries with the same public part, message and reaction together must look alike up to the security of the generator.", "quantifier": "all databases, all average queries, either server, both connection orders, all strategies with well-formed answers, all tests on message and reaction", "why_tests_cant": "Compares distributions of what a malicious server observes over all its strategies; honest-server tests show nothing of it.", "anchors": ["lib/client/fss.go:47-135", "lib/fss/client.go:18-97", "lib/server/fss.go:42-131"]}
{"id": "C130", "title": "An experiment server stopped by signals ends with every call settled", "statement": "However many signals ask an experiment server to stop, as long as no request to its HTTP port does: its own steps are bounded by the number of open calls plus five, and where it can make none it has exited with every accepted call returned (unless its client gave up), or serving has failed. At no time, whatever asks it to stop, does a call return anything but the outcome of its own query, and the process panics only if the answering function does.", "quantifier": "every schedule of calls, cancellations, signals, listener failures and goroutines; every answering function that does not panic", "why_tests_cant": "Schedules of signals and calls cannot be enumerated.", "anchors": ["simulations/multi/server/server.go:147-182", "simulations/multi/server/server.go:218-230"]}
{"id": "C131", "title": "What the multi-server clients make of any answers is given by a complete table", "statement": "For every list of answers, of any number and length and with any content: an unauthenticated lookup panics exactly if one of the answers ends before the requested block does, and otherwise returns the exclusive or of the requested blocks. An authenticated lookup panics exactly if one of the answers ends before the requested block does or if no record with a proof can be read from the exclusive or (nothing but zeros, shorter than a proof, announced hashes beyond the end), whatever the hash function; what it returns are the bytes before the proof. A statistics client panics exactly if fewer than two answers arrive, if an answer has no word, if an answer has too few words but everything that can be compared fits, or if it is an average over nobody; it returns the count or the average exactly if every tag fits and there are enough words; and it rejects all the other answers.", "quantifier": "every list of answers of every length and content, every position of the block, every hash function, every number of authentication tags and all their keys", "why_tests_cant": "answers come from the network: the table has to cover every byte string from every server", "anchors": ["lib/client/client.go:49-87", "lib/client/fss.go:74-135", "lib/client/pir_point.go:70-78", "lib/database/pgp.go:174-181", "lib/merkle/proof.go:80-98"]}
{"id": "C132", "title": "With the client's own draws and parameters a lying LWE server succeeds about once in 2^32/rows, or by solving LWE", "statement": "For every database of bits published with its digest, every entry, whatever the random generators delivered before and whatever the server answers: the part of the random bytes with which the client returns a bit that is not stored is at most the advantage of an explicit test in telling the LWE problem with a uniform secret and the sampled noise from uniform, plus 2/2^(38·rows), plus (672·rows − 6)/2^32 for the 32-bit client and (672·rows + 2)/2^128 for the 128-bit client. Up to a factor of four the last term is met: a stored one is returned as a zero for a part (168·rows − 1)/2^32 (128-bit: (168·rows + 1)/2^128), even by an honest server.", "quantifier": "all databases within the sizes the kernels can handle, all entries, all strategies of the server, all pasts of both generators, all expansions of the public seed, all roundings to a nearest double; the chance is over the key streams from the current positions on", "why_tests_cant": "a forged bit that is accepted once in 6000 times, or once in 2^108, is out of reach of a test, and the strategies of a server cannot be enumerated", "anchors": ["lib/client/lwe.go:39-99", "lib/client/lwe128.go:40-102", "lib/server/lwe.go:20-29", "lib/server/lwe128.go:20-29", "lib/utils/lwe.go:24-68", "lib/utils/gauss.go:30-49", "lib/utils/rand.go:101-154"]}
{"id": "C133", "title": "With the client's own draws and parameters the reaction to a lying LWE server hides the entry", "statement": "For every database of bits published with its digest, every two entries, whatever the random generators delivered before, whatever the server answers and whatever it makes of the message and of the way the client ends: the two entries are told apart with no more than the advantages of four explicit tests against the LWE problem (two of which use the noise for one comparison of the answer with the honest one), plus 4·columns/2^(38·rows), plus 2·columns·(672·rows − 6)/2^32 for the 32-bit client and 2·columns·(672·rows + 2)/2^128 for the 128-bit client, plus the chance that the random words drawn do not suffice.", "quantifier": "all databases within the sizes the kernels can handle, all pairs of entries, all strategies of the server and all its tests, all pasts of both generators, all expansions of the public seed, all roundings to a nearest double", "why_tests_cant": "no test can try all strategies of a server, and the bound is on probabilities of 2^-90", "anchors": ["lib/client/lwe.go:39-99", "lib/client/lwe128.go:40-102", "lib/server/lwe.go:20-29", "lib/server/lwe128.go:20-29", "lib/utils/lwe.go:24-68", "lib/utils/gauss.go:30-49", "lib/utils/rand.go:101-154"]}
{"id": "C134", "title": "A whole session of lookups from one client's generator hides what is looked up from all servers but one", "statement": "One client object makes any number of multi-server lookups (three servers or more), each from where the generator stood after the one before. For every group of all servers but one that proposes two indices for each lookup, depending on everything it has received so far, and for whatever it decides in the end: it decides for a client that always takes the left index exactly as often as for one that always takes the right one, provided the bytes of the key stream the lookups use are uniform. The bytes before and after may be known to the servers. Every lookup hands out one message per server, moves the generator on by max(16, bytes read), and delivers the block.", "quantifier": "all databases, numbers of servers other than two, missing servers, numbers of lookups, adaptive strategies, positions and pasts of the generator", "why_tests_cant": "a test sees one session; that no strategy over any number of lookups gains anything is a statement about all strategies and all key streams", "anchors": ["lib/client/pir_point.go:46-68", "lib/client/pir_point.go:80-96", "lib/utils/rand.go:60-110"]}
{"id": "C135", "title": "With its own draws the amplified LWE client is fooled only by solving LWE or by guessing most multipliers", "statement": "For every database of bits published with its digest, every entry, every number t of errors to be corrected, whatever both random generators delivered before and whatever the server answers after seeing the query: the part of the random bytes with which the amplified 32-bit client returns a bit that is not stored is at most the advantages of 2t+1 explicit tests in telling the LWE problem with a uniform secret and sampled noise from uniform, plus (2t+1)·2/2^(38·rows), plus C(2t,t)·((672·rows − 6)/2^32)^(t+1), plus the chance (2t+1)·rows·1.1·0.97^c that c random words per noise value do not suffice, for every c from four on.", "quantifier": "all databases within the sizes the kernels can handle, all entries, all numbers of errors to be corrected, all strategies of the server, all pasts of both generators, all expansions of the public seed, all roundings to a nearest double; the chance is over the key streams from the current positions on", "why_tests_cant": "the chance is over thousands of random bytes and about one in 2^45 or less; a test sees single runs, and cannot try all strategies of a server", "anchors": ["lib/client/amplify.go:17-65", "lib/client/lwe.go:39-66", "lib/client/lwe.go:74-99", "lib/utils/rand.go:60-153"]}
{"id": "C136", "title": "With its own draws the amplified LWE client reveals no entry by its message and its ending, but for solving LWE or guessing", "statement": "For every database of bits published with its digest, every two entries, every number t of errors to be corrected, whatever both random generators delivered before and whatever the server answers: the message and the way the amplified client ends tell the two entries apart with at most the advantages of explicit tests against the LWE problem (those that see the ending use the noise to compare the answers with the honest ones), plus (2t+1)·(4·cols/2^(38·rows) + 2·cols·(672·rows − 6)/2^32), plus three times the chance that c random words per noise value do not suffice. Of the message alone only the advantages and the last term remain.", "quantifier": "all databases within the sizes the kernels can handle, all pairs of entries, all numbers of errors to be corrected, all strategies of the server, all tests, all pasts of both generators, all expansions of the public seed, all roundings to a nearest double", "why_tests_cant": "that no strategy tells two entries apart is a statement about the distribution of messages and endings; single runs show nothing of it", "anchors": ["lib/client/amplify.go:17-65", "lib/client/lwe.go:39-66", "lib/client/lwe.go:74-99", "lib/utils/rand.go:60-153"]}
{"id": "C137", "title": "A session of LWE lookups by one client reveals no more than the sum of its lookups, up to the chance that random words run out", "statement": "One LWE client (32-bit or 128-bit, default parameters) makes n lookups one after the other, all from the generators it has. Before each lookup the server, knowing all messages and endings so far, proposes two entries and the way it answers. For every published database it tells a client that always takes the left entries from one that always takes the right ones with at most the expected sum of the advantages of four explicit tests per lookup against the LWE problem with independent secrets and noise, plus n·(4·cols/2^(38·rows) + 2·cols·(672·rows − 6)/2^32) for the 32-bit and n·(4·cols/2^(38·rows) + 2·cols·(672·rows + 2)/2^128) for the 128-bit client, plus 4·n·rows·1.1·0.97^c for the case that c random words per noise value do not suffice.", "quantifier": "all databases within the sizes the kernels can handle, all numbers of lookups, all servers that choose the entries and their answers depending on all messages and endings so far, all pasts of both generators, all expansions of the public seed, all roundings to a nearest double; the chance is over the key streams from the current positions on", "why_tests_cant": "the server adapts to all it saw, and the statement is about the distribution of whole sessions; single runs show nothing of it", "anchors": ["lib/client/lwe.go:31-37", "lib/client/lwe.go:39-66", "lib/client/lwe.go:74-99", "lib/client/lwe128.go:40-59", "lib/utils/rand.go:60-156"]}
{"id": "C138", "title": "One of many LWE lookups by one client gives a wrong bit only by solving LWE or by a guess", "statement": "In such a session of n lookups, with the server answering as it likes depending on all it saw: the part of the random bytes of both generators for which one of the lookups returns a bit that is not stored is at most the expected sum of the advantages of one explicit test per lookup against the LWE problem, plus n·(2/2^(38·rows) + (672·rows − 6)/2^32) for the 32-bit and n·(2/2^(38·rows) + (672·rows + 2)/2^128) for the 128-bit client, plus 2·n·rows·1.1·0.97^c for the case that c random words per noise value do not suffice.", "quantifier": "all databases within the sizes the kernels can handle, all numbers of lookups, all servers that choose the entries and their answers depending on all messages and endings so far, all pasts of both generators, all expansions of the public seed, all roundings to a nearest double; the chance is over the key streams from the current positions on", "why_tests_cant": "the chance is tiny per lookup and over sequences of lookups that the server adapts to all it saw; a test sees single runs", "anchors": ["lib/client/lwe.go:31-37", "lib/client/lwe.go:39-66", "lib/client/lwe.go:74-99", "lib/client/lwe128.go:40-59", "lib/utils/rand.go:60-156"]}
{"id": "C139", "title": "A session of counts and averages by one client reveals no more than the sum of its queries, with the MAC keys from the client's own generator", "statement": "One client object for authenticated predicate queries makes n queries, counts and averages in any order. It draws the four MAC keys of every query by rejection from the generator it was made with, and key generation reuses its scratch buffer. Before each query one of the two servers, knowing all its messages and how the client ended so far, proposes two questions with the same public part (averages: both counting somebody or both counting nobody), the order in which the messages are handed out and the way it answers in the expected number of words. It tells a client that always takes the left questions from one that always takes the right ones with at most the expected sum of what each query can reveal (C92 for counts, C129 for averages), plus 8·n/2^(31·f) for the case that f tries per MAC key do not suffice.", "quantifier": "all key databases, all numbers of queries, all mixtures of counts and averages, all servers that choose the questions, the order of the messages and their answers depending on all messages and endings so far, all pasts of the generator, all numbers of tries per key; the chance is over the bytes of the generator from the current position on and over the seeds", "why_tests_cant": "the server adapts to all it saw, and the statement is about the distribution of whole sessions; single runs show nothing of it", "anchors": ["lib/client/fss.go:47-72", "lib/client/fss.go:83-135", "lib/client/predicate_apir.go:20-32", "lib/field/field.go:49-63", "lib/fss/client.go:40-152", "lib/server/fss.go:42-138"]}
{"id": "C140", "title": "One of many counts and averages by one client is wrong only by breaking the generator or guessing MAC keys", "statement": "In such a session of n queries, with one of the two servers answering as it likes depending on all it saw (ten words to averages if it is the server whose answer comes first): the part of the random bytes and seeds for which the client ends one of the queries with a number other than the true one (counts modulo the modulus, the quotient of total age and number for averages) is at most the expected sum over the queries of the advantages of explicit tests against the generator of the function-secret-sharing scheme, plus 864/p^3 per count and 1728/p^3 per average.", "quantifier": "all key databases, all numbers of queries, all mixtures of counts and averages, all servers that choose the questions, the order of the messages and their answers depending on all messages and endings so far, all pasts of the generator, all numbers of tries per key; the chance is over the bytes of the generator from the current position on and over the seeds", "why_tests_cant": "the chance is tiny per query and over sequences of queries that the server adapts to all it saw; a test sees single runs", "anchors": ["lib/client/fss.go:47-72", "lib/client/fss.go:83-135", "lib/client/predicate_apir.go:20-32", "lib/field/field.go:49-63", "lib/fss/client.go:40-152", "lib/server/fss.go:42-138"]}
{"id": "C141", "title": "That a program is still there after a lookup tells the servers nothing about the e-mail", "statement": "A user looks up e-mails with the interactive client or on the web page. Some of the point servers, all but one of them at most, put their messages together, may describe the database as they like, answer as they like and delay what arrives, and notice whether the program is still connected after each lookup. Before each lookup they may lay down two e-mails. In any number of lookups they cannot tell a user who always takes the first one from a user who always takes the second.", "quantifier": "all libraries with a hash of at least four bytes, all numbers of servers other than two, all coalitions that miss one server, all databases, all numbers of lookups, all behaviour of the coalition depending on everything it saw; the chance is over the random bytes of the lookups", "why_tests_cant": "the claim is about the joint distribution of messages and endings over all strategies of the servers; a test sees single runs, and one server alone never sees anything odd", "anchors": ["cmd/grpc/client/interactive/mod.go:63-121", "cmd/grpc/client/interactive/mod.go:171-205", "cmd/grpc/client/web/mod.go:211-249", "lib/client/pir_point.go:46-105", "cmd/grpc/client/manager/mod.go:38-103"]}
{"id": "C142", "title": "Exactly which queries end a predicate server", "statement": "A predicate server answers a query it can decode exactly if the query asks for something implemented (a count by e-mail, creation date or algorithm, a conjunction, or an average over a conjunction), its prefix and suffix lengths are not negative, the creation dates of all keys can be encoded if it is about them, and its key has, for every stored key that is looked at, a correction word of at least 18 bytes for each bit taken from that key and one final word for each execution. Every other decodable query ends the process; a query that cannot be decoded is answered with an error. So under any number of concurrent clients the process is up, until it is shut down, exactly as long as all queries it has worked on are of the first kind, and queries that the client builds from usable inputs are.", "quantifier": "all databases, all query messages with keys of any shape and content, both schemes, all block ciphers, clocks and randomness that ends the re-sampling loop, all concurrent histories of calls and cancellations", "why_tests_cant": "the condition is on the lengths of nested slices in messages that any client can write, for every database; tests only send keys that the client generated for the same database", "anchors": ["lib/server/fss.go:27-138", "lib/fss/server.go:34-86", "lib/query/query.go:169-206", "cmd/grpc/server/main.go:256-276"]}
{"id": "C143", "title": "Exactly which queries end a point server, and what all others are answered", "statement": "A point server that takes selection bits answers every query that has a bit for each column of its table, and the answer consists of, row by row, the exclusive or of the blocks selected by the bits, each with zeros up to the block size; what follows the bits for the columns does not matter, and the answers to two queries add up to the answer to their sum. Every shorter query ends the process. A server that takes keys of a distributed point function does the same with the expanded key and reports an error of the library. So under any number of concurrent clients the process of the server program is up, until it is shut down, exactly as long as all queries it has worked on are long enough, and every call that is not cancelled returns the sum of the selected blocks of the loaded keys.", "quantifier": "all databases that hold their blocks in order, all query strings of any length and content, both kinds of servers, authenticated and unauthenticated databases of the server program, all concurrent histories of calls and cancellations", "why_tests_cant": "the answer must be right for every string anybody sends, not only for those the client makes; tests only send queries of the client for the same database", "anchors": ["lib/server/point.go:55-90", "cmd/grpc/server/main.go:138-161", "cmd/grpc/server/main.go:256-276", "lib/database/pgp.go:53-147"]}
{"id": "C144", "title": "Exactly what the single-server schemes' servers do with any query", "statement": "For every string of bytes it is decided what the LWE servers, plain and amplified, and the server of the group scheme do with it. An LWE server panics unless the string announces a matrix that can be multiplied with its table and carries an entry (32 bits) or not more entries than announced (128 bits). Otherwise it answers, except that the C code leaves what its language defines exactly if a matrix has more than 2^31 entries or, with 32 bits, if entries are missing; the answer announces the rows of the query and the columns of the table and holds, modulo the word size, the sums of the entries selected by the bits of the table, or only zeros if 2^31 rows or more were announced. The amplified server panics if the string cannot be cut into pieces of the announced length or holds no piece, does with the first piece the plain server does not answer what the plain server does, and otherwise concatenates the answers, unless pieces announce different numbers of rows, when it panics. The server of the group scheme answers a string of encoded elements by the encoded sums over the set bits of each row if every column with a set bit has an element and panics if not; it reports the first piece the library refuses and panics if the string ends within a piece.", "quantifier": "all query strings of any length and content, all databases of zeros and ones with fewer than 2^31 rows and columns (LWE), all databases with all their entries, all groups and libraries (group scheme)", "why_tests_cant": "a server receives its queries from others; tests only send what the client of the same repository makes for the same database", "anchors": ["lib/server/lwe.go:20-29", "lib/server/lwe128.go:20-29", "lib/server/amplify.go:22-36", "lib/matrix/matrix.go:64-100", "lib/matrix/matrix.go:50-62", "lib/matrix/matrix.go:150-171", "lib/matrix/matrix128.go:46-59", "lib/matrix/matrix128.go:107-132", "lib/matrix/matrix.c:1-45", "lib/server/dh.go:19-74", "lib/database/elliptic.go:122-134"]}
{"id": "C145", "title": "What the single-server clients make of any answer is given by a complete table", "statement": "For every string of bytes a server may return it is decided whether the single-server clients return 0, return 1, reject or panic. An LWE client panics if the string does not announce one row of its width or carries more words than that; it reads the words from the first on, rejects at the first word that is neither the expected one nor the expected one plus its blinding word up to the noise bound, and panics if all words are fine but some are missing; otherwise it returns 0 exactly if the word of its column is near the expected one. The amplified client panics if the string cannot be cut into pieces, does what the first piece not read as a bit makes the LWE client do, panics if pieces are missing, and otherwise returns the bit of the first repetition if more than half of the repetitions agree with it and rejects if not. The client of the group scheme rejects at the first element the library refuses, panics on a part of an element, then compares row by row in the same way; further elements are ignored.", "quantifier": "all answers of any length and content (below 4 GiB for the amplified client), all secrets, digests of any fitting size and queried positions, all noise bounds, all groups and decoders, every number of repetitions but none", "why_tests_cant": "a server that misbehaves can return anything; tests return answers of the honest server or a few altered ones, and the outcome depends on which of several defects comes first", "anchors": ["lib/client/lwe.go:74-95", "lib/client/lwe128.go:75-102", "lib/client/amplify.go:48-65", "lib/ecc/ecc.go:24-47", "lib/matrix/matrix.go:50-62", "lib/matrix/matrix.go:64-84", "lib/matrix/matrix.go:86-100", "lib/matrix/matrix128.go:46-59", "lib/client/dh.go:72-108", "lib/database/elliptic.go:122-134"]}
{"id": "C146", "title": "A session of amplified LWE lookups reveals no more than the sum of its lookups, up to the chance that random words run out", "statement": "One amplified LWE client with 2t+1 base clients (default parameters) makes n lookups one after the other; every lookup takes the secrets, multipliers and noise of its base clients one after the other from the generators the client has. Before each lookup the server, knowing all messages and endings so far, proposes two entries and the way it answers. For every published database it tells a client that always takes the left entries from one that always takes the right ones with at most the expected sum of the advantages of explicit tests per lookup against the LWE problem with independent secrets and noise, plus n·(2t+1)·(4·cols/2^(38·rows) + 2·cols·(672·rows − 6)/2^32), plus 4·n·(2t+1)·rows·1.1·0.97^c for the case that c random words per noise value do not suffice.", "quantifier": "all databases within the sizes the kernels can handle, all numbers of lookups and of base clients (2t+1), all servers that choose the entries and their answers depending on all messages and endings so far, all pasts of both generators, all expansions of the public seed, all roundings to a nearest double; the chance is over the key streams from the current positions on", "why_tests_cant": "the server adapts to all it saw, and the statement is about the distribution of whole sessions; single runs show nothing of it", "anchors": ["lib/client/amplify.go:18-30", "lib/client/amplify.go:32-65", "lib/client/lwe.go:39-66", "lib/client/lwe.go:74-95", "lib/ecc/ecc.go:24-47", "lib/utils/rand.go:60-156"]}
{"id": "C147", "title": "One of many amplified LWE lookups gives a wrong bit only by solving LWE or by guessing most multipliers", "statement": "In such a session of n amplified lookups, with the server answering as it likes depending on all it saw: the part of the random bytes of both generators for which one of the lookups returns a bit that is not stored is at most the expected sum of the advantages of one explicit test per lookup against the LWE problem, plus n·((2t+1)·2/2^(38·rows) + binomial(2t,t)·((672·rows − 6)/2^32)^(t+1)), plus 2·n·(2t+1)·rows·1.1·0.97^c for the case that c random words per noise value do not suffice.", "quantifier": "all databases within the sizes the kernels can handle, all numbers of lookups and of base clients (2t+1), all servers that choose the entries and their answers depending on all messages and endings so far, all pasts of both generators, all expansions of the public seed, all roundings to a nearest double; the chance is over the key streams from the current positions on", "why_tests_cant": "the chance is tiny per lookup and over sequences of lookups that the server adapts to all it saw; a test sees single runs", "anchors": ["lib/client/amplify.go:18-30", "lib/client/amplify.go:32-65", "lib/client/lwe.go:39-66", "lib/client/lwe.go:74-95", "lib/ecc/ecc.go:24-47", "lib/utils/rand.go:60-156"]}
{"id": "C148", "title": "A session of lookups of the group scheme by one client reveals no more than the sum of its lookups", "statement": "One client object of the group scheme makes n lookups one after the other and draws the two scalars of every lookup from the generator it was made with. Before each lookup the server, knowing all messages and endings so far, proposes two entries and the way it answers. It tells a client that always takes the left entries from one that always takes the right ones with at most the expected sum, over the lookups, of the advantages of four explicit tests against the Diffie-Hellman problem plus 4·rows·ε, where ε bounds the chance of any one multiple of a column generator. Every lookup uses 2·max(16, bytes per scalar) bytes of the key stream, and its scalars are independent of all others.", "quantifier": "all databases with published row digests, all groups with decodable encodings, all numbers of lookups, all servers that choose the entries and their answers depending on all messages and endings so far, all positions and pasts of the generator, all ways of making a scalar of a fixed number of bytes; the chance is over the key stream from the current position on", "why_tests_cant": "the server adapts to all it saw, and the statement is about the distribution of whole sessions; single runs show nothing of it", "anchors": ["lib/client/dh.go:21-36", "lib/client/dh.go:38-70", "lib/client/dh.go:72-108", "lib/utils/rand.go:60-110"]}
{"id": "C149", "title": "One of many lookups of the group scheme by one client gives a wrong bit only by solving the Diffie-Hellman problem or by a guess", "statement": "In such a session of n lookups, with the server answering as it likes depending on all it saw: the part of the random bytes of the generator for which one of the lookups returns a bit that is not stored is at most the expected sum, over the lookups, of the advantage of one explicit test against the Diffie-Hellman problem plus (2·rows + 1)·ε.", "quantifier": "all databases with published row digests, all groups with decodable encodings, all numbers of lookups, all servers that choose the entries and their answers depending on all messages and endings so far, all positions and pasts of the generator, all ways of making a scalar of a fixed number of bytes; the chance is over the key stream from the current position on", "why_tests_cant": "the chance is tiny per lookup and over sequences of lookups that the server adapts to all it saw; a test sees single runs", "anchors": ["lib/client/dh.go:21-36", "lib/client/dh.go:38-70", "lib/client/dh.go:72-108", "lib/utils/rand.go:60-110"]}
{"id": "C150", "title": "An honest server of the group scheme delivers all entries of a session but with a tiny chance", "statement": "One client object makes n lookups one after the other with its own generator; somebody who sees all messages chooses the entries; the server is honest. The part of the random bytes for which one of the lookups does not return the stored bit is at most n·ε in groups with encodings of one size, and at most n·(1 + rows + columns)·ε in groups that encode the neutral element in fewer bytes, provided that no row digest is neutral (C39). Here ε bounds the chance of any one multiple of any element but the neutral one; it is 1/q + 1/256^k for k bytes reduced modulo a prime order q.", "quantifier": "all databases with published row digests, all groups with decodable encodings, all numbers of lookups, all servers that choose the entries and their answers depending on all messages and endings so far, all positions and pasts of the generator, all ways of making a scalar of a fixed number of bytes; the chance is over the key stream from the current position on", "why_tests_cant": "the bad cases have a chance of about 2^-256 each; no test meets them, and only a count of all of them says that they do not add up", "anchors": ["lib/client/dh.go:38-70", "lib/client/dh.go:72-108", "lib/server/dh.go:19-74", "lib/database/elliptic.go:102-134", "lib/utils/rand.go:60-110"]}
{"id": "C151", "title": "An honest server of the lattice schemes delivers all entries of a session but with a small chance", "statement": "One client object makes n lookups one after the other, with multipliers and secrets from its own generator and noise from the generator of the process; somebody who sees all messages chooses the entries; the server is honest. The part of the random bytes for which not all lookups end with the stored bit is at most n·((168·rows − 1)/2^32 + 2·columns/2^(38·rows)) for the 32-bit client and n·((168·rows + 1)/2^128 + 2·columns/2^(38·rows)) for the 128-bit client, plus twice the chance that c random words per noise value do not suffice for all lookups. The first of the two terms is not there if all stored bits are zero.", "quantifier": "all databases of bits with published digests within the sizes the code supports, all numbers of lookups, all ways of choosing the entries from all messages so far, all positions and pasts of both generators, all numbers c ≥ 4 of random words per noise value; the chance is over both key streams from the current positions on", "why_tests_cant": "the failures are rare random events of single lookups; only a count over all random bytes and all sequences of lookups says how they add up", "anchors": ["lib/client/lwe.go:39-99", "lib/client/lwe128.go:40-102", "lib/server/lwe.go:20-29", "lib/server/lwe128.go:20-29", "lib/utils/rand.go:60-110"]}
{"id": "C152", "title": "An honest server delivers all entries of a session of the amplified lattice client, and none wrongly, but with a small chance", "statement": "One amplified client with 2t+1 base clients makes n lookups one after the other from its generators; somebody who sees all messages chooses the entries; the server is honest. The part of the random bytes for which not all lookups end with the stored bit is at most n times the chance that not both the first and more than half of 2t+1 multipliers are away from zero, plus n·(2t+1)·2·columns/2^(38·rows), plus four times the chance that c random words per noise value do not suffice. The part for which not all lookups end without a wrong bit is at most the same, with the chance that both the first and more than half of the multipliers are near zero. If all stored bits are zero, the first term is not there.", "quantifier": "all databases of bits with published digests within the sizes the code supports, all numbers of lookups, all ways of choosing the entries from all messages so far, all positions and pasts of both generators, all numbers c ≥ 4 of random words per noise value; the chance is over both key streams from the current positions on", "why_tests_cant": "wrong bits have a chance of 10^-20 per lookup for seven base clients; no test meets one, and a test of single lookups says nothing of how rejections add up", "anchors": ["lib/client/amplify.go:18-65", "lib/server/amplify.go:22-36", "lib/client/lwe.go:39-99", "lib/utils/rand.go:60-110"]}
{"id": "C153", "title": "Two honest servers answer all counts and averages of a session rightly but with a small chance", "statement": "One client object for authenticated predicate queries makes n queries, counts and averages in any order. It draws the four MAC keys of every query by rejection from the generator it was made with, and key generation reuses its scratch buffer. Both servers are honest and hold the same database; somebody who sees all messages and results chooses the questions. The part of the random bytes and seeds for which not all queries end with the right number (the number of matching keys modulo 2^31 − 1, or the average age of the matching keys if there are any and the sums stay below 2^31 − 1) is at most n times the largest bound of C102 on a single query, plus 4·n/2^(31·f) for the case that f tries per MAC key do not suffice.", "quantifier": "all key databases, all numbers of queries, all mixtures of counts and averages, all ways of choosing the questions from all messages and results so far, all pasts of the generator, all numbers of tries per key; the chance is over the bytes of the generator from the current position on and over the seeds", "why_tests_cant": "a wrong end is a rare random event of a single query and depends on a hash of the database; only a count over all random bytes and all sequences of queries says how they add up", "anchors": ["lib/client/fss.go:47-72", "lib/client/fss.go:83-135", "lib/client/predicate_apir.go:20-32", "lib/field/field.go:49-63", "lib/fss/client.go:25-152", "lib/server/fss.go:42-138"]}
{"id": "C154", "title": "The client's reaction to a lying server of a count query tells it nothing, however many words it sends", "statement": "In an authenticated count query one of the two servers answers with any number of words, from none to more than an average takes, that depend on its message in whatever way (or fails to answer); the first five, as far as there are any, do not exceed 2^32 minus the prime (for larger words see C91). It notices how the client ends: with a result, by a rejection or by a panic, and with which text. For two queries with the same public part and predicates of the same length, message and ending together look alike up to the security of the generator, the chance that honest runs go wrong (C102) and less than one in ten million: the server can compute the ending from its own message, by comparing the words that are read with the honest ones. Too short answers are no way to test the authentication keys one by one with a better chance than guessing.", "quantifier": "all databases, all count queries, either server, both connection orders, all strategies that answer with any number of words, also depending on the message, all tests on message and ending", "why_tests_cant": "the server's choices are arbitrary functions and the property is about distributions over all keys and seeds", "anchors": ["lib/client/fss.go:47-72", "lib/client/fss.go:83-135", "lib/client/client.go:37-45", "lib/fss/client.go:40-152", "lib/server/fss.go:42-138"]}
{"id": "C155", "title": "Whatever one server sends, an average query returns the average or the number of keys", "statement": "One of the two servers, knowing its message, answers an authenticated average query with any number of words of any values; the other one is honest. If server 1 forges, the client returns a number other than the average only with negligible probability over its randomness, and returns none at all when the query is about no keys. If server 0 forges, whose answer decides whether the client takes the two for a count, the client returns a number other than the average and the number of keys only with negligible probability.", "quantifier": "every database, every average query the client builds, every strategy of either server with any number of words, every order of the messages, every block cipher (through the advantage of explicit tests), every MAC key, seed and control bit", "why_tests_cant": "the strategy is an arbitrary function of the message and the bound is over all keys and seeds", "anchors": ["lib/client/fss.go:47-72", "lib/client/fss.go:83-135", "lib/fss/client.go:40-152", "lib/server/fss.go:42-138"]}
{"id": "C156", "title": "The client's reaction to a lying server of an average query reveals at most whether there are any keys, however many words it sends", "statement": "In an authenticated average query one of the two servers answers with any number of words that depend on its message in whatever way (or fails to answer); the first ten, as far as there are any, do not exceed 2^32 minus the prime (for larger words see C91). It notices whether the client ends with a result, an error or a panic. For two queries with the same public part that are both about some keys or both about none, message and ending together look alike up to the security of the generator, the chance that a derived value equals the prime (C102) and less than one in five million. A server that does not get the client to divide (server 0 with other than ten words, server 1 with fewer) does not learn whether there are keys either.", "quantifier": "all databases, all average queries, either server, both connection orders, all strategies that answer with any number of words, also depending on the message, all tests on message and ending", "why_tests_cant": "the server's choices are arbitrary functions and the property is about distributions over all keys and seeds", "anchors": ["lib/client/fss.go:47-72", "lib/client/fss.go:83-135", "lib/client/client.go:37-45", "lib/fss/client.go:40-152", "lib/server/fss.go:42-138"]}
{"id": "C157", "title": "A session of counts and averages reveals no more than the sum of its queries, also to a server that answers with any number of words", "statement": "One client object for authenticated predicate queries makes n queries, counts and averages in any order, with the MAC keys from its own generator. Before each query one of the two servers, knowing all its messages and how the client ended so far, proposes two questions with the same public part (averages: both counting somebody or both counting nobody), the order in which the messages are handed out and the way it answers, with any number of words (those the client reads not above 2^32 minus the prime). It tells a client that always takes the left questions from one that always takes the right ones with at most the expected sum of what each query can reveal (C154 for counts, C156 for averages), plus 8·n/2^(31·f) for the case that f tries per MAC key do not suffice.", "quantifier": "all key databases, all numbers of queries, all mixtures of counts and averages, all servers that choose the questions, the order of the messages and answers of any number of words depending on all messages and endings so far, all pasts of the generator, all numbers of tries per key; the chance is over the bytes of the generator from the current position on and over the seeds", "why_tests_cant": "the server adapts over an unbounded session and the bound is over all keys and seeds", "anchors": ["lib/client/fss.go:25-81", "lib/client/fss.go:83-135", "lib/client/client.go:37-45", "lib/fss/client.go:40-152", "lib/server/fss.go:42-138"]}
{"id": "C158", "title": "The bounds on one lying predicate server hold in whatever order the two answers arrive, and it is the order that decides what can be accepted for an average", "statement": "A client makes an authenticated predicate query and one of the two servers answers as it likes, with any number of words, at a time of its choice: its answer arrives before or after the honest one. A wrong count is returned with the probability of C84 at most, in either order. For an average, a server whose answer arrives second can have no number accepted but the average; one whose answer arrives first, whether server 0 or server 1, can also have the number of keys accepted, and nothing else (C155). What the server learns from the client's end is bounded as in C154 and C156, also if it makes the time of its answer depend on its message. The numbers that the interactive client and the web front end show are covered for every order of arrival.", "quantifier": "all key databases, all questions of the count and average form, all answers of any number of words in dependence on the message, both servers, both orders of arrival in dependence on anything (result) or on the message (privacy), all schedules of the programs; the probabilities are over the MAC keys and seeds", "why_tests_cant": "the order of arrival is chosen by the network and the lying server, and the bound is over all keys and seeds", "anchors": ["lib/client/fss.go:83-135", "lib/client/client.go:37-45", "cmd/grpc/client/manager/mod.go:188-213", "cmd/grpc/client/web/mod.go:376-408", "cmd/grpc/client/interactive/mod.go:438-470", "lib/server/fss.go:42-138"]}
{"id": "C159", "title": "That the interactive client is still there after a statistics question tells a lying predicate server no more than its message does, except whether an average is about anybody", "statement": "A user asks the interactive client for a number of keys or an average age. One of the two predicate servers answers as it likes, with any number of words, at a time of its choice, and then sees whether the program still asks for the next menu entry or has ended. For two questions for numbers of keys with the same public part, and for two questions for averages of which both or neither are about some keys, its message together with this observation look alike up to the bounds of C158. With honest servers the program is still there after a question for an average exactly if there is a key to average over, so for averages the condition cannot be dropped.", "quantifier": "all key databases, all pairs of questions of the menu with the same public part, all answers in dependence on the message, both servers, all orders of arrival in dependence on the message, all tests on message and presence; the probabilities are over the MAC keys and seeds", "why_tests_cant": "the bound is over all keys, seeds, strategies of the server and tests on what it sees", "anchors": ["cmd/grpc/client/interactive/mod.go:88-120", "cmd/grpc/client/interactive/mod.go:208-280", "cmd/grpc/client/interactive/mod.go:383-470", "cmd/grpc/client/manager/mod.go:188-213", "lib/client/fss.go:83-135"]}
{"id": "C160", "title": "A session of counts and averages stays within the sum of its queries against a predicate server that answers when it likes", "statement": "One client object makes n authenticated predicate queries, counts and averages in any order, with the MAC keys from its own generator, and one of the two servers answers as it likes and when it likes: its answers have any number of words and arrive before or after the honest ones, depending on its message and on all it saw before. The chance that some query ends with a number other than the count, the average or (for a server whose answer arrives first) the number of keys averaged over is at most the sum of the chances of C158. It tells a client that always takes the left of two proposed questions from one that takes the right ones by at most the expected sum of what the single queries reveal (C158), plus 8·n/2^(31·f) for f tries per MAC key. The same holds of a user of the interactive program, whom the server watches for being there after each question (C159), without the last term.", "quantifier": "all key databases, all numbers of queries, all mixtures of counts and averages, all servers that choose questions, answers and times of arrival depending on all they saw, all pasts of the generator; the chance is over the bytes of the generator from the current position on and over the seeds", "why_tests_cant": "the server adapts to an unbounded history, and the bound is over all random bytes", "anchors": ["lib/client/fss.go:43-135", "lib/client/client.go:37-45", "cmd/grpc/client/manager/mod.go:188-213", "cmd/grpc/client/interactive/mod.go:88-120", "cmd/grpc/client/interactive/mod.go:438-470"]}
{"id": "C161", "title": "That the web front end is still there after a count tells a lying predicate server nothing beyond its message", "statement": "A user asks the web front end for a number of keys by a form. One of the two predicate servers answers as it likes and when it likes, or lets its call fail, and then sees whether the process is still there. The process ends exactly if that server itself let its call fail. So for two counts with the same public part, its message together with the observation look alike up to what the message alone can reveal, and n counts chosen by the server stay within the sum of this. No assumption on the form of its answers is needed, unlike for the interactive client (C159).", "quantifier": "all key databases, all forms for counts (text of an address, algorithm, year), all answers and failures in dependence on the message, both servers, all orders of arrival, all tests on message and presence, any number of counts chosen by the server; the probabilities are over the MAC keys and seeds", "why_tests_cant": "the bound is over all keys, seeds, strategies of the server and tests on what it sees", "anchors": ["cmd/grpc/client/web/mod.go:251-408", "cmd/grpc/client/manager/mod.go:188-229", "lib/client/fss.go:21-135"]}
{"id": "C162", "title": "What the command-line client prints with one lying predicate server is what honest servers would bring about, up to a bound", "statement": "A user runs the command-line client with the authenticated predicate scheme, and one of the two servers answers as it likes. For each order in which the map of connections is enumerated, the probability that in some order of arrival a number is printed other than the one due with honest servers is at most the bound for a single query: for a count, the number of keys or (connections exchanged) its negative modulo 2^31-1; for an average, the quotient due or the number of keys. Nothing is assumed of what the servers say about their databases, nor of connecting to them.", "quantifier": "all key databases, all command lines that ask for a count or an average, all answers in dependence on the message, both servers, both enumerations of the connections, all orders of arrival; the probabilities are over the MAC keys and seeds", "why_tests_cant": "the bound is over all keys, seeds and strategies of the server, and over schedules that depend on them", "anchors": ["cmd/grpc/client/main.go:102-262", "cmd/grpc/client/main.go:394-419", "lib/client/fss.go:21-135"]}
