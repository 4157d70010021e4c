{
 "claims": [
  {
   "property": "C01",
   "status": "proved",
   "theorems": [
    "Verif.Point.C01_retrieve",
    "Verif.Point.C01_created"
   ],
   "note": ""
  },
  {
   "property": "C02",
   "status": "proved",
   "theorems": [
    "Verif.Point.C02_retrieve"
   ],
   "note": "The DPF library is a parameter with an explicit contract (satisfiable, instance given)."
  },
  {
   "property": "C03",
   "status": "proved",
   "theorems": [
    "Verif.Point.C03_view_independent_of_index"
   ],
   "note": "For every view and every missing server the number of random strings producing it is independent of the index (explicit bijection). Bit-vector shares; the two-server DPF case is computational (C53)."
  },
  {
   "property": "C04",
   "status": "partial",
   "theorems": [
    "Verif.Point.C04_both_invalid_partial",
    "Verif.Point.C04_single_server_sends_the_index",
    "Verif.Point.C04_refuted",
    "Verif.Point.C04_index_past_the_end"
   ],
   "note": "False: the check uses 'and' instead of 'or'. A one-server query is accepted and sends the column in the clear; an index past the end is accepted and panics the client later. Partial: both conditions together are refused."
  },
  {
   "property": "C05",
   "status": "partial",
   "theorems": [
    "Verif.MerklePir.C05_authenticated_order",
    "Verif.Point.C05_point_order",
    "Verif.Predicate.C05_predicate_order_partial",
    "Verif.Predicate.C05_predicate_order_matters",
    "Verif.Predicate.C05_refuted",
    "Verif.Predicate.C05_only_first_two"
   ],
   "note": "Point and Merkle clients: proved for all answers and permutations (C05_point_order, C05_authenticated_order). Predicate clients: false (C05_refuted), since the length of the answer that arrives first decides how both are read, and since only the first two answers count (C05_only_first_two); proved for two answers of the same length (C05_predicate_order_partial)."
  },
  {
   "property": "C06",
   "status": "partial",
   "theorems": [
    "Verif.Point.C06_three_or_more_partial",
    "Verif.Point.C06_refuted",
    "Verif.Point.C06_two_servers_never_answer"
   ],
   "note": "False for two servers: the server binary never uses the two-server constructor. Partial: three or more servers. Also: with compressed keys two deployed servers never answer."
  },
  {
   "property": "C07",
   "status": "partial",
   "theorems": [
    "Verif.Merkle.C07_tree_root",
    "Verif.Merkle.C07_proofs_verify_partial",
    "Verif.Merkle.C07_distinct_partial",
    "Verif.Merkle.C07_duplicates_crash",
    "Verif.Merkle.C07_refuted",
    "Verif.Merkle.C07_exact",
    "Verif.Merkle.C07_crash_exact",
    "Verif.MerklePir.C07_distinct_records_refuted"
   ],
   "note": "False in two ways: lists with many duplicates (proof buffers are sized by distinct checksums, GenerateProof panics) and distinct records with equal 64-bit FNV-1a checksums (explicit 10-byte pair). Partial: every list whose records the checksum tells apart and whose duplicates do not reduce the number of levels; every hash function; all sizes up to 2^31. C07_exact: these are exactly the lists of which the claim holds; C07_crash_exact: proof generation panics for every record or for none, and when."
  },
  {
   "property": "C08",
   "status": "partial",
   "theorems": [
    "Verif.Merkle.C08_full_length_partial",
    "Verif.Merkle.C08_short_proof_accepted",
    "Verif.Merkle.C08_refuted"
   ],
   "note": "False: a proof without hashes makes the verifier accept the concatenation of the two top inner digests as a 60-byte record; proved for every 32-byte hash function and every tree of at least two records. Partial: proofs with as many hashes as the tree has levels; collisions are stated on the explicit finite set of strings hashed. Proofs of any length are the subject of C126."
  },
  {
   "property": "C09",
   "status": "proved",
   "theorems": [
    "Verif.Merkle.C09_proof_round_trip",
    "Verif.Merkle.C09_announced_length"
   ],
   "note": "Round trip for any bytes following the encoding in memory (decoding may read up to the slice capacity); announced length proved for every generated proof."
  },
  {
   "property": "C10",
   "status": "partial",
   "theorems": [
    "Verif.MerklePir.C10_honest_servers_partial",
    "Verif.MerklePir.C10_refuted",
    "Verif.MerklePir.C10_exact",
    "Verif.MerklePir.C10_generator_crashes"
   ],
   "note": "False for distinct records with colliding FNV checksums (the generator crashes; explicit witness). Partial: all other record lists, every layout, server count, randomness and hash function. C10_exact and C10_generator_crashes settle all other lists: if the checksums need fewer tree levels the generator ends the program; if not, of different records with the same checksum only the content of the last can be retrieved, and honest answers for the others are rejected."
  },
  {
   "property": "C11",
   "status": "partial",
   "theorems": [
    "Verif.MerklePir.C11_blind_substitution",
    "Verif.MerklePir.C11_one_server_chooses_the_value",
    "Verif.MerklePir.C11_record_substitution",
    "Verif.MerklePir.C11_refuted",
    "Verif.MerklePir.C11_some_record_partial",
    "Verif.MerklePir.C11_forged_record_accepted"
   ],
   "note": "False: the client never compares the proof index with the requested index; one server that knows the index can substitute any other record (proved for all databases, indices, server counts) or a forged 60-byte string. Partial: what is accepted with a full-length proof and no collision is a record of the committed database. Answers with proofs of any length are the subject of C126."
  },
  {
   "property": "C12",
   "status": "partial",
   "theorems": [
    "Verif.MerklePir.C12_empty_answer_crashes",
    "Verif.MerklePir.C12_zero_value_crashes",
    "Verif.MerklePir.C12_short_value_crashes",
    "Verif.MerklePir.C12_refuted",
    "Verif.MerklePir.C12_classical_right_length_partial",
    "Verif.MerklePir.C12_authenticated_well_formed_partial",
    "Verif.Predicate.C12_predicate_right_length_partial",
    "Verif.Predicate.C12_predicate_empty_answer_crashes"
   ],
   "note": "False: an empty answer or an all-zero value crashes the client (point, Merkle and predicate parts, all proved in general form). Partial: right-length answers (classical, predicate) and well-formed values (Merkle) never crash. The exact condition, for answers of any length, is C131. The single-server clients: C145."
  },
  {
   "property": "C13",
   "status": "proved",
   "theorems": [
    "Verif.Padding.C13_pad_unpad",
    "Verif.Padding.C13_signal_unpad",
    "Verif.Padding.C13_unpad_crashes_iff"
   ],
   "note": ""
  },
  {
   "property": "C14",
   "status": "partial",
   "theorems": [
    "Verif.Pgp.C14_filed_partial",
    "Verif.Pgp.C14_contains_partial",
    "Verif.Pgp.C14_few_keys_crash",
    "Verif.Pgp.C14_refuted",
    "Verif.Pgp.C14_lookup_partial",
    "Verif.Pgp.C14_lookup_merkle_partial"
   ],
   "note": "Proved for at least ten keys (plain and authenticated databases, whole lookup exchange included); with one to nine keys the table has length zero and both generators crash (C14_few_keys_crash, C14_refuted)."
  },
  {
   "property": "C15",
   "status": "proved",
   "theorems": [
    "Verif.Pgp.C15_bytes",
    "Verif.Pgp.C15_merkle",
    "Verif.Pgp.C15_keys",
    "Verif.Pgp.C15_files",
    "Verif.Pgp.C15_duplicates_matter"
   ],
   "note": "Unconditional in the number of keys: plain, authenticated and complex-query databases, for every enumeration order of the maps and every sort. C15_duplicates_matter shows why identifiers must be distinct."
  },
  {
   "property": "C16",
   "status": "partial",
   "theorems": [
    "Verif.Pgp.C16_absent_partial",
    "Verif.Pgp.C16_absent_merkle_partial",
    "Verif.Pgp.C16_refuted"
   ],
   "note": "Refuted: an identifier whose bucket is empty makes the client crash (UnPadBlock of zeros). Proved for non-empty buckets; the crash is proved for every empty bucket, in plain and authenticated databases."
  },
  {
   "property": "C17",
   "status": "proved",
   "theorems": [
    "Verif.Pgp.C17_newest",
    "Verif.Pgp.C17_unreadable",
    "Verif.Pgp.C17_identity_order",
    "Verif.Pgp.C17_written"
   ],
   "note": "Import, treatment of unreadable files, independence of the identity map order, and what is written to disk."
  },
  {
   "property": "C18",
   "status": "partial",
   "theorems": [
    "Verif.Layout.C18_square_partial",
    "Verif.Layout.C18_too_small",
    "Verif.Layout.C18_refuted",
    "Verif.Layout.C18_row",
    "Verif.Layout.C18_indices",
    "Verif.Layout.C18_indices_back",
    "Verif.Layout.C18_rounding"
   ],
   "note": "Proved up to 2^52 blocks; refuted at 2^52+1, where the floating-point square root is rounded to an integer and the layout is one place short."
  },
  {
   "property": "C19",
   "status": "partial",
   "theorems": [
    "Verif.Fss.C19_point_function_partial",
    "Verif.Fss.C19_refuted",
    "Verif.Fss.C19_long_values_crash"
   ],
   "note": "False in runs where a 31-bit value derived from a seed equals the modulus (code re-samples from system randomness, shares then do not cancel): refuted with a witness. Positive theorem holds for all ciphers, seeds, points, values (up to 19 components, more crash) and lengths up to 256 bits outside those runs."
  },
  {
   "property": "C20",
   "status": "partial",
   "theorems": [
    "Verif.Fss.C20_bit256_ignored_partial",
    "Verif.Fss.C20_long_point_never_matches",
    "Verif.Fss.C20_refuted",
    "Verif.Fss.C20_exact",
    "Verif.Fss.C20_lengths"
   ],
   "note": "False: evaluation ignores bit 256 while key generation uses it. Proved for every length: the shares add up to the point function at the input with bit 256 cleared; points with bit 256 set never match. C20_exact: the inputs at which the shares are right, for points of every length; C20_lengths: they are right at all inputs exactly if the point has at most 256 bits."
  },
  {
   "property": "C21",
   "status": "partial",
   "theorems": [
    "Verif.Predicate.C21_count_partial",
    "Verif.Predicate.C21_count_unauthenticated",
    "Verif.Predicate.C21_refuted",
    "Verif.Predicate.C21_text_any_length",
    "Verif.Predicate.C21_ascii_partial",
    "Verif.Predicate.C21_long_not_ascii_counts_nothing"
   ],
   "note": "False in runs hitting a 31-bit value equal to the modulus (spurious reject): refuted with a concrete run. Positive theorem: every cipher, hash, seed, database, query kind (prefix, suffix, exact, algorithm, year, year-and-email) outside those runs; end to end through the word wire format."
  },
  {
   "property": "C22",
   "status": "partial",
   "theorems": [
    "Verif.Predicate.C22_average_partial",
    "Verif.Predicate.C22_no_match_crashes",
    "Verif.Predicate.C22_refuted",
    "Verif.Predicate.C22_clock_skew_no_result"
   ],
   "note": "False when no key matches (division by zero panics) and when server clocks disagree on the year (reject). Positive theorem in all other runs."
  },
  {
   "property": "C23",
   "status": "proved",
   "theorems": [
    "Verif.Predicate.C23_accepted_is_honest_or_deviated",
    "Verif.Predicate.C23_at_most_one_key_vector",
    "Verif.Predicate.C23_average_at_most_one_key_vector",
    "Verif.Predicate.C23_average_accepted_is_honest"
   ],
   "note": "A deviation by one server is accepted for at most one MAC-key vector out of (p-1)^4 per wrong count (for every adversarial choice made before the keys are drawn); accepted answers are otherwise honest. Probability statement is this counting bound."
  },
  {
   "property": "C24",
   "status": "partial",
   "theorems": [
    "Verif.Fss.C24_last_components_in_clear",
    "Verif.Fss.C24_refuted",
    "Verif.Fss.C24_three_keys_hidden_partial"
   ],
   "note": "False: the fifth component of the final correction word is the fourth MAC key up to sign, for every cipher and all randomness. C24_three_keys_hidden_partial: the message hides the other three keys up to the security of the generator and 10/2^31."
  },
  {
   "property": "C25",
   "status": "partial",
   "theorems": [
    "Verif.Predicate.C25_exchanged_partial",
    "Verif.Predicate.C25_refuted"
   ],
   "note": "False: with the connections enumerated in the other order the result is accepted and equals minus the count mod p; concrete run plus a theorem for every run."
  },
  {
   "property": "C26",
   "status": "proved",
   "theorems": [
    "Verif.Predicate.C26_composed_has",
    "Verif.Predicate.C26_composed",
    "Verif.Utils.C26_byteToBits_bits",
    "Verif.Utils.C26_byteToBits_injective",
    "Verif.Query.C26_prefix",
    "Verif.Query.C26_suffix",
    "Verif.Query.C26_exact",
    "Verif.Query.C26_algorithm",
    "Verif.Query.C26_year"
   ],
   "note": ""
  },
  {
   "property": "C27",
   "status": "partial",
   "theorems": [
    "Verif.Query.C27_year_of_day",
    "Verif.Query.C27_calendar",
    "Verif.Query.C27_query_day",
    "Verif.Query.C27_selects_no_key_of_that_year",
    "Verif.Query.C27_refuted",
    "Verif.Query.C27_and_query_year"
   ],
   "note": "False: time.Date with month 0 and day 0 gives 30 November of the previous year, so a creation-time query for year y selects no key of year y; proved for every year."
  },
  {
   "property": "C28",
   "status": "proved",
   "theorems": [
    "Verif.Field.C28_randElement_canonical",
    "Verif.Field.C28_randElement_first_accepted",
    "Verif.Field.C28_randVector_canonical",
    "Verif.Field.C28_no_bias"
   ],
   "note": ""
  },
  {
   "property": "C29",
   "status": "partial",
   "theorems": [
    "Verif.Field.C29_exact",
    "Verif.Field.C29_refuted_nondeterministic",
    "Verif.Field.C29_refuted",
    "Verif.Field.C29_bytesToElements_partial",
    "Verif.Field.C29_negate",
    "Verif.Field.C29_vector_to_bytes",
    "Verif.Field.C29_data_bytes"
   ],
   "note": "False when a value equals the modulus (fresh randomness). Partial: deterministic and canonical otherwise. C29_exact: the conversion is the same for all system randomness exactly if no 4-byte chunk has its 31 low bits all set; for such a chunk every word but the modulus is possible."
  },
  {
   "property": "C30",
   "status": "proved",
   "theorems": [
    "Verif.Lwe.C30_honest_retrieval",
    "Verif.Lwe.C30_random_database",
    "Verif.Lwe.C30_end_to_end",
    "Verif.Lwe.C30_sampler_range_exceeds_bound",
    "Verif.Lwe.C30_zero_multiplier_reads_zero"
   ],
   "note": "Whole exchange over the wire with honest server, every database/secret/noise/multiplier in the stated range; also the exact outcome in every other honest run (retrieve_exact), the default bound B being below the sampler's range, and the zero multiplier."
  },
  {
   "property": "C31",
   "status": "proved",
   "theorems": [
    "Verif.Lwe.C31_wrong_bit_needs_multiplier",
    "Verif.Lwe.C31_few_multipliers"
   ],
   "note": "Every answer matrix; the bound is at most 8B-6 of the 2^32 multipliers per deviation. Independence of deviation and multiplier is the LWE assumption (C53)."
  },
  {
   "property": "C32",
   "status": "proved",
   "theorems": [
    "Verif.Lwe.C32_honest_retrieval",
    "Verif.Lwe.C32_random_database",
    "Verif.Lwe.C32_end_to_end",
    "Verif.Lwe.C32_wrong_bit_needs_multiplier",
    "Verif.Lwe.C32_few_multipliers"
   ],
   "note": "Same theorems for the 128-bit scheme with its own interval [-(B+1), B-1]."
  },
  {
   "property": "C33",
   "status": "proved",
   "theorems": [
    "Verif.Lwe.C33_wrong_bit_needs_majority",
    "Verif.Lwe.C33_one_failure_rejects",
    "Verif.Lwe.C33_honest_retrieval"
   ],
   "note": "Correctness over the wire for every repetition count; soundness for every list of answers. Also proved: one unaccepted repetition rejects the whole, so the code gives no error tolerance."
  },
  {
   "property": "C34",
   "status": "partial",
   "theorems": [
    "Verif.Ecc.C34_first_symbol_error_never_corrected",
    "Verif.Ecc.C34_refuted_for_every_radius",
    "Verif.Ecc.C34_refuted",
    "Verif.Ecc.C34_decode_corrects_partial",
    "Verif.Ecc.C34_roundtrip"
   ],
   "note": "False: an error in the first symbol of a block is never corrected. Partial: decoding succeeds when the first symbol is intact and errors are within the radius; see C35 for exact behaviour."
  },
  {
   "property": "C35",
   "status": "proved",
   "theorems": [
    "Verif.Ecc.C35_decode_majority",
    "Verif.Ecc.C35_never_wrong",
    "Verif.Ecc.C35_majority_decoded"
   ],
   "note": ""
  },
  {
   "property": "C36",
   "status": "partial",
   "theorems": [
    "Verif.Matrix.C36_mul_partial",
    "Verif.Matrix.C36_mul128_partial",
    "Verif.Matrix.C36_binaryMul_partial",
    "Verif.Matrix.C36_binaryMul128_partial",
    "Verif.Matrix.C36_mismatch_refused",
    "Verif.Matrix.C36_computed_only_if_fits",
    "Verif.Matrix.C36_refuted",
    "Verif.Matrix.C36_binary_needs_bits",
    "Verif.Matrix.C36_set_get"
   ],
   "note": "Exact for all sizes whose entry counts fit the C int index; false beyond (index overflow), refuted. binaryMul multiplies bits only: for entries other than 0/1 it is not the product (C36_binary_needs_bits)."
  },
  {
   "property": "C37",
   "status": "partial",
   "theorems": [
    "Verif.Matrix.C37_decoded",
    "Verif.Matrix.C37_matrices_exact",
    "Verif.Matrix.C37_matrix_round_trip",
    "Verif.Matrix.C37_matrix128_round_trip",
    "Verif.Matrix.C37_matrices_round_trip_partial",
    "Verif.Matrix.C37_refuted",
    "Verif.Matrix.C37_dimensions_unchecked"
   ],
   "note": "Single matrices: proved. Lists: false when one encoding has 2^32 bytes or more (length field truncated), partial below that. C37_matrices_exact: a list of equally sized matrices survives exactly when both dimensions, the length of one encoded matrix and the number of matrices fit 32 bits; C37_decoded bounds what any bytes can decode to."
  },
  {
   "property": "C38",
   "status": "proved",
   "theorems": [
    "Verif.Matrix.C38_sample_bounded",
    "Verif.Matrix.C38_bound_attained",
    "Verif.Matrix.C38_encodings",
    "Verif.Matrix.C38_noise_matrix"
   ],
   "note": "Bound 128 for every stream, attained; encodings exact (32-bit) and off by one for negative samples (128-bit)."
  },
  {
   "property": "C39",
   "status": "partial",
   "theorems": [
    "Verif.Dh.C39_retrieve_partial",
    "Verif.Dh.C39_fixed_size_partial",
    "Verif.Dh.C39_refuted",
    "Verif.Dh.C39_neutral_blinding",
    "Verif.Dh.C39_past_the_end",
    "Verif.Dh.C39_zero_row_never",
    "Verif.Dh.C39_created_partial",
    "Verif.Dh.C39_exact"
   ],
   "note": "False as claimed: groups such as the NIST curves encode the neutral element in one byte, so a row of zeros makes the digests and answers unreadable (C39_refuted, C39_zero_row_never). Proved for groups with encodings of one size, and for all groups when query, digests and answers avoid the neutral element. A neutral blinding element silently gives zero; indices past the end are answered with zero. Whole sessions from one generator, with an honest server: C150. C39_exact: in such groups, with no neutral element in the query, the honest exchange returns the stored bit exactly if no row has the neutral element as its digest or its answer."
  },
  {
   "property": "C40",
   "status": "proved",
   "theorems": [
    "Verif.Dh.C40_wrong_bit_needs_blinding"
   ],
   "note": "Proved for every group whose encodings have one size, up to a one-byte neutral element. Slicing beyond the length of the row digests is taken to panic (capacity = length)."
  },
  {
   "property": "C41",
   "status": "proved",
   "theorems": [
    "Verif.Dh.C41_accepts_iff",
    "Verif.Dh.C41_binding",
    "Verif.Dh.C41_mismatch_crashes",
    "Verif.Dh.C41_bases_distinct"
   ],
   "note": "Proved. The refusal is a panic, not an error."
  },
  {
   "property": "C42",
   "status": "partial",
   "theorems": [
    "Verif.Dh.C42_crash_iff",
    "Verif.Dh.C42_sequential_partial",
    "Verif.Dh.C42_many_rows_partial",
    "Verif.Dh.C42_create_partial",
    "Verif.Dh.C42_single_row_crashes",
    "Verif.Dh.C42_refuted",
    "Verif.Parallel.C42_received_in_order",
    "Verif.Parallel.C42_schedule_final",
    "Verif.Parallel.C42_schedule_progress",
    "Verif.Parallel.C42_schedule_terminates",
    "Verif.Parallel.C42_schedule_outcome"
   ],
   "note": "False as claimed: with few rows the last goroutines get a negative range and panic (C42_crash_iff, C42_single_row_crashes). The schedule part is proved for every interleaving of any number of goroutines."
  },
  {
   "property": "C43",
   "status": "partial",
   "theorems": [
    "Verif.Dh.C43_roundtrip_partial",
    "Verif.Dh.C43_fixed_size_partial",
    "Verif.Dh.C43_identity_never",
    "Verif.Dh.C43_refuted",
    "Verif.Dh.C43_exact"
   ],
   "note": "False as claimed for vectors with the neutral element in groups that encode it in one byte (C43_identity_never); proved for all other vectors. C43_exact: in such groups a vector is read back exactly if it does not contain the neutral element."
  },
  {
   "property": "C44",
   "status": "proved",
   "theorems": [
    "Verif.Rpc.C44_reply_to_own_query",
    "Verif.Rpc.C44_in_order_once",
    "Verif.Rpc.C44_worker_never_blocked",
    "Verif.Rpc.C44_terminates",
    "Verif.Rpc.C44_all_return",
    "Verif.Rpc.C44_crashing_query_kills"
   ],
   "note": "Transition system with any number of calls, cancellations and any schedule. Answering function is a parameter. A query on which it crashes ends the process (C44_crashing_query_kills), see C55."
  },
  {
   "property": "C45",
   "status": "partial",
   "theorems": [
    "Verif.Rpc.C45_refuted",
    "Verif.Rpc.C45_only_late_calls_partial",
    "Verif.Rpc.C45_drains_partial",
    "Verif.Rpc.C45_late_call_is_fatal"
   ],
   "note": "False: the channel is closed before the graceful stop, so a call that has not yet handed in its query panics (C45_refuted, C45_late_call_is_fatal). Proved for calls that have."
  },
  {
   "property": "C46",
   "status": "partial",
   "theorems": [
    "Verif.Cmd.C46_dimensions_partial",
    "Verif.Cmd.C46_first_arrival_decides",
    "Verif.Cmd.C46_refuted",
    "Verif.Cmd.C46_transmitted"
   ],
   "note": "False for root, type and proof length, which are not compared; the first server to answer decides them (C46_refuted, C46_first_arrival_decides). Proved for the dimensions."
  },
  {
   "property": "C47",
   "status": "proved",
   "theorems": [
    "Verif.Rand.C47_reads_use_disjoint_keystream",
    "Verif.Rand.C47_long_read_xors_into_buffer"
   ],
   "note": ""
  },
  {
   "property": "C48",
   "status": "proved",
   "theorems": [
    "Verif.Lwe.C48_digest_uses_client_matrix",
    "Verif.Lwe.C48_matrix_is_key_stream"
   ],
   "note": "Matrix entries are the key stream words of the seed; the digest is the product of the client's matrix and the stored bits."
  },
  {
   "property": "C49",
   "status": "partial",
   "theorems": [
    "Verif.Cmd.C49_sorted_partial",
    "Verif.Cmd.C49_not_a_number",
    "Verif.Cmd.C49_out_of_range_crashes",
    "Verif.Cmd.C49_order_matters",
    "Verif.Cmd.C49_refuted",
    "Verif.Cmd.C49_outcome",
    "Verif.Cmd.C49_loaded",
    "Verif.Cmd.C49_order_exact"
   ],
   "note": "False for keys out of range (crash instead of error) and for keys that denote the same number (result depends on map order). Proved for keys 0..n-1 and every order. Exact: C49_outcome (which configurations load, which give an error, which crash, by the first bad key in iteration order), C49_loaded (what is loaded), C49_order_exact (the order of iteration does not matter exactly if keys of the same number have the same address)."
  },
  {
   "property": "C50",
   "status": "proved",
   "theorems": [
    "Verif.Utils.C50_words_roundtrip",
    "Verif.Utils.C50_words_format",
    "Verif.Utils.C50_bytes_roundtrip",
    "Verif.Utils.C50_bytes_roundtrip_aligned"
   ],
   "note": ""
  },
  {
   "property": "C51",
   "status": "partial",
   "theorems": [
    "Verif.Cmd.C51_email_partial",
    "Verif.Cmd.C51_count_after_error",
    "Verif.Cmd.C51_bad_year_crashes",
    "Verif.Cmd.C51_success",
    "Verif.Cmd.C51_refuted"
   ],
   "note": "False: the algorithm and timestamp pages go on after the error and write the count 0; a year that is not a number ends the web server. Proved for the e-mail page."
  },
  {
   "property": "C52",
   "status": "proved",
   "theorems": [
    "Verif.Cmd.C52_content",
    "Verif.Cmd.C52_read_back",
    "Verif.Cmd.C52_sizes",
    "Verif.Cmd.C52_hundred_mb"
   ],
   "note": "Every sequence of keys and every limit; gob encoding of a file is the sequence of its keys, file system errors left out."
  },
  {
   "property": "C53",
   "status": "proved",
   "theorems": [
    "Verif.Fss.C53_fss",
    "Verif.Fss.C53_fss_tests",
    "Verif.Fss.C53_fss_query",
    "Verif.Lwe.C53_lwe",
    "Verif.Lwe.C53_lwe128",
    "Verif.Dh.C53_dh"
   ],
   "note": "Reductions with explicit tests for the four clients. Assumed: hardness of LWE, of the group problem and of the AES-based generator against those tests; noise, secrets, seeds and last MAC key uniform as stated; the word that replaces a value equal to the modulus is reduced. The client of the external DPF library is not covered; the unauthenticated predicate client does leak (C59)."
  },
  {
   "property": "C54",
   "status": "proved",
   "theorems": [
    "Verif.Rand.C54_uint64_consecutive",
    "Verif.Rand.C54_uint64_unaligned",
    "Verif.Rand.C54_int63",
    "Verif.Rand.C54_served_invertible"
   ],
   "note": ""
  },
  {
   "property": "C55",
   "status": "partial",
   "theorems": [
    "Verif.Predicate.C55_unsupported_queries_crash",
    "Verif.Predicate.C55_refuted",
    "Verif.Predicate.C55_short_text_crashes_servers",
    "Verif.Predicate.C55_odd_date_no_answer"
   ],
   "note": "False: unknown target, Sum or Avg without And, and ordinary client queries with a text shorter than FromStart terminate the server; proved for all such queries. The exact condition is C142."
  },
  {
   "property": "C56",
   "status": "partial",
   "theorems": [
    "Verif.Lwe.C56_refuted",
    "Verif.Lwe.C56_complete_queries_partial",
    "Verif.Lwe.C56_128_short_query",
    "Verif.Lwe.C56_128_long_query_panics",
    "Verif.Lwe.C56_exact"
   ],
   "note": "False for the 32-bit server: a header announcing more entries than sent makes the C kernel read out of bounds (refuted with a query). Partial: complete queries are answered; 128-bit server pads or panics, never reads out of bounds. What these servers do with any query is decided in C144. C56_exact: the byte strings announcing fewer than 2^31 rows that the 32-bit server answers are exactly those with as many columns as the database has rows, a product that fits the kernel, and at least the announced entries."
  },
  {
   "property": "C57",
   "status": "partial",
   "theorems": [
    "Verif.Pgp.C57_large_key_lost",
    "Verif.Pgp.C57_refuted",
    "Verif.Pgp.C57_lookup_newest_partial"
   ],
   "note": "End to end from the dump to the lookup, for at least ten stored keys and newest keys of at most 8192 bytes (C57_lookup_newest_partial). The full claim is false: no database can be built from fewer than ten keys (C57_refuted), and an address whose newest key has more than 8192 bytes is lost with all its older keys (C57_large_key_lost)."
  },
  {
   "property": "C58",
   "status": "partial",
   "theorems": [
    "Verif.Cmd.C58_first",
    "Verif.Cmd.C58_beyond",
    "Verif.Cmd.C58_exact",
    "Verif.Cmd.C58_names_sorted_partial",
    "Verif.Cmd.C58_thousand_and_first",
    "Verif.Cmd.C58_files",
    "Verif.Cmd.C58_refuted"
   ],
   "note": "False: asking for more files than exist panics, and from the thousand-and-first chunk on the names no longer sort in chunk order. Proved for up to 1000 chunks. C58_exact: over directories of any number of chunks, a request for k files is always served by the first k chunks exactly when k is at most 101; C58_first adds directories of at most 1000 chunks, C58_beyond gives for every larger k a directory from which a later chunk is loaded instead."
  },
  {
   "property": "C59",
   "status": "partial",
   "theorems": [
    "Verif.Fss.C59_queried_point_compatible",
    "Verif.Fss.C59_incompatible_excluded",
    "Verif.Fss.C59_refuted"
   ],
   "note": "False: the final correction word of an unauthenticated query is 1 or -1 in the clear and reveals the control bit of the other server at the queried point; a server can rule out predicates (witness, and the general exclusion theorem). How much is revealed at most is C123."
  },
  {
   "property": "C60",
   "status": "partial",
   "theorems": [
    "Verif.Client.C60_lookup_partial",
    "Verif.Client.C60_lookup_merkle_partial",
    "Verif.Client.C60_two_servers_show_nothing",
    "Verif.Client.C60_refuted"
   ],
   "note": "False for two servers of the server program (configured that way in config.toml): no program ever shows a key. Proved for one or at least three such servers, or two that expand DPF keys; an e-mail whose bucket is empty makes the programs crash rather than say that there is no key."
  },
  {
   "property": "C61",
   "status": "partial",
   "theorems": [
    "Verif.Client.C61_no_other_message",
    "Verif.Client.C61_command_line_partial",
    "Verif.Client.C61_actor_partial",
    "Verif.Client.C61_repeated_address",
    "Verif.Client.C61_refuted",
    "Verif.Client.C61_command_line_two",
    "Verif.Client.C61_actor_two",
    "Verif.Client.C61_command_line_two_hidden"
   ],
   "note": "False if the configured addresses are all the same: the command-line client then has one connection and sends the column in the clear. Proved for every number of connections but two: a coalition that misses one configured address learns nothing. With two different addresses the distributed point function is used: what an address sees is exactly one of its keys, so that a test tells e-mails apart exactly as well as the test made from it tells the columns apart from one key (C61_command_line_two, C61_actor_two, C61_command_line_two_hidden); the secrecy of that library is assumed. C141 is about what servers learn from the end of the program."
  },
  {
   "property": "C62",
   "status": "partial",
   "theorems": [
    "Verif.Client.C62_authentic_partial",
    "Verif.Client.C62_downgrade",
    "Verif.Client.C62_false_absence",
    "Verif.Client.C62_refuted"
   ],
   "note": "False in two ways: a server whose description of the database arrives first can declare it unauthenticated and have any key shown, by a mask computed from the database and the e-mail alone; and a server that tells the truth about the database can make the programs say that there is no key for a loaded e-mail. Proved: if the first description is honest, whatever all servers answer, a key that is shown comes with a verified proof, and it is the loaded key of the e-mail unless that proof has another length than those of the tree or shows a hash collision. Proofs of any length are the subject of C127."
  },
  {
   "property": "C63",
   "status": "partial",
   "theorems": [
    "Verif.Client.C63_web_email_partial",
    "Verif.Client.C63_web_algo_partial",
    "Verif.Client.C63_web_timestamp",
    "Verif.Client.C63_interactive_partial",
    "Verif.Client.C63_empty_text",
    "Verif.Client.C63_created_before",
    "Verif.Client.C63_average_partial",
    "Verif.Client.C63_no_average",
    "Verif.Client.C63_command_line_partial",
    "Verif.Client.C63_exchanged",
    "Verif.Client.C63_line_average_partial",
    "Verif.Client.C63_average_needs_and",
    "Verif.Client.C63_refuted",
    "Verif.Client.C63_line_refuted"
   ],
   "note": "Positive parts for the web pages, the lines of the interactive client (text of the line included), averages, and the command line with the connections enumerated in server order; arrival order of infos and answers is arbitrary throughout. Refuted: the command line prints minus the count when the Go map is enumerated the other way; the interactive client counts the digest of the empty string when the text is empty; the line 'created before year' counts one instant; an average over no keys ends the program. Remaining provisos: no 31-bit derived value equals the modulus (C21), non-ASCII texts of more than 32 bytes."
  },
  {
   "property": "C64",
   "status": "partial",
   "theorems": [
    "Verif.Deploy.C64_lookup_partial",
    "Verif.Deploy.C64_lookup_merkle_partial",
    "Verif.Deploy.C64_started",
    "Verif.Deploy.C64_refuses",
    "Verif.Deploy.C64_few_keys",
    "Verif.Deploy.C64_two_servers_show_nothing",
    "Verif.Deploy.C64_refuted",
    "Verif.Deploy.C64_dump_partial"
   ],
   "note": "Whole chain proved for one server and three to five: import, write, split, start, look up (plain and Merkle scheme). Refuted in general: with six servers configured the sixth finds no certificate and ends (C64_refuted); with two servers of the server program all start but no program ever shows a key (C64_two_servers_show_nothing). Start-up decisions (number, files, scheme, fewer than ten keys) are proved. Missing: fewer than ten keys, keys over 8192 bytes, over 1000 chunks, buckets over 4 GB; tables with many equal buckets for the Merkle scheme."
  },
  {
   "property": "C65",
   "status": "partial",
   "theorems": [
    "Verif.Deploy.C65_database",
    "Verif.Deploy.C65_statistics_partial",
    "Verif.Deploy.C65_lower_case_partial",
    "Verif.Deploy.C65_refuted",
    "Verif.Deploy.C65_info"
   ],
   "note": "Proved: the servers started from a dump hold one description per stored address, so every number shown by the programs (with the provisos of C63) is the number of addresses whose newest key satisfies the condition (C65_database, C65_statistics_partial). Refuted as claimed: a key is stored under the lower-cased address, or under another identity if the primary one has no address, but counted under the primary address as written (C65_refuted). Holds for dumps whose primary addresses are in lower case (C65_lower_case_partial)."
  },
  {
   "property": "C66",
   "status": "partial",
   "theorems": [
    "Verif.Simul.C66_point_partial",
    "Verif.Simul.C66_whole_database",
    "Verif.Simul.C66_merkle_partial",
    "Verif.Simul.C66_blocks",
    "Verif.Simul.C66_enough",
    "Verif.Simul.C66_merkle_short",
    "Verif.Simul.C66_refuted"
   ],
   "note": "Proved for fewer blocks than there are: blocks found and bytes reported, XOR and DPF sharing (C66_point_partial), at least the bits asked for (C66_enough), with Merkle proofs when the blocks have distinct checksums (C66_merkle_partial). Refuted for the whole database: the client panics (C66_refuted, C66_whole_database). With authentication fewer data bits than asked are fetched, since the proofs count as data (C66_merkle_short). The database lacks the remainder of the blocks modulo the number of rows (C66_blocks)."
  },
  {
   "property": "C67",
   "status": "partial",
   "theorems": [
    "Verif.Simul.C67_keys",
    "Verif.Simul.C67_counts_partial",
    "Verif.Simul.C67_backwards",
    "Verif.Simul.C67_empty_text_crashes_servers",
    "Verif.Simul.C67_empty_text",
    "Verif.Simul.C67_refuted"
   ],
   "note": "Proved: the generated keys (C67_keys) and the counts when the connections are enumerated in server order and no derived value equals the modulus (C67_counts_partial). Refuted as claimed: in the other order each repetition obtains the negated number modulo p (C67_refuted, C67_backwards). For strings of length 0 the servers panic (C67_empty_text, C67_empty_text_crashes_servers)."
  },
  {
   "property": "C68",
   "status": "partial",
   "theorems": [
    "Verif.Local.C68_sizes",
    "Verif.Local.C68_lwe_rounds_partial",
    "Verif.Local.C68_lwe128_rounds_partial",
    "Verif.Local.C68_positions",
    "Verif.Local.C68_positions128",
    "Verif.Local.C68_overflows",
    "Verif.Local.C68_unknown_length",
    "Verif.Local.C68_finishes_partial",
    "Verif.Local.C68_refuted"
   ],
   "note": "Proved: whenever the program finishes, for all randomness, the report has exactly the stated sizes (C68_sizes); every repetition finds the stored bit for up to 46340 rows (C68_lwe_rounds_partial, C68_lwe128_rounds_partial); it finishes for 1 KiB and 1 MiB, and with the 128-bit scheme for every length up to 46340^2 (C68_finishes_partial). Refuted for the repository's own configuration, whose 1 GiB database has 92682^2 entries, indexed with 32-bit int in C (C68_refuted, C68_overflows). Lengths outside the table of three panic (C68_unknown_length)."
  },
  {
   "property": "C69",
   "status": "partial",
   "theorems": [
    "Verif.Local.C69_rounds_partial",
    "Verif.Local.C69_finishes_partial",
    "Verif.Local.C69_rows_not_divided",
    "Verif.Local.C69_sixty_four_processors",
    "Verif.Local.C69_zero_row",
    "Verif.Local.C69_fixed_size_partial",
    "Verif.Local.C69_refuted"
   ],
   "note": "Proved: with rows divisible among the goroutines and no neutral element among digests, query and answer, every repetition finds its bit and the report has the stated sizes (C69_rounds_partial, C69_finishes_partial; C69_fixed_size_partial where all encodings have one size). Refuted: a row without ones makes the program fail in groups with a short neutral element (C69_refuted, C69_zero_row); it also never finishes when the last goroutine would start beyond the last row (C69_rows_not_divided), which is the case for 1 MiB on 64 processors (C69_sixty_four_processors)."
  },
  {
   "property": "C70",
   "status": "partial",
   "theorems": [
    "Verif.Local.C70_records_partial",
    "Verif.Local.C70_finishes_partial",
    "Verif.Local.C70_no_block",
    "Verif.Local.C70_refuted"
   ],
   "note": "Proved for blocks that the checksum tells apart (C70_records_partial, C70_finishes_partial). Refuted for distinct blocks with equal checksums (C70_refuted). Databases smaller than a block and blocks of no bytes end the program (C70_no_block)."
  },
  {
   "property": "C71",
   "status": "partial",
   "theorems": [
    "Verif.Data.C71_loaded",
    "Verif.Data.C71_pipeline_partial",
    "Verif.Data.C71_same_directory",
    "Verif.Data.C71_genDB_does_nothing",
    "Verif.Data.C71_input_deleted",
    "Verif.Data.C71_usage",
    "Verif.Data.C71_refuted",
    "Verif.Data.C71_unusable_dump",
    "Verif.Data.C71_unserializable",
    "Verif.Data.C71_unsplittable",
    "Verif.Data.C71_split_error",
    "Verif.Data.C71_server_unusable",
    "Verif.Data.C71_shown_partial"
   ],
   "note": "Proved for an empty chunk directory different from the import directory (C71_pipeline_partial) and through to what the client programs show, for one or three to five servers (C71_shown_partial). In general the server also loads every other file of the directory (C71_loaded): refuted for a directory with chunks of an earlier, larger run (C71_refuted); all keys load twice if the import goes into the chunk directory (C71_same_directory). genDB reports success and writes nothing (C71_genDB_does_nothing). Splitting the first chunk of the same directory deletes its keys and reports success (C71_input_deleted). Unusable input is rejected: C71_unusable_dump, C71_unsplittable, C71_split_error (which empties the first chunk file nevertheless), C71_server_unusable, C71_unserializable."
  },
  {
   "property": "C72",
   "status": "partial",
   "theorems": [
    "Verif.Data.C72_frame",
    "Verif.Data.C72_any_history",
    "Verif.Data.C72_interrupted_files",
    "Verif.Data.C72_interrupted_chunks",
    "Verif.Data.C72_rerun_chunks",
    "Verif.Data.C72_rerun_parse",
    "Verif.Data.C72_refuted",
    "Verif.Data.C72_shown_partial"
   ],
   "note": "Proved: repeating gives the files of an uninterrupted run (C72_rerun_chunks, C72_rerun_parse, also with another map order); no history changes anything but the output files (C72_frame), and after any history import and splitting deliver the keys of the dump (C72_any_history, C72_shown_partial). An interrupted run leaves complete chunks but for the last and a prefix of the keys (C72_interrupted_files), which a server loads without error (C72_interrupted_chunks); so the last part is refuted (C72_refuted)."
  },
  {
   "property": "C73",
   "status": "partial",
   "theorems": [
    "Verif.Data.C73_selected",
    "Verif.Data.C73_four_digits_partial",
    "Verif.Data.C73_refuted"
   ],
   "note": "Proved: the files read are those whose name contains sks-dump-, four digits and .pgp, in the order of their names (C73_selected); for directories in which only names of the documented form contain it, exactly these (C73_four_digits_partial). Refuted in general (C73_refuted): the pattern is not anchored."
  },
  {
   "property": "C74",
   "status": "partial",
   "theorems": [
    "Verif.Pgp.C74_order",
    "Verif.Pgp.C74_primary",
    "Verif.Pgp.C74_documented_partial",
    "Verif.Pgp.C74_lower_case_partial",
    "Verif.Pgp.C74_refuted",
    "Verif.Pgp.C74_case_refuted"
   ],
   "note": "Proved: the order does not matter (C74_order); with an e-mail in the primary identity the claim holds (C74_primary); without, it holds if lower-casing does not change which e-mail is first, as when all are in lower case (C74_documented_partial, C74_lower_case_partial). Refuted in general: e-mails are compared before they are lower-cased (C74_refuted, C74_case_refuted)."
  },
  {
   "property": "C75",
   "status": "partial",
   "theorems": [
    "Verif.Shared.C75_apart_partial",
    "Verif.Shared.C75_own_request",
    "Verif.Shared.C75_apart_dead",
    "Verif.Shared.C75_one_after_the_other",
    "Verif.Shared.C75_history",
    "Verif.Shared.C75_refuted",
    "Verif.Shared.C75_wrong_count"
   ],
   "note": "True of the deployed server, which has a single worker: in a history of any length each query gets the answer of a new server (C75_history). False of the experiment server, whose RPC handlers run at the same time on the scratch arrays of the one FSS instance (C75_refuted): two clients that count the RSA keys at the same time on an unauthenticated server, one of them is told 0 instead of 1 (C75_wrong_count). Proved for every schedule in which no two evaluations overlap, whatever the queries (C75_apart_partial, C75_apart_dead); such a schedule that answers all queries always exists (C75_one_after_the_other)."
  },
  {
   "property": "C76",
   "status": "partial",
   "theorems": [
    "Verif.Rpc.C76_crashing_query_is_fatal",
    "Verif.Rpc.C76_stays_up",
    "Verif.Deploy.C76_short_query_ends_server",
    "Verif.Deploy.C76_unsupported_query_ends_server",
    "Verif.Deploy.C76_garbage_partial",
    "Verif.Deploy.C76_lookups_partial",
    "Verif.Deploy.C76_two_servers_end",
    "Verif.Deploy.C76_other_clients",
    "Verif.Deploy.C76_key_partial",
    "Verif.Deploy.C76_refuted"
   ],
   "note": "The second half is true: each program ends, or has the outcome it has when it is alone, for every server, schedule and request (C76_other_clients); for a configured deployment it shows the right key or ends (C76_key_partial). The first half is false (C76_refuted): nothing recovers from a panic of the worker, so that one query too short for the number of columns ends a point server (C76_short_query_ends_server), one query with an unsupported combination of flags ends a predicate server (C76_unsupported_query_ends_server), and with two point servers every honest lookup ends both if the DPF keys are shorter than one bit for each column (C76_two_servers_end). In general such a call is fatal also if its client gives up (C76_crashing_query_is_fatal) and nothing else is (C76_stays_up). Proved for the honest lookups of any number of clients with one server or three to five (C76_lookups_partial), and for undecodable queries to predicate servers (C76_garbage_partial). C142_deployed gives the exact condition for predicate servers. Exactly which queries end a predicate server and a point server: C142 and C143."
  },
  {
   "property": "C77",
   "status": "partial",
   "theorems": [
    "Verif.Life.C77_notify",
    "Verif.Life.C77_notify_unset",
    "Verif.Life.C77_notify_keeps_empty",
    "Verif.Life.C77_refines_rpc",
    "Verif.Life.C77_told",
    "Verif.Life.C77_ready_means_ready",
    "Verif.Life.C77_exit_settles",
    "Verif.Life.C77_stopping_told_last",
    "Verif.Life.C77_terminates",
    "Verif.Life.C77_rest",
    "Verif.Life.C77_refuted",
    "Verif.Life.C77_stop_partial",
    "Verif.Life.C77_orderly_partial",
    "Verif.Life.C77_serve_failure_loses_calls",
    "Verif.Life.C77_ready_failure_loses_calls"
   ],
   "note": "The notifications come at most once each and in order (C77_told), READY only from a process that accepts calls (C77_ready_means_ready), and a process that has exited has settled every call it accepted (C77_exit_settles). The stop cannot hang: the process cannot go on for ever by itself (C77_terminates), and where it can do nothing it has ended or waits for calls with none open (C77_rest). The full claim is false (C77_refuted): stopWorker closes the channel before GracefulStop refuses calls, so that a call not yet in the channel ends the process in a panic and other calls are lost. Proved with that case set apart (C77_stop_partial), and without it when all calls are in the channel at the signal and none arrives later (C77_orderly_partial). A failure of Serve, or of the notification of a server that serves calls already, loses the open calls (C77_serve_failure_loses_calls, C77_ready_failure_loses_calls). STOPPING is told only after everything is over, not at the beginning of the shutdown as its comment says (C77_stopping_told_last); SdNotify does not unset an empty variable, though its comment says unconditionally (C77_notify_keeps_empty)."
  },
  {
   "property": "C78",
   "status": "partial",
   "theorems": [
    "Verif.Lwe.C78_stored_zero",
    "Verif.Lwe.C78_forgery_bound",
    "Verif.Lwe.C78_honest_exact",
    "Verif.Lwe.C78_smallest_partial",
    "Verif.Lwe.C78_stored_zero_partial",
    "Verif.Lwe.C78_honest_misread",
    "Verif.Lwe.C78_refuted",
    "Verif.Lwe.C78_five_suffice"
   ],
   "note": "For every database, bound B, radius t and deviations, at most C(2t,t)·(2B-1)^(t+1)·(2^32)^t of the (2^32)^(2t+1) choices of the multipliers lead to a wrong bit (C78_forgery_bound), and at most (2B-1)^(t+1)·(2^32)^t where the stored bit is zero (C78_stored_zero). With an honest server the number is known exactly (C78_honest_exact). The table of the driver comes from scripts/integrity_amplification.py, whose formula has no binomial coefficient and takes the multipliers from [2B, q-2B]; the client draws them from all words. The full claim is therefore false (C78_refuted): for 2^23 bits reading a stored one from an honest server goes wrong with probability above 2^-60 (C78_honest_misread). It holds for 2^13 bits (C78_smallest_partial), for stored zeros (C78_stored_zero_partial), and for 2^23 bits with one more pair of repetitions (C78_five_suffice). The length 2^33 is outside the range of the C kernels' ints (C36), so the theorems say nothing about it. That the query hides the multipliers, so that deviations cannot depend on them, is the LWE assumption and not proved."
  },
  {
   "property": "C79",
   "status": "partial",
   "theorems": [
    "Verif.RandShared.C79_draws",
    "Verif.RandShared.C79_in_range",
    "Verif.RandShared.C79_no_deadlock_partial",
    "Verif.RandShared.C79_ends",
    "Verif.RandShared.C79_finished_partial",
    "Verif.RandShared.C79_leak",
    "Verif.RandShared.C79_uniform",
    "Verif.RandShared.C79_half",
    "Verif.RandShared.C79_refuted"
   ],
   "note": "Transition system whose steps are the calls of the buffered reader. For every schedule the replies are explained by consecutive draws on the served stream (C79_draws, no assumption on the calls besides candidates shorter than the 8192-byte buffer), the numbers are in range (C79_in_range), each number below m is given by equally many byte strings (C79_uniform), more than half of the attempts succeed (C79_half), and no schedule runs for ever if attempts succeed eventually (C79_ends). Progress is false of the code (C79_refuted): a request for a number from an empty range panics inside crypto/rand.Int while the mutex is held, and a goroutine that recovers leaves it locked; from then on no goroutine is told a number (C79_leak). Without such requests there is no deadlock (C79_no_deadlock_partial) and every call returns (C79_finished_partial). crypto/rand.Int and bufio.Reader are written from the Go standard library."
  },
  {
   "property": "C80",
   "status": "partial",
   "theorems": [
    "Verif.Tls.C80_accepted_partial",
    "Verif.Tls.C80_outsider",
    "Verif.Tls.C80_honest",
    "Verif.Tls.C80_five_servers",
    "Verif.Tls.C80_keys_distinct",
    "Verif.Tls.C80_expired",
    "Verif.Tls.C80_one_key",
    "Verif.Tls.C80_one_key_two",
    "Verif.Tls.C80_refuted",
    "Verif.Tls.C80_authority",
    "Verif.Tls.C80_issuer"
   ],
   "note": "False of the code (C80_refuted): the credentials are the same for every address (all five certificates, all made for 127.0.0.1), so any one of the five secret keys is enough to be taken for every server. Whoever holds one key and answers at all addresses gets all messages of a lookup and reads the column of the e-mail off them, for any number of servers and in every client (C80_one_key, C80_one_key_two). Proved: exactly who is accepted (C80_accepted_partial), that somebody without any of the five keys never is, whatever certificates it shows (C80_outsider), that genuine servers are accepted while their certificates are valid (C80_honest), that the keys differ (C80_keys_distinct) and serve numbers 0 to 4 only (C80_five_servers), and that nobody is accepted after 12 January 2027 (C80_expired). That the five secret keys are part of the published source is not used: with it everybody holds them."
  },
  {
   "property": "C81",
   "status": "partial",
   "theorems": [
    "Verif.Web.C81_key_page",
    "Verif.Web.C81_count_pages",
    "Verif.Web.C81_counts",
    "Verif.Web.C81_count_shown",
    "Verif.Web.C81_routes",
    "Verif.Web.C81_ends_iff",
    "Verif.Web.C81_failed_call_ends",
    "Verif.Web.C81_own_reply",
    "Verif.Web.C81_stays_up_partial",
    "Verif.Web.C81_bad_year_ends",
    "Verif.Web.C81_no_reply_after",
    "Verif.Web.C81_lost",
    "Verif.Web.C81_refuted"
   ],
   "note": "Handlers with four ends (value, error, recovered panic, end of the process) and the process as a transition system. False of the code (C81_refuted, C81_lost): a request for the keys created before a year that is not a number calls log.Fatal and takes all requests that are being served with it (C81_bad_year_ends). With servers that answer every call this is the only request that does (C81_ends_iff: nothing servers send and nothing else visitors type ends the process); without such requests the process stays up in every history and every request ends with its own reply or, if its handler panics, with a closed connection (C81_stays_up_partial, C81_own_reply). A failing call to one server also ends the process (C81_failed_call_ends). Routing and request identifiers: C81_routes. The pages are those of C51, C60, C62 and C63 (C81_key_page, C81_count_pages, C81_counts). net/http is assumed to recover panics of handlers."
  },
  {
   "property": "C82",
   "status": "proved",
   "theorems": [
    "Verif.Monitor.C82_holds",
    "Verif.Monitor.C82_not_negative",
    "Verif.Monitor.C82_microseconds",
    "Verif.Monitor.C82_phases",
    "Verif.Monitor.C82_no_clock"
   ],
   "note": "Floating-point numbers as rationals with an arbitrary rounding to a nearest double (existence of one is proved: nearest_exists). The readings are monotone because seconds times 1000 are exact below 2^53; error analysis of four roundings per reading. C82_holds is the statement; C82_microseconds: rounding a cost to microseconds gives the kernel's exact count; C82_phases: sums; C82_not_negative: for far longer runs; C82_no_clock: the program ends if the kernel refuses. Assumed: getrusage times never go back; no fused operations (amd64). The kernel counts the whole process, so that the cost of a phase includes everything other goroutines and the garbage collector do meanwhile."
  },
  {
   "property": "C83",
   "status": "partial",
   "theorems": [
    "Verif.Interactive.C83_environment_ignored",
    "Verif.Interactive.C83_start_iff",
    "Verif.Interactive.C83_unreachable",
    "Verif.Interactive.C83_configured_partial",
    "Verif.Interactive.C83_download",
    "Verif.Interactive.C83_stats",
    "Verif.Interactive.C83_year",
    "Verif.Interactive.C83_history_partial",
    "Verif.Interactive.C83_end",
    "Verif.Interactive.C83_error_silent",
    "Verif.Interactive.C83_disagreement_silent",
    "Verif.Interactive.C83_rejected_silent",
    "Verif.Interactive.C83_prompt_silent",
    "Verif.Interactive.C83_as_delivered_no_key",
    "Verif.Interactive.C83_addresses",
    "Verif.Interactive.C83_start_not_failed",
    "Verif.Interactive.C83_failing_call_silent",
    "Verif.Interactive.C83_panic_shown",
    "Verif.Interactive.C83_refuted",
    "Verif.Interactive.C83_refuted_reachable"
   ],
   "note": "False (C83_refuted, C83_refuted_reachable): staticConfig is true in the source, so that the environment and the files make no difference (C83_environment_ignored), the program starts exactly if the four compiled-in addresses can be reached (C83_start_iff), and vanishes without a word otherwise (C83_unreachable): main discards the output of the package log, through which all its failures are reported. For the same reason every failed request ends the program silently: an error (C83_error_silent), servers that disagree (C83_disagreement_silent), an answer that does not verify (C83_rejected_silent), an interrupted prompt (C83_prompt_silent). With the two compiled-in point servers, honest and as started by cmd/grpc/server, no key is ever printed (C83_as_delivered_no_key, from C60). Proved of the claim: with the switch off the configuration is honoured (C83_configured_partial); requests that come to their end are independent of each other (C83_history_partial) and print what C60 and C63 say of a single request (C83_download, C83_stats, C83_year); exit ends the program with a good-bye (C83_end). Missing: the prompts of the survey library, and the screen. That the silence reveals nothing about the e-mail: C141."
  },
  {
   "property": "C84",
   "status": "proved",
   "theorems": [
    "Verif.Forge.C84_count_forged",
    "Verif.Forge.C84_bound_small"
   ],
   "note": "Proved for every strategy of either server (C84_count_forged): the probability is at most the advantage of explicit tests against the generator and the derivation of values, plus 864/p^3 < 2^-83 (C84_bound_small). It is the cube and not the fourth power because the fifth component of a key is not masked (C24), so that the forging server knows one of the four MAC keys. Nothing is assumed about derived values equal to the modulus: the client's and the honest server's replacements are accounted for. The answer of server 0 is read first here; C158 covers the other order of arrival."
  },
  {
   "property": "C85",
   "status": "partial",
   "theorems": [
    "Verif.Forge.C85_average_forged_partial",
    "Verif.Forge.C85_bound_small",
    "Verif.Forge.C85_average_cut",
    "Verif.Forge.C85_refuted"
   ],
   "note": "False (C85_refuted): the client decides by the length of the answer of server 0 whether it has asked for an average; if server 0 sends just the first half of its honest answer, the client returns the number of keys as their average age, and all checks succeed (C85_average_cut). When server 1 forges, or server 0 sends ten words, the bound of C84 holds twice (C85_average_forged_partial, C85_bound_small). For a query about no keys any returned number counts as wrong. C155 says what is left to server 0 with other numbers of words. The answer of server 0 is read first here; C158 covers the other order of arrival."
  },
  {
   "property": "C86",
   "status": "proved",
   "theorems": [
    "Verif.Dh.C86_known_beforehand",
    "Verif.Dh.C86_reaction_hides",
    "Verif.Dh.C86_spread"
   ],
   "note": "C86_known_beforehand: unless the server changes a row by exactly the secret element or its negative, the client ends (with the same error or panic) as one that compares all rows with the honest answer, which the server can work out itself. C86_reaction_hides: the advantage of any test on message and reaction is at most that of four explicit tests for the Diffie-Hellman problem plus 4 * rows * the largest probability of an element; C86_spread: the latter is 1/order for uniform scalars in a group of prime order. Hypothesis: all row digests have the full encoding length (for the NIST curves: no row of zeros, compare C39). The strategy is a function of the message; a randomised one is covered for each value of its coins."
  },
  {
   "property": "C87",
   "status": "proved",
   "theorems": [
    "Verif.Dh.C87_wrong_bit"
   ],
   "note": "C87_wrong_bit: the probability is at most the advantage of one explicit test for the Diffie-Hellman problem plus (2 * rows + 1) * the largest probability of an element (C86_spread: 1/order). The additional term is the blinding by the neutral element, with which even an honest answer is misread (C39_neutral_blinding)."
  },
  {
   "property": "C88",
   "status": "proved",
   "theorems": [
    "Verif.Lwe.C88_reaction_hides32",
    "Verif.Lwe.C88_reaction_hides128",
    "Verif.Lwe.C88_spread32",
    "Verif.Lwe.C88_spread128"
   ],
   "note": "C88_reaction_hides32, C88_reaction_hides128: the advantage of any test on message and reaction is at most that of four explicit tests for LWE, plus twice the probability that the noise of a column leaves the accepted interval, plus 2 * columns * (8B-6) (128 bit: 2 * columns * (8B+2)) times the largest probability of a multiplier, which is 2^-32 or 2^-128 (C88_spread32, C88_spread128). The client reads all columns, not just its own, so that the reaction depends on the deviation and the noise, but not on the index; since it does depend on the noise, two of the tests may ask once whether given deviations are tolerated. For 32 bits and large databases the last term is not small. The amplified client is the subject of C108 to C110. With the draws and parameters of the client itself: C133."
  },
  {
   "property": "C89",
   "status": "proved",
   "theorems": [
    "Verif.Lwe.C89_wrong_bit32",
    "Verif.Lwe.C89_wrong_bit128"
   ],
   "note": "C89_wrong_bit32, C89_wrong_bit128: the probability is at most the advantage of one explicit test for plain LWE (it does not use the noise), plus the probability that the noise of the requested column leaves the accepted interval, plus (8B-6)/2^32 or (8B+2)/2^128. With the draws and parameters of the client itself: C132."
  },
  {
   "property": "C90",
   "status": "partial",
   "theorems": [
    "Verif.MerklePir.C90_short_answer",
    "Verif.MerklePir.C90_row_seen",
    "Verif.MerklePir.C90_flipped_row",
    "Verif.MerklePir.C90_view_partial",
    "Verif.MerklePir.C90_other_rows_partial",
    "Verif.MerklePir.C90_refuted"
   ],
   "note": "False: the client reads only the requested row of each answer, so a server that cuts its answer off after x rows sees a panic exactly for indices beyond them (every database and hash function), and one that flips a bit of a single row sees a rejection exactly for indices in that row (unless the hash function collides on explicit strings). Partial: with answers of full length the message and reaction are distributed equally for two indices whenever the check of the requested block, changed by the server's deviation in that row, ends in the same way; in particular if the server leaves the rows of both alone. Two servers (keys of a distributed point function) are covered by the attacks, not by the positive part. C141 says what the end of a whole lookup program shows."
  },
  {
   "property": "C91",
   "status": "partial",
   "theorems": [
    "Verif.Forge.C91_small_words_partial",
    "Verif.Forge.C91_word_raised",
    "Verif.Forge.C91_fewer_than_two",
    "Verif.Forge.C91_refuted"
   ],
   "note": "False: the client adds the two words with 32-bit wrap-around before reducing. A server that adds the modulus to word j of its honest answer is accepted if and only if its honest word is at most component j of the result or that component is below two (exact, for each of the five words, either server and both orders). With the first word the server sees whether fewer than two keys match. Partial: the claim holds as long as no word exceeds 2^32 minus the modulus."
  },
  {
   "property": "C92",
   "status": "proved",
   "theorems": [
    "Verif.Forge.C92_failures_rare",
    "Verif.Forge.C92_simulated",
    "Verif.Forge.C92_reaction",
    "Verif.Forge.C92_honest_runs"
   ],
   "note": "Proved: the reaction equals, up to the probability of a forgery (C84) and of an honest run going wrong (C21; zero if no derived value equals the modulus, and bounded as in C102 by C92_failures_rare), the comparison of the answer with the server's own honest answer; hence the bound of C53 carries over. Average queries are C129. Answers with larger words are C91, answers with another number of words are not covered. Answers with any number of words: C154."
  },
  {
   "property": "C93",
   "status": "partial",
   "theorems": [
    "Verif.Wire.C93_all_but_one_partial",
    "Verif.Wire.C93_without_compression",
    "Verif.Wire.C93_column_seen",
    "Verif.Wire.C93_any_compressor",
    "Verif.Wire.C93_refuted"
   ],
   "note": "False: all clients ask for gzip, and the server then compresses its answers. For every lossless compressor that compresses an answer of zeros at all there is a database of two records such that the sizes tell in every run which of them is looked up (C93_any_compressor, C93_refuted); in a database that is zero outside of a column, the number of answers with the size of that column is odd exactly if the index lies in it (C93_column_seen). Proved: whoever misses one connection learns nothing, whatever the compressor (C93_all_but_one_partial), and without compression the sizes are constants (C93_without_compression). That gzip compresses a long message of zeros is a fact about the library and is a hypothesis. Two servers (keys of the distributed point function) are not covered."
  },
  {
   "property": "C94",
   "status": "proved",
   "theorems": [
    "Verif.Wire.C94_call",
    "Verif.Wire.C94_queries",
    "Verif.Wire.C94_lookup",
    "Verif.Wire.C94_large_database"
   ],
   "note": "Round trip of the variable-length integer, the message and the compressor; limits of the four options (C94_call), carried over to the clients' rounds of queries (C94_queries) and to lookups (C94_lookup, C94_large_database). The behaviour of the gRPC and protobuf libraries is modelled from their documentation."
  },
  {
   "property": "C95",
   "status": "proved",
   "theorems": [
    "Verif.History.C95_number_of_lookups",
    "Verif.Point.C95_lookups",
    "Verif.Dh.C95_dh",
    "Verif.Lwe.C95_lwe32",
    "Verif.Lwe.C95_lwe128",
    "Verif.Forge.C95_counts"
   ],
   "note": "Hybrid argument (Lemmas/History) over C03, C86, C88 and C92; C95_number_of_lookups turns a bound per lookup into a bound for the session. The coins of different lookups are independent (C47 and C54: the generators repeat no output). The multi-server lookups are those with more than two servers (the keys for two come from a library) and the coalition there only listens; what it may learn by lying is the subject of C90. With the keys and coins of all lookups taken from the generators of one client object: C134, C137, C139, C146 and C148."
  },
  {
   "property": "C96",
   "status": "proved",
   "theorems": [
    "Verif.Dh.C96_dh",
    "Verif.Lwe.C96_lwe32",
    "Verif.Lwe.C96_lwe128",
    "Verif.Forge.C96_counts"
   ],
   "note": "Union bound by induction on the session (Lemmas/History) over C84, C87 and C89. The coins of different lookups are independent (C47 and C54)."
  },
  {
   "property": "C97",
   "status": "partial",
   "theorems": [
    "Verif.Object.C97_point",
    "Verif.Object.C97_point_lookup",
    "Verif.Object.C97_point_session",
    "Verif.Object.C97_point_overlap",
    "Verif.Object.C97_refuted",
    "Verif.Object.C97_same_row_partial",
    "Verif.Object.C97_point_no_query",
    "Verif.Object.C97_point_refused",
    "Verif.Object.C97_dh_refused",
    "Verif.Object.C97_dh",
    "Verif.Object.C97_dh_lookup",
    "Verif.Object.C97_lwe",
    "Verif.Object.C97_lwe_lookup",
    "Verif.Object.C97_amplify",
    "Verif.Object.C97_amplify_lookup",
    "Verif.Object.C97_predicate",
    "Verif.Object.C97_predicate_lookup",
    "Verif.Object.C97_predicate_overlap"
   ],
   "note": "Proved for lookups made one after the other: whatever the history, messages are those of a new object, only the last successful query counts, and a lookup is the exchange of C01, C02, C10, C30, C32, C33, C39, C21, C22 (C97_point, _dh, _lwe, _amplify, _predicate and the _lookup theorems, C97_point_session). Refuted for lookups that overlap: the object keeps one state, and the point client returns, without an error, the block in the column of the first and the row of the second query (C97_refuted, C97_point_overlap; in the verified scheme it is a record with a valid proof). Overlapping lookups are safe in the same row (C97_same_row_partial) and for predicate clients, which return the right number or reject (C97_predicate_overlap)."
  },
  {
   "property": "C98",
   "status": "partial",
   "theorems": [
    "Verif.Object.C98_refuted",
    "Verif.Object.C98_overwritten",
    "Verif.Object.C98_bytes_partial"
   ],
   "note": "Refuted: Reconstruct subtracts from the caller's matrix in place, so that a second call works on another matrix; with honest answers it can return the other bit (C98_refuted, C98_overwritten). Holds if the answer is kept as bytes (C98_bytes_partial)."
  },
  {
   "property": "C99",
   "status": "partial",
   "theorems": [
    "Verif.Stop.C99_no_crash",
    "Verif.Stop.C99_own",
    "Verif.Stop.C99_exit_settles",
    "Verif.Stop.C99_terminates",
    "Verif.Stop.C99_rest",
    "Verif.Stop.C99_hung_for_good",
    "Verif.Stop.C99_stop_partial",
    "Verif.Stop.C99_signals_partial",
    "Verif.Stop.C99_three_requests_hang",
    "Verif.Stop.C99_refuted"
   ],
   "note": "Proved: a stop never crashes the process (unlike C45), a process that exits has settled every call, its own steps are bounded, and a process at rest has ended, was never asked to stop, or is hung, which takes three requests to stop, one of them over HTTP (C99_no_crash, _own, _exit_settles, _terminates, _rest). Refuted: a third request blocks for ever on the full channel and Shutdown waits for it without a deadline; nothing ends the process afterwards, since signals are dropped (C99_refuted, C99_three_requests_hang, C99_hung_for_good). Holds for at most two requests (C99_stop_partial) and for signals only (C99_signals_partial)."
  },
  {
   "property": "C100",
   "status": "proved",
   "theorems": [
    "Verif.Float.C100_ceil",
    "Verif.Float.C100_rows",
    "Verif.Float.C100_blocks",
    "Verif.Float.C100_ceil_bound",
    "Verif.Float.C100_log2"
   ],
   "note": "C100_ceil, C100_rows, C100_blocks (with the bound shown sharp in C100_ceil_bound) and C100_log2; they also justify the exact ceilings and logarithms in the models of the other properties. Square roots and the float32 product of the table size are modelled bit by bit in C18."
  },
  {
   "property": "C101",
   "status": "partial",
   "theorems": [
    "Verif.Zone.C101_count_partial",
    "Verif.Zone.C101_margin",
    "Verif.Zone.C101_local_year",
    "Verif.Zone.C101_midnight",
    "Verif.Zone.C101_never",
    "Verif.Zone.C101_creation",
    "Verif.Zone.C101_no_answer",
    "Verif.Zone.C101_shown_zero",
    "Verif.Zone.C101_two_zones",
    "Verif.Zone.C101_refuted",
    "Verif.Zone.C101_year_refuted"
   ],
   "note": "C101_refuted: the OpenPGP library makes creation times in the server's local zone and the client makes them in UTC, and the binary form of a time includes the zone, so a query by creation time matches no key at all (C101_never), gives 0 whatever the keys (C101_creation, as shown on the screen in C101_shown_zero), and cannot be answered if the zone was no whole number of minutes from UTC when some key was created (C101_no_answer). C101_year_refuted, C101_local_year: years are counted by the server's clocks; C101_two_zones: two honest servers in different zones make the client reject. C101_count_partial: right numbers for e-mails and algorithms in all zones and for years if no key was created around New Year (C101_margin says how far suffices)."
  },
  {
   "property": "C102",
   "status": "proved",
   "theorems": [
    "Verif.Chance.C102_disturbed",
    "Verif.Chance.C102_disturbed_average",
    "Verif.Chance.C102_rarely",
    "Verif.Chance.C102_number",
    "Verif.Chance.C102_shown",
    "Verif.Chance.C102_command_line"
   ],
   "note": "C102_rarely: bound runBound for counts and averages; C102_number: the bound as a number when no listed test gains more than a given amount; C102_shown, C102_command_line: the same for what the programs show. Makes the proviso of C19, C21, C22 and C63 (no derived value equals the modulus) quantitative. With six million distinct addresses the bound is about 1.1 percent, so rejected honest queries are rare but not negligible. Whole sessions by one client object: C153."
  },
  {
   "property": "C103",
   "status": "proved",
   "theorems": [
    "Verif.Uniform.C103_canonical",
    "Verif.Uniform.C103_uniform",
    "Verif.Uniform.C103_ends",
    "Verif.Uniform.C103_keys",
    "Verif.Uniform.C103_query",
    "Verif.Uniform.C103_forged"
   ],
   "note": "C103_keys: the statement; C103_uniform, C103_ends: exact chances; C103_query: the query and the state carry exactly the keys drawn; C103_forged: the chance for a fixed deviation, from C23. The random source is a key stream whose bytes are uniform from the current position on; that AES in counter mode provides such bytes is not claimed."
  },
  {
   "property": "C104",
   "status": "proved",
   "theorems": [
    "Verif.Gauss.C104_near",
    "Verif.Gauss.C104_no_crash",
    "Verif.Gauss.C104_distribution",
    "Verif.Gauss.C104_noise",
    "Verif.Gauss.C104_matrix",
    "Verif.Gauss.C104_encodings"
   ],
   "note": "C104_noise: the statement; C104_near: closeness to the Gaussian; C104_matrix: cells and samples; C104_encodings: the 128-bit encoding is one too low for negative samples; C104_no_crash. The functions of math/rand (Go 1.17) are modelled from the standard library; that the AES key stream provides uniform words is not claimed. Beyond about 60 the true chance is far below the absolute error of 2^-62: there the samples are more frequent than under the Gaussian."
  },
  {
   "property": "C105",
   "status": "proved",
   "theorems": [
    "Verif.Coins.C105_draws",
    "Verif.Coins.C105_query"
   ],
   "note": "C105_draws: the statement, for generators with arbitrary past; C105_query: what the 32-bit client stores and sends is made of these draws. The key streams themselves are taken as random from the current position on; that AES-CTR provides this is not claimed."
  },
  {
   "property": "C106",
   "status": "proved",
   "theorems": [
    "Verif.Coins.C106_holds",
    "Verif.Coins.C106_random_database",
    "Verif.Coins.C106_random_database128"
   ],
   "note": "C106_holds: the statement, with bounds from both sides; C106_random_database, C106_random_database128: the databases the code creates. The noise contributes only the term 2·columns/2^(38·rows); the main term is the chance that the random multiplier is so near the negated noise that a one is read as zero, which the client does not check. Whole sessions by one client object: C151."
  },
  {
   "property": "C107",
   "status": "proved",
   "theorems": [
    "Verif.Coins.C107_holds",
    "Verif.Coins.C107_not_more_available"
   ],
   "note": "C107_holds: both chances, with bounds from both sides; C107_not_more_available: whatever t, reading a one fails at least as often as with a single client, because the decoder considers the first vote only. Whole sessions by one client object: C152."
  },
  {
   "property": "C108",
   "status": "proved",
   "theorems": [
    "Verif.Lwe.C108_query_hides"
   ],
   "note": "C108_query_hides: hybrid argument over the repetitions (Lemmas/Several); the tests are the given one with random multipliers added at one position and the other repetitions drawn afresh (rowsTest, mixed). With the draws of the code: C136; whole sessions: C146."
  },
  {
   "property": "C109",
   "status": "proved",
   "theorems": [
    "Verif.Lwe.C109_reaction_hides"
   ],
   "note": "C109_reaction_hides. Unless the server hits a multiplier, every repetition accepts or rejects as a comparison with the honest answer would and all accepted bits agree, so that the vote never fails; the reaction then does not depend on the index. Some tests may ask once per repetition whether given deviations are tolerated, as in C88. For 32 bits and large databases the last term is not small: amplification does not improve privacy against a lying server, it multiplies the chances by the number of repetitions. With the draws of the code: C136; whole sessions: C146."
  },
  {
   "property": "C110",
   "status": "proved",
   "theorems": [
    "Verif.Lwe.C110_wrong_bit"
   ],
   "note": "C110_wrong_bit: with t = 0 the bound is that of C89. The chance of guessing is that of C78, now for servers that see the query. With the draws of the code: C135; whole sessions: C147."
  },
  {
   "property": "C111",
   "status": "proved",
   "theorems": [
    "Verif.Schedule.C111_result",
    "Verif.Schedule.C111_end",
    "Verif.Schedule.C111_no_panic"
   ],
   "note": "C111_result, C111_end, C111_no_panic: what remains of C42 in the general case, on the step-by-step model of goroutines and channels."
  },
  {
   "property": "C112",
   "status": "proved",
   "theorems": [
    "Verif.Matrix.C112_mul",
    "Verif.Matrix.C112_mul128",
    "Verif.Matrix.C112_binaryMul",
    "Verif.Matrix.C112_binaryMul128"
   ],
   "note": "C112_mul, C112_mul128, C112_binaryMul, C112_binaryMul128: the condition FitsInt under which C36 proves exactness is also necessary for any result at all, so in this range no wrong product is ever returned."
  },
  {
   "property": "C113",
   "status": "proved",
   "theorems": [
    "Verif.Matrix.C113_matrix",
    "Verif.Matrix.C113_matrix128",
    "Verif.Matrix.C113_matrices"
   ],
   "note": "C113_matrix, C113_matrix128, C113_matrices: the round trip of C37 needs bounds on the dimensions; here they follow from the length of the encoding."
  },
  {
   "property": "C114",
   "status": "proved",
   "theorems": [
    "Verif.Client.C114_interactive",
    "Verif.Client.C114_web",
    "Verif.Client.C114_command_line"
   ],
   "note": "C114_interactive, C114_web, C114_command_line: program level consequence of C05 (reconstruction of the point schemes does not depend on the order)."
  },
  {
   "property": "C115",
   "status": "proved",
   "theorems": [
    "Verif.Client.C115_shown",
    "Verif.Client.C115_command_line",
    "Verif.Client.C115_not_asked"
   ],
   "note": "C115_shown, C115_command_line, C115_not_asked: the part of C46 that holds (root, scheme and proof length are not compared)."
  },
  {
   "property": "C116",
   "status": "proved",
   "theorems": [
    "Verif.Tls.C116_stranger",
    "Verif.Tls.C116_nobody",
    "Verif.Tls.C116_receivers"
   ],
   "note": "C116_stranger, C116_nobody, C116_receivers: the part of C80 that holds (a holder of one of the five keys may answer at another one's address)."
  },
  {
   "property": "C117",
   "status": "proved",
   "theorems": [
    "Verif.Life.C117_notifications",
    "Verif.Life.C117_no_hang"
   ],
   "note": "C117_notifications, C117_no_hang: the parts of C77 that hold in every history (C77 fails because a panic in a handler or a failing notification ends the process without STOPPING)."
  },
  {
   "property": "C118",
   "status": "proved",
   "theorems": [
    "Verif.RandShared.C118_numbers"
   ],
   "note": "C118_numbers: the safety part of C79 (which also asks that no goroutine waits for ever)."
  },
  {
   "property": "C119",
   "status": "proved",
   "theorems": [
    "Verif.Deploy.C119_undisturbed"
   ],
   "note": "C119_undisturbed: what the program shows against servers that other clients keep busy is what it shows against these servers alone; from C76 (which fails because others can make a server end)."
  },
  {
   "property": "C120",
   "status": "proved",
   "theorems": [
    "Verif.Web.C120_replies"
   ],
   "note": "C120_replies: the part of C81 that holds; the year is the only way to stop the site."
  },
  {
   "property": "C121",
   "status": "proved",
   "theorems": [
    "Verif.Shared.C121_history"
   ],
   "note": "C121_history: C75 without simultaneous queries."
  },
  {
   "property": "C122",
   "status": "proved",
   "theorems": [
    "Verif.Object.C122_sessions"
   ],
   "note": "C122_sessions: C97 without overlapping lookups."
  },
  {
   "property": "C123",
   "status": "proved",
   "theorems": [
    "Verif.Fss.C123_one_bit",
    "Verif.Fss.C123_without_sign",
    "Verif.Fss.C123_guess",
    "Verif.Fss.C123_query",
    "Verif.Fss.C123_tests"
   ],
   "note": "C123_one_bit, C123_guess, C123_without_sign: hybrid argument over the levels of the tree; C123_query: the messages of the client carry these keys; C123_tests: the tests of the bounds take values in [0,1]. The bit that is revealed is the sign of the final correction word (C59)."
  },
  {
   "property": "C124",
   "status": "partial",
   "theorems": [
    "Verif.Database.C124_shape",
    "Verif.Database.C124_short",
    "Verif.Database.C124_zero",
    "Verif.Database.C124_entries_partial",
    "Verif.Database.C124_unbiased_partial",
    "Verif.Database.C124_refuted",
    "Verif.Database.C124_zero_bytes"
   ],
   "note": "C124_refuted: a word of the source with its 31 low bits set is replaced by an unmasked word of the system's randomness, which need not be reduced. C124_entries_partial, C124_unbiased_partial: the claim for all other sources. C124_shape (sizes), C124_short (errors), C124_zero (the program ends without rows or with empty blocks) and C124_zero_bytes hold without exception."
  },
  {
   "property": "C125",
   "status": "proved",
   "theorems": [
    "Verif.Fss.C125_session",
    "Verif.Fss.C125_gap",
    "Verif.Fss.C125_guess"
   ],
   "note": "C125_session: induction over the queries from C123_one_bit; C125_guess: summing over the secrets; C125_gap: the error is at most (2^m-1) n times the best advantage against the generator."
  },
  {
   "property": "C126",
   "status": "proved",
   "theorems": [
    "Verif.Merkle.C126_accepted",
    "Verif.Merkle.C126_stored",
    "Verif.Merkle.C126_planted",
    "Verif.MerklePir.C126_client"
   ],
   "note": "C126_accepted: the three cases by walking back from the root; C126_stored: lengths; C126_client: for any answers of the servers, decodeProof_all showing that decoded hashes always have 32 bytes. C126_planted: the third case is real, a record of which 32 bytes are the digest of any string makes this string acceptable."
  },
  {
   "property": "C127",
   "status": "proved",
   "theorems": [
    "Verif.Client.C127_shown",
    "Verif.Client.C127_rings"
   ],
   "note": "C127_shown: C126 applied to the lookup made by each program; C127_rings: the two provisos from the assumption about key rings. That the e-mail shown is the one requested is checked by the client itself, so the substitution of records of C11 shows no wrong key."
  },
  {
   "property": "C128",
   "status": "proved",
   "theorems": [
    "Verif.Data.C128_split_again",
    "Verif.Data.C128_import_again",
    "Verif.Data.C128_any_history"
   ],
   "note": "The part of C72 that holds without exception: C128_split_again, C128_import_again, C128_any_history."
  },
  {
   "property": "C129",
   "status": "partial",
   "theorems": [
    "Verif.Forge.C129_simulated",
    "Verif.Forge.C129_hits_rare",
    "Verif.Forge.C129_reaction_partial",
    "Verif.Forge.C129_refuted"
   ],
   "note": "C129_refuted: with honest answers the client divides by the number of counted keys, so it panics exactly if nobody matches; a server that sends what it was asked for and watches the client learns whether anybody matches. C129_simulated: this bit is all it learns: the reaction follows from the message and this bit, up to the probability of a forgery (C85) and of a derived value equal to the modulus (C129_hits_rare bounds it as C102 does). C129_reaction_partial: two queries that both count somebody, or both nobody, cannot be told apart beyond the bounds of C53. Missing in it: one query that counts somebody and one that does not."
  },
  {
   "property": "C130",
   "status": "proved",
   "theorems": [
    "Verif.Stop.C130_signals",
    "Verif.Stop.C130_calls"
   ],
   "note": "The part of C99 that holds without exception: C130_signals, C130_calls."
  },
  {
   "property": "C131",
   "status": "proved",
   "theorems": [
    "Verif.Panic.C131_point",
    "Verif.Panic.C131_authenticated",
    "Verif.Panic.C131_authenticated_value",
    "Verif.Panic.C131_statistics_panics",
    "Verif.Panic.C131_statistics_returns",
    "Verif.Panic.C131_statistics_rejects",
    "Verif.Panic.C131_applies"
   ],
   "note": "C131_point, C131_authenticated with C131_authenticated_value, and C131_statistics_panics, C131_statistics_returns, C131_statistics_rejects are equivalences for all the answers; C131_applies: the keys a client draws meet the hypothesis on their number. As for C12, the capacity of a received answer is taken to be its length."
  },
  {
   "property": "C132",
   "status": "proved",
   "theorems": [
    "Verif.LweReal.C132_holds",
    "Verif.LweReal.C132_attained32",
    "Verif.LweReal.C132_attained128"
   ],
   "note": "C132_holds with C132_attained32 and C132_attained128. The average over the bytes and words the two generators deliver is turned into one over a multiplier, a uniform secret and noise words (avg_draws_eq), to which the reduction of C89 applies; the term for large noise is bounded by the exponential moments of C106. If the words do not suffice the client returns nothing, and the LWE instance has zero noise. That the LWE problem is hard is not proved: its advantage is a term of the bound."
  },
  {
   "property": "C133",
   "status": "proved",
   "theorems": [
    "Verif.LweReal.C133_holds"
   ],
   "note": "C133_holds. Change of variables as in C132, reduction of C88; a client whose draws do not come to an end shows nothing, which costs the chance of that once. Beside it an example: 1024 rows and columns, 128-bit client, 3000 words per noise value: 2^-90 besides LWE. For the 32-bit client the term 2·columns·672·rows/2^32 is not small for large databases (0.33 for 1024 rows and columns)."
  },
  {
   "property": "C134",
   "status": "proved",
   "theorems": [
    "Verif.PointStream.C134_holds",
    "Verif.PointStream.C134_lookup",
    "Verif.PointStream.C134_delivers",
    "Verif.PointStream.C134_known"
   ],
   "note": "C134_holds, with C134_lookup (messages and use of the generator), C134_delivers (blocks) and C134_known (servers that know the bytes see the index, so the assumption is needed). The session with one generator is shown to be a session with independent bytes by splitting the random part of the key stream lookup by lookup (outcome_eq), then C95 applies. With two servers the keys come from the distributed point function library, which draws its own randomness and is not modelled."
  },
  {
   "property": "C135",
   "status": "proved",
   "theorems": [
    "Verif.LweDraws.C135_holds"
   ],
   "note": "C135_holds. The 2t+1 base clients take their noise from one stream of words, each value using an unforeseeable number of them, so that the draws of the base clients are not independent; they are shown to be within (2t+1)·rows·late(c) of independent ones (shared_own), both being compared with the product of the ideal chances of all noise values (C104). Then C110 applies."
  },
  {
   "property": "C136",
   "status": "proved",
   "theorems": [
    "Verif.LweDraws.C136_holds",
    "Verif.LweDraws.C136_message"
   ],
   "note": "C136_holds and C136_message, from C109 and C108 by judge_gap. For the 1024 x 1024 database the guessing term exceeds one, so that the bound says nothing about the ending there (an example shows the number); for 80 x 80 and seven base clients it is below 1/60."
  },
  {
   "property": "C137",
   "status": "proved",
   "theorems": [
    "Verif.LweStream.C137_holds"
   ],
   "note": "C137_holds. The lookups take their noise from one stream of words, each value an unforeseeable number of them, so that a later lookup depends on the earlier ones; sessions with complete draws are replays of the list of draws (decides_eq), whose distribution is within 3·n·rows·late(c) of independent draws (C135), for which the hybrid argument of C95 applies."
  },
  {
   "property": "C138",
   "status": "proved",
   "theorems": [
    "Verif.LweStream.C138_holds"
   ],
   "note": "C138_holds, from C132's reduction per lookup, C96's sum and the comparison of draws of C135."
  },
  {
   "property": "C139",
   "status": "proved",
   "theorems": [
    "Verif.CountStream.C139_holds",
    "Verif.CountStream.C139_small"
   ],
   "note": "C139_holds, C139_small. Rejection sampling gives exactly uniform keys once it stops (C103), and what it leaves of the generator is as random as before, wherever it stops; by induction over the session the mean is that of independent keys, except that each query is lost with the chance 1 − (1 − 2^(−31f))^4. The buffer has no influence on messages. As in C92, the word with which the client or a server replaces a derived value equal to the modulus is the same in all queries; the honest server's buffers start each query as in W, which has no influence on its answers (C97)."
  },
  {
   "property": "C140",
   "status": "proved",
   "theorems": [
    "Verif.CountStream.C140_holds"
   ],
   "note": "C140_holds, from C84 and C85 per query, C96's sum and the mean of C139. Nothing is lost by drawing the MAC keys from the client's own generator: a query without keys gives no number. An average of no keys has no true number. C155_session drops the restriction on the number of words."
  },
  {
   "property": "C141",
   "status": "partial",
   "theorems": [
    "Verif.Presence.C141_web_partial",
    "Verif.Presence.C141_interactive_watched",
    "Verif.Presence.C141_interactive_partial",
    "Verif.Presence.C141_interactive_cut",
    "Verif.Presence.C141_refuted"
   ],
   "note": "C141_web_partial proves it of the web front end: net/http recovers what panics in a handler, and the only ways in which a lookup ends the process (a failing call, log.Fatal in the manager) are settled by the members' messages. C141_refuted: the interactive program ends on everything but a key or its absence. C141_interactive_watched: with servers that all do as they should, it is still there exactly if some stored key has the position of the e-mail, so every single server learns this much. C141_interactive_cut: one member that leaves out the rows from the x-th on learns whether the row is before x. C141_interactive_partial: if the members do as they should and the e-mails have positions of stored keys, they learn nothing. Two servers are left out, they use the distributed point function (C61)."
  },
  {
   "property": "C142",
   "status": "proved",
   "theorems": [
    "Verif.Predicate.C142_exact",
    "Verif.Predicate.C142_client",
    "Verif.Predicate.C142_asked",
    "Verif.Predicate.C142_asked_average",
    "Verif.Deploy.C142_deployed"
   ],
   "note": "C142_exact is the decision for one query, C142_client specialises it to keys made by the client library for any input (the text must have at least as many bits as what is taken from each key looked at), C142_asked and C142_asked_average show that the counts and averages a user can ask for with usable inputs are answered, C142_deployed lifts the decision to the server process under concurrent calls (C44, C76)."
  },
  {
   "property": "C143",
   "status": "proved",
   "theorems": [
    "Verif.Point.C143_exact",
    "Verif.Point.C143_two",
    "Verif.Point.C143_padding",
    "Verif.Point.C143_linear",
    "Verif.Deploy.C143_deployed"
   ],
   "note": "C143_exact and C143_two decide every query and give the whole answer (tableSum, a specification by recursion over rows and blocks that does not use the loops of the server), C143_padding and C143_linear are consequences, C143_deployed lifts the decision to the server program with loaded keys under concurrent calls. For an authenticated database it is assumed, as in C64, that the checksums of the blocks differ and that equal blocks do not make the tree lower."
  },
  {
   "property": "C144",
   "status": "proved",
   "theorems": [
    "Verif.Lwe.C144_amplified",
    "Verif.Lwe.C144_lwe",
    "Verif.Lwe.C144_lwe128",
    "Verif.Dh.C144_group"
   ],
   "note": "C144_lwe, C144_lwe128, C144_amplified (strings below 4 GiB, in terms of what the plain server does with the pieces) and C144_group each list disjoint cases that cover every string, with the complete answer where there is one (read off the bytes of the answer, not with the decoder of the model). Undefined behaviour of the C kernels is told apart from panics of the Go code. These servers are not part of the server program, so there is no statement about its process (for the point and predicate servers see C143 and C142)."
  },
  {
   "property": "C145",
   "status": "proved",
   "theorems": [
    "Verif.Lwe.C145_lwe",
    "Verif.Lwe.C145_lwe128",
    "Verif.Lwe.C145_amplified",
    "Verif.Dh.C145_group"
   ],
   "note": "C145_lwe, C145_lwe128, C145_amplified and C145_group each say that an outcome is that of the client if and only if the table has it; the tables are inductive predicates over the bytes of the answer in Spec/SingleClient. The bounds show the asymmetry of the 128-bit client: noise from -(b+1) to b-1 is taken as clear there, from -(b-1) to b-1 with 32 bits. The clients are taken after a query for a digest that fits (Prepared)."
  },
  {
   "property": "C146",
   "status": "proved",
   "theorems": [
    "Verif.AmplifyStream.C146_holds"
   ],
   "note": "C146_holds. A session whose draws come to an end is the replay of the list of its draws cut into groups of 2t+1 (collect_group, decides_collect); the list is within 3·n·(2t+1)·rows·late(c) of independent draws (C135), for which the hybrid argument of C95 applies with C109's bound per lookup. For 80 rows and columns, seven base clients and ten lookups the remaining advantage is below one in seven; the bound says nothing for large databases because the 32-bit blinding word can be guessed in any column."
  },
  {
   "property": "C147",
   "status": "proved",
   "theorems": [
    "Verif.AmplifyStream.C147_holds"
   ],
   "note": "C147_holds, from C110's reduction per lookup, C96's sum and the comparison of draws of C135. For a thousand lookups in a database of 1024 rows and columns with seven base clients the guess contributes at most 2^-36; with a single base client (C138) a hundred lookups already contribute one in 60."
  },
  {
   "property": "C148",
   "status": "proved",
   "theorems": [
    "Verif.DhStream.C148_fresh",
    "Verif.DhStream.C148_holds",
    "Verif.DhStream.C148_wide"
   ],
   "note": "C148_holds; C148_fresh shows that a session from the generator has exactly the distribution of one with independent bytes per lookup; C148_wide gives ε = 1/q + 1/256^k for a library that reduces k bytes modulo the prime order q. How the library makes a scalar of the bytes it reads is a parameter (Sampler), as is the hardness of the Diffie-Hellman problem."
  },
  {
   "property": "C149",
   "status": "proved",
   "theorems": [
    "Verif.DhStream.C149_holds"
   ],
   "note": "C149_holds, as C148 with C96."
  },
  {
   "property": "C150",
   "status": "proved",
   "theorems": [
    "Verif.DhStream.C150_holds",
    "Verif.DhStream.C150_wide"
   ],
   "note": "C150_holds; C150_wide for the bound on ε. The bad cases are a neutral blinding element, a neutral query element or a neutral answer; a union bound over them."
  },
  {
   "property": "C151",
   "status": "proved",
   "theorems": [
    "Verif.LweStream.C151_holds"
   ],
   "note": "C151_holds. With noise that is small in all columns an honest lookup fails iff a one is stored and the multiplier is next to the negated noise (retrieve_small); the noise is large in a column with chance 2/2^(38·rows); draws of different lookups are independent up to the words that rejection consumes (Lemmas/LweStream)."
  },
  {
   "property": "C152",
   "status": "proved",
   "theorems": [
    "Verif.AmplifyStream.C152_holds"
   ],
   "note": "C152_holds, from the exact chances of C107 for one lookup."
  },
  {
   "property": "C153",
   "status": "proved",
   "theorems": [
    "Verif.CountStream.C153_holds"
   ],
   "note": "C153_holds. For any MAC keys, C102 bounds one query over the seeds; the draws of different queries are compared with independent ones (Lemmas/CountStream); every query that does not end for lack of tries is counted as a failure."
  },
  {
   "property": "C154",
   "status": "proved",
   "theorems": [
    "Verif.Forge.C154_simulated",
    "Verif.Forge.C154_reaction",
    "Verif.Forge.C154_small",
    "Verif.Forge.C154_endings"
   ],
   "note": "C154_reaction, from C154_simulated: the ending is computed from the message; C154_endings lists the endings; C154_small the number. Generalises C92 from five words to any number, with 192/p in place of 1728/p^3, because an answer of two words is compared with one tag only. The answer of server 0 is read first here; C158 covers the other order of arrival."
  },
  {
   "property": "C155",
   "status": "proved",
   "theorems": [
    "Verif.Forge.C155_permitted",
    "Verif.Forge.C155_nobody",
    "Verif.Forge.C155_nobody_first",
    "Verif.Forge.C155_small",
    "Verif.CountStream.C155_session"
   ],
   "note": "C155_permitted; C155_nobody and C155_nobody_first for queries about no keys, where there is no average; C155_small the bound; C155_session for whole sessions of one client object (as C140). Completes C85, whose partial theorem is about ten words from server 0; C85_average_cut shows that the number of keys is indeed accepted from server 0. The answer of server 0 is read first here; C158 covers the other order of arrival."
  },
  {
   "property": "C156",
   "status": "proved",
   "theorems": [
    "Verif.Forge.C156_simulated",
    "Verif.Forge.C156_reaction",
    "Verif.Forge.C156_undivided",
    "Verif.Forge.C156_small",
    "Verif.Forge.C156_endings"
   ],
   "note": "C156_reaction, from C156_simulated: the ending is computed from the message and one bit; C156_undivided: not even the bit; C156_endings lists the endings; C156_small the number. Generalises C129_reaction_partial from ten words to any number, with 384/p in place of 3456/p^3, because short answers are compared with one tag only. The answer of server 0 is read first here; C158 covers the other order of arrival."
  },
  {
   "property": "C157",
   "status": "proved",
   "theorems": [
    "Verif.CountStream.C157_holds",
    "Verif.CountStream.C157_small"
   ],
   "note": "C157_holds proves C157_Statement; C157_small the numbers. Generalises C139 to answers of any length; what such answers can have accepted in a session is C155_session. The answer of server 0 is read first here; C158 covers the other order of arrival."
  },
  {
   "property": "C158",
   "status": "proved",
   "theorems": [
    "Verif.Forge.C158_usual",
    "Verif.Forge.C158_count",
    "Verif.Forge.C158_average",
    "Verif.Forge.C158_count_simulated",
    "Verif.Forge.C158_count_reaction",
    "Verif.Forge.C158_average_simulated",
    "Verif.Forge.C158_average_reaction",
    "Verif.Forge.C158_order_decides",
    "Verif.Client.C158_program",
    "Verif.Client.C158_shown_count",
    "Verif.Client.C158_shown_average"
   ],
   "note": "C158_count and C158_average bound the results, C158_count_reaction and C158_average_reaction the privacy loss, C158_program, C158_shown_count and C158_shown_average carry the results over to the programs. C158_usual: with the answer of server 0 first these are the quantities of C84, C154, C155 and C156. C158_order_decides: the same two answers give the number of keys or a panic, depending on the order."
  },
  {
   "property": "C159",
   "status": "proved",
   "theorems": [
    "Verif.Presence.C159_sees",
    "Verif.Presence.C159_counts",
    "Verif.Presence.C159_averages",
    "Verif.Presence.C159_nobody"
   ],
   "note": "C159_sees: what the server sees is a function of a run of C158; C159_counts and C159_averages are the bounds; C159_nobody is the exception, an equivalence for honest servers (without derived values equal to the modulus, and sums below it, as in C63)."
  },
  {
   "property": "C160",
   "status": "proved",
   "theorems": [
    "Verif.CountStream.C160_privacy",
    "Verif.CountStream.C160_integrity",
    "Verif.Presence.C160_menu"
   ],
   "note": "C160_privacy and C160_integrity for one client object, C160_menu for the interactive program, which makes a new client object with a new random generator for each question; its user starts it again when it is gone."
  },
  {
   "property": "C161",
   "status": "proved",
   "theorems": [
    "Verif.Presence.C161_sees",
    "Verif.Presence.C161_web",
    "Verif.Presence.C161_session"
   ],
   "note": "C161_sees: what the server sees is a function of its own message; C161_web is the bound for one count, C161_session for any number. A year that is no number ends the process without any query (C81) and is not a form of this kind."
  },
  {
   "property": "C162",
   "status": "proved",
   "theorems": [
    "Verif.Client.C162_program",
    "Verif.Client.C162_count",
    "Verif.Client.C162_average"
   ],
   "note": "C162_program: a printed number is the result of a run in one of the orders of arrival; C162_count and C162_average are the bounds. That exchanged connections negate an honest count is C63."
  }
 ]
}