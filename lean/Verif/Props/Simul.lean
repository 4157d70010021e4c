import Verif.Lemmas.Simul
import Verif.Props.Deploy

/-! # C66: the multi-server experiments -/

namespace Verif.Simul
open Res Verif.Cmd Verif.Pgp Verif.Client Verif.Client.Spec Verif.Deploy Verif.Deploy.Spec Verif.Query Verif.MerklePir
  Verif.Point.Spec Verif.Simul.Spec

/-- The database that `CreateRandomBytes` makes. -/
def plainDb (data : List Byte) (R cols blockLen : Nat) : Database.Bytes :=
  ⟨data, { numRows := R, numColumns := cols, blockSize := blockLen, blockLengths := List.replicate (R * cols) blockLen,
           pirType := "", root := [], proofLen := 0 }⟩

theorem plainDb_stores {data : List Byte} {R cols blockLen : Nat} (hfit : R * cols * blockLen ≤ data.length) :
    Stores (plainDb data R cols blockLen) ((List.range (R * cols)).map (piece data blockLen)) ∧
      ∀ j < R * cols, (piece data blockLen j).length = blockLen := by
  generalize hN : R * cols = N at *
  have hpiece : ∀ j < N, (piece data blockLen j).length = blockLen := fun j hj => by
    have : (j + 1) * blockLen ≤ N * blockLen := Nat.mul_le_mul_right _ hj
    rw [Nat.succ_mul] at this
    simp [piece]; omega
  refine ⟨⟨by simp [plainDb, hN], ⟨data.drop (N * blockLen), ?_⟩, ?_, ?_⟩, hpiece⟩
  · have := Point.flatten_pieces data blockLen N hfit
    unfold plainDb
    dsimp only
    rw [show ((List.range N).map (piece data blockLen)).flatten = data.take (N * blockLen) from this,
      List.take_append_drop]
  · unfold plainDb
    dsimp only
    rw [hN]
    apply List.ext_getElem
    · simp
    · intro j h1 h2
      simp only [List.getElem_replicate, List.getElem_map, List.getElem_range]
      rw [hpiece j (by simpa using h1)]
  · intro b hb
    simp only [List.mem_map, List.mem_range] at hb
    obtain ⟨j, hj, rfl⟩ := hb
    exact le_of_eq (hpiece j hj)

theorem pieces_taken (data : List Byte) (len : Nat) {start k N : Nat} (h : start + k < N) :
    (((List.range N).map (piece data len)).drop start).take k = (List.range k).map (fun i => piece data len (start + i)) := by
  apply List.ext_getElem
  · simp; omega
  · intro i h1 h2
    simp

theorem makeServer_classic {M : Host} {f : ServerFlags} (hs : f.scheme = "pir-classic") {R : Nat} (hR : Rows f R)
    (hR0 : 0 < R) (h0 : 0 < f.elemBitSize * f.blockLen) (h52 : f.dbLen / (f.elemBitSize * f.blockLen) ≤ 2 ^ 52)
    {data : List Byte} (hd : M.prg (f.dbLen / 8) = ok data) (sid : Nat) :
    makeServer M sid f = ok (pointDbInfo (plainDb data R (f.dbLen / (8 * R * f.blockLen)) f.blockLen),
      Point.answer M.dpf (if f.servers = 2 then 2 else 0) (plainDb data R (f.dbLen / (8 * R * f.blockLen)) f.blockLen)) := by
  have hb : 0 < f.blockLen := Nat.pos_of_mul_pos_left h0
  have hpos : 0 < 8 * R * f.blockLen := by positivity
  unfold makeServer
  rw [numRows_eq (p := [112, 105, 114]) (by rw [hs]; exact first3_classic) (by rw [first3_cmp]; decide) h0 h52 hR, ok_bind,
    if_pos hs]
  unfold Database.createRandomBytes
  rw [hd, ok_bind, if_neg (by omega)]
  dsimp only
  rw [Point.fill_const]
  rfl

/-- The numbers of servers given to both programs agree. -/
def ServersAgree (dpf : Point.Dpf) (sf : ServerFlags) (f : ClientFlags) : Prop :=
  sf.servers = 2 ∧ f.numServers = 2 ∧ Correct dpf ∨ sf.servers ≠ 2 ∧ 0 < f.numServers ∧ f.numServers ≠ 2

theorem agree_fit {dpf : Point.Dpf} {sf : ServerFlags} {f : ClientFlags} (h : ServersAgree dpf sf f) :
    ServersFit dpf (if sf.servers = 2 then 2 else 0) f.numServers := by
  rcases h with ⟨h1, h2, h3⟩ | ⟨h1, h2, h3⟩
  · rw [if_pos h1]; exact Or.inr ⟨rfl, h2, h3⟩
  · rw [if_neg h1]; exact Or.inl ⟨rfl, h2, h3⟩

/-- The hosts are set up alike: they listen, use the DPF of the client, and draw the same bytes for the database. -/
structure SetUp (host : Nat → Host) (n : Nat) (dpf : Point.Dpf) (len : Nat) (data : List Byte) : Prop where
  bind : ∀ i, i < n → ∀ a, (host i).bind a = ok ()
  dpf : ∀ i, i < n → (host i).dpf = dpf
  drawn : ∀ i, i < n → (host i).prg len = ok data
  full : data.length = len

/-- C66, full statement for the experiment without authentication: servers started with the same options, and a client
that asks for at most as many bits as their database holds: every repetition finds the same consecutive blocks of the
database, as many as are needed, and reports the number of bytes sent for them. -/
def C66_Statement : Prop :=
  ∀ (C : ClientHost) (size : Nat → Nat) (servers : List (List Char × Server)) (host : Nat → Host)
    (config : Nat → List (List Char × Server)) (sf : ServerFlags) (R : Nat) (data : List Byte),
    (∀ c, Point.Delivers (C.read c)) → KeySize C.dpf size → Bounded C.rand → Config servers → servers.length ≤ 5 →
    SetUp host servers.length C.dpf (sf.dbLen / 8) data → (∀ i, i < servers.length → (config i).Perm servers) →
    sf.scheme = "pir-classic" → sf.elemBitSize = 8 → 0 < sf.blockLen → sf.blockLen < 2 ^ 32 → sf.dbLen ≤ 2 ^ 52 → Rows sf R →
    0 < R * (sf.dbLen / (8 * R * sf.blockLen)) → R * (sf.dbLen / (8 * R * sf.blockLen)) < 2 ^ 32 →
    ∃ running, launch host config servers.length sf = ok running ∧
      ∀ (cfg : List (List Char × Server)) (S : Nat → Schedule) (f : ClientFlags) (k : Nat), cfg.Perm servers →
        (∀ c, Fair (S c)) → f.scheme = "pir-classic" → f.numServers ≤ servers.length → ServersAgree C.dpf sf f →
        f.elemBitSize = 8 → Needed f.bitsToRetrieve (8 * sf.blockLen) k → k ≤ R * (sf.dbLen / (8 * R * sf.blockLen)) →
        ∃ start, start + k ≤ R * (sf.dbLen / (8 * R * sf.blockLen)) ∧
          clientMain C cfg (fun _ => network running) S f = ok (.blocks (List.replicate f.repetitions
            ⟨k * cost size f.numServers (sf.dbLen / (8 * R * sf.blockLen)),
              (List.range k).map (fun i => piece data sf.blockLen (start + i))⟩))

/-- C66 (positive part): the same for fewer bits than the database holds. Missing: retrieving the whole database. -/
theorem C66_point_partial (C : ClientHost) (size : Nat → Nat) (servers : List (List Char × Server)) (host : Nat → Host)
    (config : Nat → List (List Char × Server)) (sf : ServerFlags) (R : Nat) (data : List Byte)
    (hread : ∀ c, Point.Delivers (C.read c)) (hsize : KeySize C.dpf size) (hrand : Bounded C.rand) (hc : Config servers)
    (h5 : servers.length ≤ 5) (hM : SetUp host servers.length C.dpf (sf.dbLen / 8) data)
    (hp : ∀ i, i < servers.length → (config i).Perm servers) (hs : sf.scheme = "pir-classic") (he : sf.elemBitSize = 8)
    (hb : 0 < sf.blockLen) (hb32 : sf.blockLen < 2 ^ 32) (h52 : sf.dbLen ≤ 2 ^ 52) (hR : Rows sf R)
    (h0N : 0 < R * (sf.dbLen / (8 * R * sf.blockLen))) (hN : R * (sf.dbLen / (8 * R * sf.blockLen)) < 2 ^ 32) :
    ∃ running, launch host config servers.length sf = ok running ∧
      ∀ (cfg : List (List Char × Server)) (S : Nat → Schedule) (f : ClientFlags) (k : Nat), cfg.Perm servers →
        (∀ c, Fair (S c)) → f.scheme = "pir-classic" → f.numServers ≤ servers.length → ServersAgree C.dpf sf f →
        f.elemBitSize = 8 → Needed f.bitsToRetrieve (8 * sf.blockLen) k → k < R * (sf.dbLen / (8 * R * sf.blockLen)) →
        ∃ start, start + k < R * (sf.dbLen / (8 * R * sf.blockLen)) ∧
          clientMain C cfg (fun _ => network running) S f = ok (.blocks (List.replicate f.repetitions
            ⟨k * cost size f.numServers (sf.dbLen / (8 * R * sf.blockLen)),
              (List.range k).map (fun i => piece data sf.blockLen (start + i))⟩)) := by
  have hR0 : 0 < R := Nat.pos_of_mul_pos_right h0N
  have h0 : 0 < sf.elemBitSize * sf.blockLen := by rw [he]; omega
  have hq : sf.dbLen / (sf.elemBitSize * sf.blockLen) ≤ 2 ^ 52 := le_trans (Nat.div_le_self _ _) h52
  have hfit : R * (sf.dbLen / (8 * R * sf.blockLen)) * sf.blockLen ≤ data.length := by
    rw [hM.full, Nat.le_div_iff_mul_le (by decide)]
    calc _ = sf.dbLen / (8 * R * sf.blockLen) * (8 * R * sf.blockLen) := by ring
      _ ≤ sf.dbLen := Nat.div_mul_le_self _ _
  generalize hcols : sf.dbLen / (8 * R * sf.blockLen) = cols at *
  obtain ⟨hst, hpl⟩ := plainDb_stores hfit
  refine ⟨_, launch_run hc h5 hM.bind hp (fun i hi => by
    rw [makeServer_classic hs hR hR0 h0 hq (hM.drawn i hi), hM.dpf i hi, hcols]), ?_⟩
  intro cfg S f k hcfg hS hsch hn hagree hel hk hkN
  have hc0 : 0 < cols := Nat.pos_of_mul_pos_left h0N
  have hdesc : Describable (plainDb data R cols sf.blockLen) := by
    refine ⟨?_, ?_, hb32, by simp [plainDb]⟩
    · exact lt_of_le_of_lt (Nat.le_mul_of_pos_right R hc0) hN
    · exact lt_of_le_of_lt (Nat.le_mul_of_pos_left cols hR0) hN
  have hlen : ((List.range (R * cols)).map (piece data sf.blockLen)).length = R * cols := by simp
  obtain ⟨start, h1, h2⟩ := clientMain_point (C := C) hread hsize hrand hS hc hcfg
    (fun _ => serves_mode C.dpf (if sf.servers = 2 then 2 else 0) (plainDb data R cols sf.blockLen) (addresses servers))
    hdesc hn (agree_fit hagree) (Or.inl hsch) (Or.inl ⟨rfl, hst⟩) hlen (by rw [hlen]; exact hN)
    (fun i hi _ => by
      simp only [List.getElem_map, List.getElem_range]
      exact hpl i (by simpa using hi))
    (k := k) (by rw [hel]; show 0 < sf.blockLen * 8; omega)
    (by rw [hel]; show Needed _ (sf.blockLen * 8) k; rw [Nat.mul_comm]; exact hk) (by rw [hlen]; exact hkN)
  rw [hlen] at h1
  refine ⟨start, h1, ?_⟩
  rw [pieces_taken data sf.blockLen h1] at h2
  exact h2

/-- A client that needs as many blocks as there are or more crashes. -/
theorem retrievePointPIR_crash {H : List Byte → List Byte} {dpf : Point.Dpf} {intn : Nat → Nat}
    {read : Nat → Nat → Res (List Byte)} {net : Nat → Net} {S : Nat → Schedule} {conns : List String}
    {info : Database.Info} {f : ClientFlags} {k : Nat} (h0 : 0 < info.blockSize * f.elemBitSize)
    (hk : Needed f.bitsToRetrieve (info.blockSize * f.elemBitSize) k) (hkb : info.numRows * info.numColumns ≤ k) :
    retrievePointPIR H dpf intn read net S conns info f = crash "invalid argument to Intn" := by
  unfold retrievePointPIR
  dsimp only
  rw [bitsToBlocks_eq h0 hk, ok_bind, if_pos hkb]

theorem clientMain_crash {C : ClientHost} {mode : Nat} {db : Database.Bytes} {net : Nat → Net} {S : Nat → Schedule}
    (hS : ∀ c, Fair (S c)) {servers config : List (List Char × Server)} (hc : Config servers) (hp : config.Perm servers)
    (hserv : ∀ c, PointServers (net c) C.dpf mode db (addresses servers)) (hdesc : Describable db)
    {f : ClientFlags} (hn : f.numServers ≤ servers.length) (hn0 : 0 < f.numServers)
    (hscheme : f.scheme = "pir-classic" ∨ f.scheme = "pir-merkle") {k : Nat} (h0 : 0 < db.info.blockSize * f.elemBitSize)
    (hk : Needed f.bitsToRetrieve (db.info.blockSize * f.elemBitSize) k)
    (hkb : db.info.numRows * db.info.numColumns ≤ k) :
    clientMain C config net S f = crash "invalid argument to Intn" := by
  have hlen : (addresses servers).length = servers.length := by simp [addresses]
  have hconn : ((addresses servers).take f.numServers).length = f.numServers := by
    rw [List.length_take, hlen]; omega
  have hsub : ∀ a ∈ (addresses servers).take f.numServers, a ∈ addresses servers := fun a ha => List.mem_of_mem_take ha
  unfold clientMain
  rw [C49_sorted_partial servers config hp hc.numbered]
  show (do
    let used ← slice (addresses servers) 0 f.numServers
    let conns ← orFatal (connect (net 0).dial used)
    orFatal (exec C net S conns f)) = _
  rw [slice_of_le (by omega) (by omega), ok_bind, Nat.sub_zero, List.drop_zero,
    connect_nodup (fun a ha => (hserv 0).dial a (hsub a ha)) (hc.distinct.sublist (List.take_sublist _ _)),
    Client.orFatal_ok, ok_bind]
  unfold exec
  rw [gather_eq (hS 0) (fun a ha => (hserv 0).info a (hsub a ha)), ok_bind, retrieve_replicate (by omega),
    Client.orFatal_ok, ok_bind, if_pos hscheme, transmit_report hdesc, retrievePointPIR_crash (info := pointInfo (report db)) h0 hk hkb]
  rfl

/-- C66: a client that asks for at least as many bits as the database holds panics. -/
theorem C66_whole_database (C : ClientHost) (servers : List (List Char × Server)) (host : Nat → Host)
    (config : Nat → List (List Char × Server)) (sf : ServerFlags) (R : Nat) (data : List Byte) (hc : Config servers)
    (h5 : servers.length ≤ 5) (hM : SetUp host servers.length C.dpf (sf.dbLen / 8) data)
    (hp : ∀ i, i < servers.length → (config i).Perm servers) (hs : sf.scheme = "pir-classic") (he : sf.elemBitSize = 8)
    (hb : 0 < sf.blockLen) (hb32 : sf.blockLen < 2 ^ 32) (h52 : sf.dbLen ≤ 2 ^ 52) (hR : Rows sf R)
    (h0N : 0 < R * (sf.dbLen / (8 * R * sf.blockLen))) (hN : R * (sf.dbLen / (8 * R * sf.blockLen)) < 2 ^ 32) :
    ∃ running, launch host config servers.length sf = ok running ∧
      ∀ (cfg : List (List Char × Server)) (S : Nat → Schedule) (f : ClientFlags), cfg.Perm servers →
        (∀ c, Fair (S c)) → f.scheme = "pir-classic" → 0 < f.numServers → f.numServers ≤ servers.length →
        f.elemBitSize = 8 → R * (sf.dbLen / (8 * R * sf.blockLen)) * (8 * sf.blockLen) ≤ f.bitsToRetrieve →
          (clientMain C cfg (fun _ => network running) S f).isCrash := by
  have hR0 : 0 < R := Nat.pos_of_mul_pos_right h0N
  have h0 : 0 < sf.elemBitSize * sf.blockLen := by rw [he]; omega
  have hq : sf.dbLen / (sf.elemBitSize * sf.blockLen) ≤ 2 ^ 52 := le_trans (Nat.div_le_self _ _) h52
  generalize hcols : sf.dbLen / (8 * R * sf.blockLen) = cols at *
  refine ⟨_, launch_run hc h5 hM.bind hp (fun i hi => by
    rw [makeServer_classic hs hR hR0 h0 hq (hM.drawn i hi), hM.dpf i hi, hcols]), ?_⟩
  intro cfg S f hcfg hS hsch hn0 hn hel hbits
  have hc0 : 0 < cols := Nat.pos_of_mul_pos_left h0N
  have hdesc : Describable (plainDb data R cols sf.blockLen) := by
    refine ⟨?_, ?_, hb32, by simp [plainDb]⟩
    · exact lt_of_le_of_lt (Nat.le_mul_of_pos_right R hc0) hN
    · exact lt_of_le_of_lt (Nat.le_mul_of_pos_left cols hR0) hN
  have hu : 0 < sf.blockLen * 8 := by omega
  obtain ⟨k, hk⟩ : ∃ k, Needed f.bitsToRetrieve (sf.blockLen * 8) k := by
    refine ⟨(f.bitsToRetrieve + (sf.blockLen * 8) - 1) / (sf.blockLen * 8), fun m => ?_⟩
    rw [Nat.div_le_iff_le_mul_add_pred hu]
    rw [Nat.mul_comm m]
    omega
  rw [clientMain_crash (C := C) (db := plainDb data R cols sf.blockLen) hS hc hcfg
    (fun _ => serves_mode C.dpf (if sf.servers = 2 then 2 else 0) _ (addresses servers)) hdesc hn hn0 (Or.inl hsch)
    (k := k) (by rw [hel]; exact hu) (by rw [hel]; exact hk) ?_]
  · trivial
  · show R * cols ≤ k
    by_contra hlt
    have h1 := (hk (R * cols - 1)).mpr (by omega)
    have h2 : (R * cols - 1) * (sf.blockLen * 8) + sf.blockLen * 8 = R * cols * (8 * sf.blockLen) := by
      rw [← Nat.succ_mul, Nat.succ_eq_add_one, Nat.sub_add_cancel (by omega), Nat.mul_comm 8]
    omega

/-! ### With authentication -/

theorem createRandomMerkle_size {H : List Byte → List Byte} {ck : List Byte → Merkle.U64} {read : Nat → Res (List Byte)}
    {dbLen numRows blockLen : Nat} {data : List Byte} {db : Database.Bytes}
    (hread : read (dbLen / (8 * blockLen) * blockLen) = ok data)
    (hdl : data.length = dbLen / (8 * blockLen) * blockLen) (h0 : 0 < dbLen / (8 * blockLen))
    (hsize : dbLen / (8 * blockLen) ≤ 2 ^ 31)
    (hck : Merkle.ChecksumsFaithful ck (recordsOf data (dbLen / (8 * blockLen)) blockLen))
    (h : createRandomMerkle H ck read dbLen numRows blockLen = ok db) :
    db.info.proofLen = 32 * Nat.clog 2 (recordsOf data (dbLen / (8 * blockLen)) blockLen).dedup.length + 8 ∧
      db.info.blockSize = blockLen + db.info.proofLen + 1 := by
  generalize hN : dbLen / (8 * blockLen) = N at *
  have hreclen : (recordsOf data N blockLen).length = N := by simp [recordsOf]
  obtain ⟨t, ht, hT⟩ := Merkle.newUsing_spec H 32 ck (recordsOf data N blockLen)
    (by intro h; rw [h] at hreclen; simp at hreclen; omega) (by omega)
  have hpl : Merkle.encodedProofLength 32 t = 32 * Nat.clog 2 (recordsOf data N blockLen).dedup.length + 8 := by
    unfold Merkle.encodedProofLength Merkle.ceilLog2
    rw [hT.map.length, Merkle.dedup_map_length hck, Nat.mul_comm]
  unfold createRandomMerkle at h
  split at h
  · cases h
  dsimp only at h
  rw [hN, hread, ok_bind, cutBlocks_eq data N blockLen (by omega), ok_bind] at h
  have ht' : Merkle.newUsing H 32 ck ((List.range N).map (fun i => (data.drop (i * blockLen)).take blockLen)) = ok t := ht
  rw [ht'] at h
  dsimp only at h
  split at h
  · cases h
  simp only [bind_eq_ok] at h
  obtain ⟨bl, -, en, -, ro, -, h⟩ := h
  simp only [ok.injEq] at h
  rw [← h]
  exact ⟨hpl, rfl⟩

/-- C66 (positive part) for the experiment with authentication: when the database has distinct blocks with distinct
checksums, every repetition finds the same consecutive blocks of the random bytes. The number of blocks is computed with the
length of a block including its proof. Missing: retrieving the whole database. -/
theorem C66_merkle_partial (C : ClientHost) (hH : ∀ s, (C.H s).length = 32) (ck : List Byte → Merkle.U64) (size : Nat → Nat)
    (servers : List (List Char × Server)) (host : Nat → Host)
    (config : Nat → List (List Char × Server)) (sf : ServerFlags) (R N : Nat) (data : List Byte)
    (hread : ∀ c, Point.Delivers (C.read c)) (hsize : KeySize C.dpf size) (hrand : Bounded C.rand) (hc : Config servers)
    (h5 : servers.length ≤ 5) (hNd : N = sf.dbLen / (8 * sf.blockLen))
    (hM : SetUp host servers.length C.dpf (N * sf.blockLen) data)
    (hMH : ∀ i, i < servers.length → (host i).H = C.H) (hMck : ∀ i, i < servers.length → (host i).ck = ck)
    (hp : ∀ i, i < servers.length → (config i).Perm servers) (hs : sf.scheme = "pir-merkle") (he : sf.elemBitSize = 8)
    (hb : 0 < sf.blockLen) (hb32 : sf.blockLen < 2 ^ 31) (hR : Rows sf R) (hRN : R ≤ N) (h0N : 0 < N) (hN : N ≤ 2 ^ 31)
    (hdist : ((List.range N).map (fun i => ck (piece data sf.blockLen i))).Nodup) :
    ∃ running, launch host config servers.length sf = ok running ∧
      ∀ (cfg : List (List Char × Server)) (S : Nat → Schedule) (f : ClientFlags) (k : Nat), cfg.Perm servers →
        (∀ c, Fair (S c)) → f.scheme = "pir-merkle" → f.numServers ≤ servers.length → ServersAgree C.dpf sf f →
        f.elemBitSize = 8 → Needed f.bitsToRetrieve (8 * (sf.blockLen + 32 * Nat.clog 2 N + 9)) k → k < R * (N / R) →
        ∃ start, start + k < R * (N / R) ∧
          clientMain C cfg (fun _ => network running) S f = ok (.blocks (List.replicate f.repetitions
            ⟨k * cost size f.numServers (N / R), (List.range k).map (fun i => piece data sf.blockLen (start + i))⟩)) := by
  have h0 : 0 < sf.elemBitSize * sf.blockLen := by rw [he]; omega
  have hq : sf.dbLen / (sf.elemBitSize * sf.blockLen) ≤ 2 ^ 52 := by
    rw [he, ← hNd]; exact le_trans hN (by norm_num)
  have hR0 : 0 < R := by
    rcases Nat.eq_zero_or_pos R with h | h
    · subst h
      unfold Rows at hR
      split at hR
      · cases hR
      · have := (hR 0).mpr le_rfl
        rw [he, ← hNd] at this
        omega
    · exact h
  have hrec : recordsOf data N sf.blockLen = (List.range N).map (piece data sf.blockLen) := rfl
  have hnd : (recordsOf data N sf.blockLen).Nodup := by
    rw [hrec]
    have : (List.range N).map (fun i => ck (piece data sf.blockLen i)) = ((List.range N).map (piece data sf.blockLen)).map ck := by
      rw [List.map_map]; rfl
    rw [this] at hdist
    exact List.Nodup.of_map _ hdist
  have hck : Merkle.ChecksumsFaithful ck (recordsOf data N sf.blockLen) := by
    intro a ha b hb hab
    rw [hrec] at ha hb
    refine List.inj_on_of_nodup_map (f := ck) (l := (List.range N).map (piece data sf.blockLen)) ?_ ha hb hab
    rw [List.map_map]
    exact hdist
  have hreclen : (recordsOf data N sf.blockLen).length = N := by simp [recordsOf]
  have hclog : Nat.clog 2 (recordsOf data N sf.blockLen).dedup.length = Nat.clog 2 N := by
    rw [hnd.dedup, hreclen]
  by_cases hserv0 : servers.length = 0
  · refine ⟨[], by rw [hserv0]; rfl, ?_⟩
    intro cfg S f k _ _ _ hn hagree
    exfalso
    rcases hagree with ⟨-, h, -⟩ | ⟨-, h, -⟩ <;> omega
  have hd0 := hM.drawn 0 (by omega)
  have hsz := hM.full
  subst hNd
  obtain ⟨db, hdb, hdR, hdC, hholds⟩ := createRandomMerkle_holds C.H hH ck (host 0).prg sf.dbLen R sf.blockLen hR0 hb data
    hd0 hsz h0N hN hck hclog
  obtain ⟨hpl, hbs⟩ := createRandomMerkle_size hd0 hsz h0N hN hck hdb
  rw [hclog] at hpl
  generalize hN' : sf.dbLen / (8 * sf.blockLen) = N at *
  have hmake : ∀ i, i < servers.length → makeServer (host i) i sf = ok (pointDbInfo db,
      Point.answer C.dpf (if sf.servers = 2 then 2 else 0) db) := by
    intro i hi
    unfold makeServer
    rw [numRows_eq (p := [112, 105, 114]) (by rw [hs]; exact first3_merkle) (by rw [first3_cmp]; decide) h0 hq hR, ok_bind,
      if_neg (by rw [hs]; decide), if_pos hs, hMH i hi, hMck i hi, hM.dpf i hi]
    have : createRandomMerkle C.H ck (host i).prg sf.dbLen R sf.blockLen = ok db := by
      rw [← hdb]
      unfold createRandomMerkle
      dsimp only
      rw [hN', hM.drawn i hi, hd0]
    rw [this]
    rfl
  refine ⟨_, launch_run hc h5 hM.bind hp hmake, ?_⟩
  intro cfg S f k hcfg hS hsch hn hagree hel hk hkN
  have hle : R * (N / R) ≤ N := Nat.mul_div_le N R
  have hlen : ((recordsOf data N sf.blockLen).take (R * (N / R))).length = R * (N / R) := by
    rw [List.length_take, hreclen]; omega
  have hcl : Nat.clog 2 N ≤ 31 := Nat.clog_le_of_le_pow hN
  have hc0 : 0 < N / R := Nat.div_pos hRN hR0
  have hdesc : Describable db := by
    refine ⟨?_, ?_, ?_, ?_⟩
    · rw [hdR]; omega
    · rw [hdC]; have := Nat.div_le_self N R; omega
    · rw [hbs, hpl]; omega
    · rw [hpl]; omega
  have hbs' : db.info.blockSize = sf.blockLen + 32 * Nat.clog 2 N + 9 := by rw [hbs, hpl]; omega
  obtain ⟨start, h1, h2⟩ := clientMain_point (C := C) hread hsize hrand hS hc hcfg
    (fun _ => serves_mode C.dpf (if sf.servers = 2 then 2 else 0) db (addresses servers))
    hdesc hn (agree_fit hagree) (Or.inr hsch) (Or.inr hholds) (by rw [hlen, hdR, hdC]) (by rw [hlen]; omega)
    (fun i hi ht => by rw [hholds.1] at ht; exact absurd ht (by decide))
    (k := k) (by rw [hel, hbs']; omega)
    (by rw [hel, hbs', Nat.mul_comm]; exact hk) (by rw [hlen]; exact hkN)
  rw [hlen] at h1
  refine ⟨start, h1, ?_⟩
  rw [hdC] at h2
  rw [h2]
  congr 4
  rw [hrec]
  apply List.ext_getElem
  · simp; omega
  · intro i h1 h2
    simp

/-! ### How much of the database there is, and how much is retrieved -/

/-- C66: the database of a server has a whole number of blocks per row. Of the blocks asked for, the remainder of their
number modulo the number of rows is left out. -/
theorem C66_blocks (M : Host) (f : ServerFlags) (hs : f.scheme = "pir-classic") (he : f.elemBitSize = 8)
    (hb : 0 < f.blockLen) (h52 : f.dbLen ≤ 2 ^ 52) {R : Nat} (hR : Rows f R) (hR0 : 0 < R) {data : List Byte}
    (hd : M.prg (f.dbLen / 8) = ok data) (sid : Nat) :
    ∃ info answer, makeServer M sid f = ok (info, answer) ∧ info.numRows = R ∧
      info.numRows * info.numColumns + f.dbLen / (8 * f.blockLen) % R = f.dbLen / (8 * f.blockLen) := by
  have h0 : 0 < f.elemBitSize * f.blockLen := by rw [he]; omega
  refine ⟨_, _, makeServer_classic hs hR hR0 h0 (le_trans (Nat.div_le_self _ _) h52) hd sid, rfl, ?_⟩
  show R * (f.dbLen / (8 * R * f.blockLen)) + f.dbLen / (8 * f.blockLen) % R = f.dbLen / (8 * f.blockLen)
  rw [show 8 * R * f.blockLen = 8 * f.blockLen * R by ring, ← Nat.div_div_eq_div_mul]
  exact Nat.div_add_mod _ _

/-- The bits that were found. -/
def bitsFound (r : Round (List (List Byte))) : Nat := 8 * (r.found.map List.length).sum

theorem bitsFound_pieces {data : List Byte} {len start k N sent : Nat} (hN : N * len ≤ data.length) (h : start + k ≤ N) :
    bitsFound ⟨sent, (List.range k).map (fun i => piece data len (start + i))⟩ = k * (8 * len) := by
  unfold bitsFound
  dsimp only
  have : ((List.range k).map (fun i => piece data len (start + i))).map List.length = List.replicate k len := by
    apply List.ext_getElem
    · simp
    · intro i h1 h2
      have hi : i < k := by simpa using h1
      have : (start + i + 1) * len ≤ N * len := Nat.mul_le_mul_right _ (by omega)
      rw [Nat.succ_mul] at this
      simp [piece]
      omega
  rw [this, List.sum_replicate, smul_eq_mul]
  ring

/-- C66: without authentication, a repetition retrieves at least the bits asked for, and less than a block more. -/
theorem C66_enough {data : List Byte} {len start k N bits sent : Nat} (hN : N * len ≤ data.length) (h : start + k ≤ N)
    (hl : 0 < len) (hk : Needed bits (8 * len) k) :
    bits ≤ bitsFound ⟨sent, (List.range k).map (fun i => piece data len (start + i))⟩ ∧
      bitsFound ⟨sent, (List.range k).map (fun i => piece data len (start + i))⟩ < bits + 8 * len := by
  rw [bitsFound_pieces hN h]
  refine ⟨(hk k).mpr le_rfl, ?_⟩
  rcases Nat.eq_zero_or_pos k with rfl | hk0
  · omega
  · by_contra hc
    have h1 : bits ≤ (k - 1) * (8 * len) := by
      have : (k - 1) * (8 * len) + 8 * len = k * (8 * len) := by rw [← Nat.succ_mul]; congr 1; omega
      omega
    have := (hk (k - 1)).mp h1
    omega

/-- C66: with authentication, the number of blocks is computed as if the proofs were data: when the bits asked for are a
multiple of the length of a block with its proof, every repetition retrieves fewer bits than asked for. -/
theorem C66_merkle_short (C : ClientHost) (hH : ∀ s, (C.H s).length = 32) (ck : List Byte → Merkle.U64) (size : Nat → Nat)
    (servers : List (List Char × Server)) (host : Nat → Host)
    (config : Nat → List (List Char × Server)) (sf : ServerFlags) (R N : Nat) (data : List Byte)
    (hread : ∀ c, Point.Delivers (C.read c)) (hsize : KeySize C.dpf size) (hrand : Bounded C.rand) (hc : Config servers)
    (h5 : servers.length ≤ 5) (hNd : N = sf.dbLen / (8 * sf.blockLen))
    (hM : SetUp host servers.length C.dpf (N * sf.blockLen) data)
    (hMH : ∀ i, i < servers.length → (host i).H = C.H) (hMck : ∀ i, i < servers.length → (host i).ck = ck)
    (hp : ∀ i, i < servers.length → (config i).Perm servers) (hs : sf.scheme = "pir-merkle") (he : sf.elemBitSize = 8)
    (hb : 0 < sf.blockLen) (hb32 : sf.blockLen < 2 ^ 31) (hR : Rows sf R) (hRN : R ≤ N) (h0N : 0 < N) (hN : N ≤ 2 ^ 31)
    (hdist : ((List.range N).map (fun i => ck (piece data sf.blockLen i))).Nodup) :
    ∃ running, launch host config servers.length sf = ok running ∧
      ∀ (cfg : List (List Char × Server)) (S : Nat → Schedule) (f : ClientFlags) (k : Nat), cfg.Perm servers →
        (∀ c, Fair (S c)) → f.scheme = "pir-merkle" → f.numServers ≤ servers.length → ServersAgree C.dpf sf f →
        f.elemBitSize = 8 → f.bitsToRetrieve = k * (8 * (sf.blockLen + 32 * Nat.clog 2 N + 9)) → 0 < k → k < R * (N / R) →
        ∃ rounds, clientMain C cfg (fun _ => network running) S f = ok (.blocks rounds) ∧ rounds.length = f.repetitions ∧
          ∀ r ∈ rounds, bitsFound r = k * (8 * sf.blockLen) ∧ bitsFound r < f.bitsToRetrieve := by
  obtain ⟨running, hr, h⟩ := C66_merkle_partial C hH ck size servers host config sf R N data hread hsize hrand hc h5 hNd hM
    hMH hMck hp hs he hb hb32 hR hRN h0N hN hdist
  refine ⟨running, hr, ?_⟩
  intro cfg S f k hcfg hS hsch hn hagree hel hbits hk0 hkN
  obtain ⟨start, h1, h2⟩ := h cfg S f k hcfg hS hsch hn hagree hel (by
    rw [hbits]
    intro m
    exact Nat.mul_le_mul_right_iff (by omega)) hkN
  refine ⟨_, h2, by simp, ?_⟩
  intro r hr
  rw [List.eq_of_mem_replicate hr]
  have hle : R * (N / R) ≤ N := Nat.mul_div_le N R
  rw [bitsFound_pieces (N := N) (by rw [hM.full]) (by omega)]
  refine ⟨rfl, ?_⟩
  rw [hbits]
  exact (Nat.mul_lt_mul_left hk0).mpr (by omega)

/-! ### Concrete experiments -/

/-- A generator that counts up. -/
def countRand : MathRand := ⟨Nat, Int.toNat, fun n st => (st % n, st + 1)⟩

theorem countRand_bounded : Bounded countRand := fun _ _ h => Nat.mod_lt _ h

/-- A server machine for the examples. -/
def exHost (prg : Nat → Res (List Byte)) : Host where
  H := Merkle.toyHash
  ck := Merkle.fnv1a
  dpf := Point.plainDpf
  rand := countRand
  prg := prg
  unix := dayTime
  queryHash := id
  ungob _ := err "not a query"
  bind _ := ok ()
  env := exWorld.env0
  now := exWorld.now0
  buf := exWorld.buf0

/-- A client machine for the examples. -/
def exClient : ClientHost where
  H := Merkle.toyHash
  dpf := Point.plainDpf
  rand := countRand
  randState := (1 : Nat)
  read _ := Point.sevens
  worlds _ := exWorld
  gob _ := []

/-- The bytes 0, 1, 2, … -/
def upward (n : Nat) : Res (List Byte) := ok ((List.range n).map (BitVec.ofNat 8))

theorem plainDpf_size : KeySize Point.plainDpf (fun d => 2 ^ d / 8 + 2) := by
  intro a d k0 k1 h
  simp only [Point.plainDpf, ok.injEq, Prod.mk.injEq] at h
  rw [← h.1, ← h.2]
  simp [Point.unitVec]

theorem exHost_setUp (n len : Nat) :
    SetUp (fun _ => exHost upward) n exClient.dpf len ((List.range len).map (BitVec.ofNat 8)) :=
  ⟨fun _ _ _ => rfl, fun _ _ => rfl, fun _ _ => rfl, by simp⟩

/-- Eight blocks of two bytes in a square of nine: three rows, and so two columns. -/
def exServer (servers : Nat) : ServerFlags := ⟨"pir-classic", 8, 128, 0, 2, servers⟩

theorem exServer_rows (s : Nat) : Rows (exServer s) 3 := by
  unfold Rows
  rw [if_neg (by simp [exServer])]
  intro m
  simp only [exServer, show 128 / (8 * 2) = 8 from rfl]
  constructor
  · intro h
    by_contra hm
    have : m * m ≤ 2 * 2 := Nat.mul_le_mul (by omega) (by omega)
    omega
  · intro h
    exact le_trans (by decide) (Nat.mul_le_mul h h)

theorem needed_16 (k : Nat) : Needed (16 * k) (8 * 2) k := by
  intro m
  omega

/-- C66 as claimed is false: retrieving all blocks panics. -/
theorem C66_refuted : ¬ C66_Statement := by
  intro h
  obtain ⟨running, hr, h⟩ := h exClient _ (exServers 3) (fun _ => exHost upward) (fun _ => exServers 3) (exServer 3) 3 _
    (fun _ => Point.sevens_delivers) plainDpf_size countRand_bounded exServers_config.1 (by decide) (exHost_setUp _ _)
    (fun _ _ => List.Perm.refl _) rfl rfl (by decide) (by decide) (by decide) (exServer_rows 3) (by decide) (by decide)
  obtain ⟨running', hr', h'⟩ := C66_whole_database exClient (exServers 3) (fun _ => exHost upward) (fun _ => exServers 3)
    (exServer 3) 3 _ exServers_config.1 (by decide) (exHost_setUp _ _)
    (fun _ _ => List.Perm.refl _) rfl rfl (by decide) (by decide) (by decide) (exServer_rows 3) (by decide) (by decide)
  rw [hr, ok.injEq] at hr'
  subst hr'
  obtain ⟨start, -, h⟩ := h (exServers 3) (fun _ => backwards) ⟨1, 3, 8, 96, "pir-classic", 0⟩ 6 (List.Perm.refl _)
    (fun _ => backwards_fair) rfl (by decide) (Or.inr (by decide)) rfl (needed_16 6) (by decide)
  have := h' (exServers 3) (fun _ => backwards) ⟨1, 3, 8, 96, "pir-classic", 0⟩ (List.Perm.refl _)
    (fun _ => backwards_fair) rfl (by decide) (by decide) rfl (by decide)
  rw [h] at this
  exact this

/-- Three servers, two repetitions of three blocks. -/
example : ∃ running, launch (fun _ => exHost upward) (fun _ => (exServers 3).reverse) 3 (exServer 3) = ok running ∧
    ∃ start, start + 3 < 6 ∧ clientMain exClient (exServers 3) (fun _ => network running) (fun _ => backwards)
      ⟨2, 3, 8, 48, "pir-classic", 0⟩ = ok (.blocks (List.replicate 2 ⟨3 * (3 * (2 / 8 + 1)),
        (List.range 3).map (fun i => [BitVec.ofNat 8 (2 * (start + i)), BitVec.ofNat 8 (2 * (start + i) + 1)])⟩)) := by
  obtain ⟨running, hr, h⟩ := C66_point_partial exClient _ (exServers 3) (fun _ => exHost upward)
    (fun _ => (exServers 3).reverse) (exServer 3) 3 _
    (fun _ => Point.sevens_delivers) plainDpf_size countRand_bounded exServers_config.1 (by decide) (exHost_setUp _ _)
    (fun _ _ => List.reverse_perm _) rfl rfl (by decide) (by decide) (by decide) (exServer_rows 3) (by decide) (by decide)
  obtain ⟨start, hs, h⟩ := h (exServers 3) (fun _ => backwards) ⟨2, 3, 8, 48, "pir-classic", 0⟩ 3 (List.Perm.refl _)
    (fun _ => backwards_fair) rfl (by decide) (Or.inr (by decide)) rfl (needed_16 3) (by decide)
  refine ⟨running, hr, start, hs, ?_⟩
  rw [h]
  have hs : start < 3 := by
    have : start + 3 < 6 := hs
    omega
  interval_cases start <;> rfl

/-- Two servers and the keys of a DPF. -/
example : ∃ running, launch (fun _ => exHost upward) (fun _ => (exServers 2).reverse) 2 (exServer 2) = ok running ∧
    ∃ start, start + 1 < 6 ∧ clientMain exClient (exServers 2) (fun _ => network running) (fun _ => backwards)
      ⟨1, 2, 8, 9, "pir-classic", 0⟩ = ok (.blocks [⟨1 * (2 * (2 ^ 1 / 8 + 2)),
        [[BitVec.ofNat 8 (2 * start), BitVec.ofNat 8 (2 * start + 1)]]⟩]) := by
  obtain ⟨running, hr, h⟩ := C66_point_partial exClient _ (exServers 2) (fun _ => exHost upward)
    (fun _ => (exServers 2).reverse) (exServer 2) 3 _
    (fun _ => Point.sevens_delivers) plainDpf_size countRand_bounded exServers_config.2.2 (by decide) (exHost_setUp _ _)
    (fun _ _ => List.reverse_perm _) rfl rfl (by decide) (by decide) (by decide) (exServer_rows 2) (by decide) (by decide)
  obtain ⟨start, hs, h⟩ := h (exServers 2) (fun _ => backwards) ⟨1, 2, 8, 9, "pir-classic", 0⟩ 1 (List.Perm.refl _)
    (fun _ => backwards_fair) rfl (by decide) (Or.inl ⟨rfl, rfl, Point.plainDpf_correct⟩) rfl
    (by intro m; show 9 ≤ m * 16 ↔ 1 ≤ m; omega) (by decide)
  refine ⟨running, hr, start, hs, ?_⟩
  rw [h]
  have hs : start < 5 := by
    have : start + 1 < 6 := hs
    omega
  interval_cases start <;> rfl

/-- Three servers with eight authenticated blocks of two bytes, of which the matrix of three rows keeps six: 32·3 + 11 bytes
with the proof, so 900 bits need two blocks, which have 32 bits of data. -/
example : ∃ running, launch (fun _ => exHost upward) (fun _ => exServers 3) 3
      ⟨"pir-merkle", 8, 128, 0, 2, 3⟩ = ok running ∧
    ∃ start, start + 2 < 6 ∧ clientMain exClient (exServers 3) (fun _ => network running) (fun _ => backwards)
      ⟨1, 3, 8, 900, "pir-merkle", 0⟩ = ok (.blocks [⟨2 * (3 * (2 / 8 + 1)),
        (List.range 2).map (fun i => [BitVec.ofNat 8 (2 * (start + i)), BitVec.ofNat 8 (2 * (start + i) + 1)])⟩]) := by
  have hclog : Nat.clog 2 8 = 3 := by decide
  obtain ⟨running, hr, h⟩ := C66_merkle_partial exClient Merkle.toyHash_length Merkle.fnv1a _ (exServers 3)
    (fun _ => exHost upward) (fun _ => exServers 3) ⟨"pir-merkle", 8, 128, 0, 2, 3⟩ 3 8 _
    (fun _ => Point.sevens_delivers) plainDpf_size countRand_bounded exServers_config.1 (by decide) rfl (exHost_setUp _ _)
    (fun _ _ => rfl) (fun _ _ => rfl) (fun _ _ => List.Perm.refl _) rfl rfl (by decide) (by decide) (exServer_rows 3)
    (by decide) (by decide) (by decide) (by decide)
  obtain ⟨start, hs, h⟩ := h (exServers 3) (fun _ => backwards) ⟨1, 3, 8, 900, "pir-merkle", 0⟩ 2 (List.Perm.refl _)
    (fun _ => backwards_fair) rfl (by decide) (Or.inr (by decide)) rfl
    (by rw [hclog]; intro m; show 900 ≤ m * (8 * (2 + 32 * 3 + 9)) ↔ 2 ≤ m; omega) (by decide)
  refine ⟨running, hr, start, hs, ?_⟩
  rw [h]
  have hs : start < 4 := by
    have : start + 2 < 6 := hs
    omega
  interval_cases start <;> rfl

/-- The rows of the experiments with two gigabytes: of 2097152 blocks of 1024 bytes, 449 are left out. -/
example : ∃ info answer, makeServer { exHost upward with prg := fun _ => ok [] } 0
      ⟨"pir-classic", 8, 17179870000, 0, 1024, 3⟩ = ok (info, answer) ∧
    info.numRows * info.numColumns + 449 = 2097152 := by
  obtain ⟨info, answer, h, h1, h2⟩ := C66_blocks { exHost upward with prg := fun _ => ok [] }
    ⟨"pir-classic", 8, 17179870000, 0, 1024, 3⟩ rfl rfl (by decide) (by decide) (R := 1449) (by
      unfold Rows
      rw [if_neg (by decide)]
      intro m
      show 2097152 ≤ m * m ↔ 1449 ≤ m
      constructor
      · intro h
        by_contra hm
        have : m * m ≤ 1448 * 1448 := Nat.mul_le_mul (by omega) (by omega)
        omega
      · intro h
        have := Nat.mul_le_mul h h
        omega) (by decide) rfl 0
  exact ⟨info, answer, h, h2⟩

/-- The hypotheses of `C66_enough`. -/
example : 20 ≤ bitsFound ⟨7, (List.range 2).map (fun i => piece (List.replicate 9 1) 2 (1 + i))⟩ :=
  (C66_enough (N := 4) (by decide) (by decide) (by decide) (by intro m; omega)).1

/-- Two authenticated blocks of two bytes for 1712 bits. -/
example : ∃ running, launch (fun _ => exHost upward) (fun _ => exServers 3) 3
      ⟨"pir-merkle", 8, 128, 0, 2, 3⟩ = ok running ∧
    ∃ rounds, clientMain exClient (exServers 3) (fun _ => network running) (fun _ => backwards)
      ⟨5, 3, 8, 1712, "pir-merkle", 0⟩ = ok (.blocks rounds) ∧ rounds.length = 5 ∧ ∀ r ∈ rounds, bitsFound r = 32 := by
  have hclog : Nat.clog 2 8 = 3 := by decide
  obtain ⟨running, hr, h⟩ := C66_merkle_short exClient Merkle.toyHash_length Merkle.fnv1a _ (exServers 3)
    (fun _ => exHost upward) (fun _ => exServers 3) ⟨"pir-merkle", 8, 128, 0, 2, 3⟩ 3 8 _
    (fun _ => Point.sevens_delivers) plainDpf_size countRand_bounded exServers_config.1 (by decide) rfl (exHost_setUp _ _)
    (fun _ _ => rfl) (fun _ _ => rfl) (fun _ _ => List.Perm.refl _) rfl rfl (by decide) (by decide) (exServer_rows 3)
    (by decide) (by decide) (by decide) (by decide)
  obtain ⟨rounds, e, hl, hv⟩ := h (exServers 3) (fun _ => backwards) ⟨5, 3, 8, 1712, "pir-merkle", 0⟩ 2 (List.Perm.refl _)
    (fun _ => backwards_fair) rfl (by decide) (Or.inr (by decide)) rfl (by rw [hclog]; rfl) (by decide) (by decide)
  exact ⟨running, hr, rounds, e, hl, fun r h => (hv r h).1⟩

end Verif.Simul
