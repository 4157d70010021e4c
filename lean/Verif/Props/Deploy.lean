import Verif.Lemmas.Deploy
import Verif.Props.ClientAuth
import Verif.Props.ClientStats

/-! # C64: from the key dump and the configuration to what the clients show -/

namespace Verif.Deploy
open Res Verif.Cmd Verif.Pgp Verif.Pgp.Spec Verif.Query Verif.Client Verif.Client.Spec Verif.MerklePir Verif.Point.Spec
  Verif.Layout Verif.Deploy.Spec

/-- C64 as claimed: configure any number of servers, start the server program for each of them on the same key files, and
the client programs show every key in these files. -/
def C64_Statement : Prop :=
  ∀ (L : Lib) (W : Predicate.World) (gob : Predicate.Msg → List Byte) (mk : Int → Time), Point.Delivers L.read →
    HashLong L.hash → Correct L.dpf → ∀ servers : List (List Char × Server), Config servers → 2 ≤ servers.length →
    ∀ files : List (List Char × List Key), InOrder files → ∀ (machine : Nat → Machine)
      (config : Nat → List (List Char × Server)), (∀ i, i < servers.length → Installed L files (machine i)) →
    (∀ i, i < servers.length → (config i).Perm servers) → ∀ k : Nat, k ≤ files.length →
    10 ≤ (keysIn files k).length → (keysIn files k).length ≤ 2 ^ 19 → (∀ key ∈ keysIn files k, key.packet.length ≤ 8000) →
    ((keysIn files k).map (·.id)).Nodup → ∀ parse : Key → Entity, Parses L.readRing parse (keysIn files k) →
    NamedBy L.lower parse (keysIn files k) →
    ∃ running, startAll machine config servers.length k "pointPIR" = ok running ∧
      ∀ cfg : List (List Char × Server), cfg.Perm servers → ∃ addrs, loadConfig cfg = ok addrs ∧
        ∀ S : Schedule, Fair S → ∀ key ∈ keysIn files k, ∀ (id : String) (a : List Byte), id ≠ "" → bytes id = key.id →
          L.armor (parse key) = ok a → ShowKey L W gob mk (network running) S addrs id a

/-- C64, what holds: with one server, or three to five, all of them start and the programs show the keys of the files
loaded, whatever the order in which the configuration, the directory, the hash table and the answers are enumerated; for an
identifier without a key they say so, or crash if its bucket is empty. Missing from the full claim: two servers
(`C64_two_servers_show_nothing`) and more than five (`C64_refuted`), for which it is false. -/
theorem C64_lookup_partial (L : Lib) (W : Predicate.World) (gob : Predicate.Msg → List Byte) (mk : Int → Time)
    (hread : Point.Delivers L.read) (hh : HashLong L.hash) (servers : List (List Char × Server)) (hc : Config servers)
    (hn : servers.length = 1 ∨ 3 ≤ servers.length ∧ servers.length ≤ 5) (files : List (List Char × List Key))
    (hf : InOrder files) (machine : Nat → Machine) (config : Nat → List (List Char × Server))
    (hM : ∀ i, i < servers.length → Installed L files (machine i))
    (hp : ∀ i, i < servers.length → (config i).Perm servers) (k : Nat) (hk : k ≤ files.length)
    (h10 : 10 ≤ (keysIn files k).length) (h32 : (keysIn files k).length ≤ 2 ^ 32)
    (hnd : ((keysIn files k).map (·.id)).Nodup) (R C : Nat)
    (hd : calculateNumRowsAndColumns (preSquareNumBlocks (keysIn files k).length) true = (R, C))
    (hB : ∀ p, p < R * C → (packets (bucket L.hash (R * C) (keysIn files k) p)).length ≤ 2 ^ 32 - 2048)
    (parse : Key → Entity) (hparse : Parses L.readRing parse (keysIn files k))
    (hnamed : NamedBy L.lower parse (keysIn files k)) :
    ∃ running, startAll machine config servers.length k "pointPIR" = ok running ∧
      ∀ cfg : List (List Char × Server), cfg.Perm servers → ∃ addrs, loadConfig cfg = ok addrs ∧ addrs.Nodup ∧
        ∀ S : Schedule, Fair S →
          (∀ key ∈ keysIn files k, ∀ (id : String) (a : List Byte), id ≠ "" → bytes id = key.id →
            L.armor (parse key) = ok a → ShowKey L W gob mk (network running) S addrs id a) ∧
          (∀ id : String, id ≠ "" → (∀ key ∈ keysIn files k, key.id ≠ bytes id) →
            (∃ key ∈ keysIn files k, position L.hash (R * C) key.id = position L.hash (R * C) (bytes id)) →
            SayNoKey L W gob mk (network running) S addrs id) ∧
          (∀ id : String, id ≠ "" →
            (∀ key ∈ keysIn files k, position L.hash (R * C) key.id ≠ position L.hash (R * C) (bytes id)) →
            Client.Spec.Crash L W gob mk (network running) S addrs id) := by
  have h0 : 0 < servers.length := by omega
  have hM0 := hM 0 h0
  obtain ⟨db, hdb, hshow⟩ := C60_lookup_partial L W gob mk hread hh (machine 0).sort hM0.sort (machine 0).order hM0.order
    (keysIn files k) true h10 h32 hnd parse hparse hnamed
  have hdesc := describable_bytes hh hM0.sort hM0.order h10 h32 hd hB hdb
  have hRC : db.info.numRows = R ∧ db.info.numColumns = C := by
    have h := hdb
    rw [generateRealKeyBytes_eq hh hM0.sort hM0.order (keysIn files k) h10 h32 true hd] at h
    simp only [ok.injEq] at h
    rw [← h]
    exact ⟨rfl, rfl⟩
  rw [hRC.1, hRC.2] at hshow
  have hl : ∀ i, i < servers.length → loadServer (machine i) ⟨(i : Nat), k, "pointPIR"⟩ =
      ok (pointDbInfo db, Point.answer L.dpf 0 db) := by
    intro i hi
    have hMi := hM i hi
    unfold loadServer
    rw [if_pos rfl]
    dsimp only
    rw [loadKeys_eq hf hMi hk, hMi.hash, hMi.dpf, orFatal_ok, ok_bind,
      C15_bytes L.hash (machine i).sort (machine 0).sort hMi.sort hM0.sort (machine i).order (machine 0).order hMi.order
        hM0.order (keysIn files k) (keysIn files k) (List.Perm.refl _) hnd true]
    rw [hdb, orFatal_ok, ok_bind]
  refine ⟨_, startAll_eq hc (by omega) hM hp hl, ?_⟩
  intro cfg hcfg
  refine ⟨addresses servers, C49_sorted_partial servers cfg hcfg hc.numbered, hc.distinct, ?_⟩
  intro S hS
  exact hshow hdesc _ S hS (addresses servers) 0 (Or.inl ⟨rfl, by simp [addresses]; omega, by simp [addresses]; omega⟩)
    (uniform_serves L.dpf db (addresses servers))

/-- C64 for the authenticated scheme. Missing from the full claim: as above, and tables in which so many buckets are equal
that the proofs are shorter than the tree is deep (see C13). -/
theorem C64_lookup_merkle_partial (L : Lib) (hH : ∀ s, (L.H s).length = 32) (ck : List Byte → Merkle.U64)
    (W : Predicate.World) (gob : Predicate.Msg → List Byte) (mk : Int → Time)
    (hread : Point.Delivers L.read) (hh : HashLong L.hash) (servers : List (List Char × Server)) (hc : Config servers)
    (hn : servers.length = 1 ∨ 3 ≤ servers.length ∧ servers.length ≤ 5) (files : List (List Char × List Key))
    (hf : InOrder files) (machine : Nat → Machine) (config : Nat → List (List Char × Server))
    (hM : ∀ i, i < servers.length → Installed L files (machine i) ∧ (machine i).ck = ck)
    (hp : ∀ i, i < servers.length → (config i).Perm servers) (k : Nat) (hk : k ≤ files.length)
    (h10 : 10 ≤ (keysIn files k).length) (h32 : (keysIn files k).length ≤ 2 ^ 32)
    (hnd : ((keysIn files k).map (·.id)).Nodup) (R C : Nat)
    (hd : calculateNumRowsAndColumns (preSquareNumBlocks (keysIn files k).length) true = (R, C))
    (hsize : R * C ≤ 2 ^ 31)
    (hB : ∀ p, p < R * C → (packets (bucket L.hash (R * C) (keysIn files k) p)).length ≤ 2 ^ 32 - 2048)
    (sort : List Key → List Key) (hs : SortsById sort)
    (hck : Merkle.ChecksumsFaithful ck (storedBlocks L.hash (R * C) (sort (keysIn files k))))
    (hdist : Nat.clog 2 (storedBlocks L.hash (R * C) (sort (keysIn files k))).dedup.length = Nat.clog 2 (R * C))
    (parse : Key → Entity) (hparse : Parses L.readRing parse (keysIn files k))
    (hnamed : NamedBy L.lower parse (keysIn files k)) :
    ∃ running, startAll machine config servers.length k "pointVPIR" = ok running ∧
      ∀ cfg : List (List Char × Server), cfg.Perm servers → ∃ addrs, loadConfig cfg = ok addrs ∧ addrs.Nodup ∧
        ∀ S : Schedule, Fair S →
          (∀ key ∈ keysIn files k, ∀ (id : String) (a : List Byte), id ≠ "" → bytes id = key.id →
            L.armor (parse key) = ok a → ShowKey L W gob mk (network running) S addrs id a) ∧
          (∀ id : String, id ≠ "" → (∀ key ∈ keysIn files k, key.id ≠ bytes id) →
            (∃ key ∈ keysIn files k, position L.hash (R * C) key.id = position L.hash (R * C) (bytes id)) →
            SayNoKey L W gob mk (network running) S addrs id) ∧
          (∀ id : String, id ≠ "" →
            (∀ key ∈ keysIn files k, position L.hash (R * C) key.id ≠ position L.hash (R * C) (bytes id)) →
            Client.Spec.Crash L W gob mk (network running) S addrs id) := by
  have h0 : 0 < servers.length := by omega
  have hM0 := (hM 0 h0).1
  have hsort := sorts_agree hs hM0.sort (List.Perm.refl (keysIn files k)) hnd
  obtain ⟨db, hdb, hshow⟩ := C60_lookup_merkle_partial L hH ck W gob mk hread hh (machine 0).sort hM0.sort (machine 0).order
    hM0.order (keysIn files k) true h10 h32 hnd R C hd hsize (hsort ▸ hck) (hsort ▸ hdist) parse hparse hnamed
  have hdesc := describable_merkle hh hM0.sort hM0.order h10 h32 hd hB hdb
  have hl : ∀ i, i < servers.length → loadServer (machine i) ⟨(i : Nat), k, "pointVPIR"⟩ =
      ok (pointDbInfo db, Point.answer L.dpf 0 db) := by
    intro i hi
    obtain ⟨hMi, hci⟩ := hM i hi
    unfold loadServer
    rw [if_neg (show ¬ ("pointVPIR" : String) = "pointPIR" by decide), if_pos rfl]
    dsimp only
    rw [loadKeys_eq hf hMi hk, hMi.hash, hMi.dpf, hMi.digest, hci, orFatal_ok, ok_bind,
      C15_merkle L.H ck L.hash (machine i).sort (machine 0).sort hMi.sort hM0.sort (machine i).order (machine 0).order
        hMi.order hM0.order (keysIn files k) (keysIn files k) (List.Perm.refl _) hnd true]
    rw [hdb, orFatal_ok, ok_bind]
  refine ⟨_, startAll_eq hc (by omega) (fun i hi => (hM i hi).1) hp hl, ?_⟩
  intro cfg hcfg
  refine ⟨addresses servers, C49_sorted_partial servers cfg hcfg hc.numbered, hc.distinct, ?_⟩
  intro S hS
  exact hshow hdesc _ S hS (addresses servers) 0 (Or.inl ⟨rfl, by simp [addresses]; omega, by simp [addresses]; omega⟩)
    (uniform_serves L.dpf db (addresses servers))

/-! ### Starting a server -/

/-- C64: a server that starts has a number below the number of servers configured and below five (there are five
certificates), listens on the address configured for that number, has a known scheme, and could load as many files as
it was told to. -/
theorem C64_started (L : Lib) (servers config : List (List Char × Server)) (hc : Config servers)
    (hp : config.Perm servers) (files : List (List Char × List Key)) (M : Machine) (hM : Installed L files M)
    (f : ServerFlags) (r : Running) (h : serverMain M config f = ok r) :
    ∃ i : Nat, f.id = i ∧ i < 5 ∧ (∃ e, servers[i]? = some e ∧ r.addr = address e.2) ∧
      0 ≤ f.files ∧ f.files ≤ files.length ∧
      (f.scheme = "pointPIR" ∨ f.scheme = "pointVPIR" ∨ f.scheme = "complexPIR" ∨ f.scheme = "complexVPIR") := by
  unfold serverMain at h
  rw [C49_sorted_partial servers config hp hc.numbered] at h
  simp only [bind_eq_ok, orFatal_eq_ok, ok.injEq] at h
  obtain ⟨l, rfl, addr, ha, s, hs, c, hcert, -, -, rfl⟩ := h
  obtain ⟨i, hi, hia⟩ := idxInt_eq_ok ha
  obtain ⟨j, hj, hjc⟩ := idxInt_eq_ok hcert
  have hij : i = j := by omega
  subst hij
  refine ⟨i, hi, ?_, ?_, ?_⟩
  · have := (List.getElem?_eq_some_iff.mp hjc).1
    simpa [numCertificates] using this
  · rw [List.getElem?_map, Option.map_eq_some_iff] at hia
    obtain ⟨e, h1, h2⟩ := hia
    exact ⟨e, h1, h2.symm⟩
  · have hfiles : ∀ keys, loadKeys M f.files = ok keys → 0 ≤ f.files ∧ f.files ≤ files.length := by
      intro keys hk
      by_contra hne
      have := loadKeys_crash hM hne
      rw [hk] at this
      exact this
    unfold loadServer at hs
    split at hs
    · rename_i hsch
      rw [bind_eq_ok] at hs
      obtain ⟨keys, hk, -⟩ := hs
      have := hfiles keys (orFatal_eq_ok.mp hk)
      exact ⟨this.1, this.2, Or.inl hsch⟩
    split at hs
    · rename_i hsch
      rw [bind_eq_ok] at hs
      obtain ⟨keys, hk, -⟩ := hs
      have := hfiles keys (orFatal_eq_ok.mp hk)
      exact ⟨this.1, this.2, Or.inr (Or.inl hsch)⟩
    split at hs
    · rename_i hsch
      rw [bind_eq_ok] at hs
      obtain ⟨keys, hk, -⟩ := hs
      have := hfiles keys (orFatal_eq_ok.mp hk)
      exact ⟨this.1, this.2, Or.inr (Or.inr hsch)⟩
    · cases hs

/-- C64: otherwise it ends with an error or a panic; in particular without the option `-id` (default −1), with an unknown
scheme, or told to load more files than there are. -/
theorem C64_refuses (L : Lib) (servers config : List (List Char × Server)) (hc : Config servers)
    (hp : config.Perm servers) (files : List (List Char × List Key)) (M : Machine) (hM : Installed L files M)
    (f : ServerFlags)
    (h : f.id < 0 ∨ servers.length ≤ f.id ∨ 5 ≤ f.id ∨ f.files < 0 ∨ files.length < f.files ∨
      f.scheme ∉ ["pointPIR", "pointVPIR", "complexPIR", "complexVPIR"]) : (serverMain M config f).isCrash := by
  cases hr : serverMain M config f with
  | crash m => trivial
  | err m => exact absurd hr (serverMain_not_err M config f m)
  | ok r =>
    exfalso
    obtain ⟨i, h1, h2, ⟨e, h3, -⟩, h4, h5, h6⟩ := C64_started L servers config hc hp files M hM f r hr
    have h7 := (List.getElem?_eq_some_iff.mp h3).1
    rcases h with h | h | h | h | h | h
    · omega
    · omega
    · omega
    · omega
    · omega
    · exact h (by simpa using h6)

/-- C64: a point server with at least one but fewer than ten keys does not start. -/
theorem C64_few_keys (L : Lib) (hh : HashLong L.hash) (files : List (List Char × List Key)) (hf : InOrder files)
    (M : Machine) (hM : Installed L files M) (config : List (List Char × Server)) (id : Int) (k : Nat)
    (hk : k ≤ files.length) (h0 : keysIn files k ≠ []) (h10 : (keysIn files k).length < 10) (scheme : String)
    (hs : scheme = "pointPIR" ∨ scheme = "pointVPIR") : (serverMain M config ⟨id, k, scheme⟩).isCrash := by
  obtain ⟨c1, c2⟩ := C14_few_keys_crash M.H M.ck M.hash (by rw [hM.hash]; exact hh) M.sort hM.sort M.order
    (keysIn files k) true h0 h10
  have hl : ∀ r, loadServer M ⟨id, k, scheme⟩ ≠ ok r := by
    intro r hr
    unfold loadServer at hr
    dsimp only at hr
    rw [loadKeys_eq hf hM hk, orFatal_ok, ok_bind, ok_bind] at hr
    rcases hs with rfl | rfl
    · rw [if_pos rfl, bind_eq_ok] at hr
      obtain ⟨db, hdb, -⟩ := hr
      rw [orFatal_eq_ok.mp hdb] at c1
      exact c1
    · rw [if_neg (by decide), if_pos rfl, bind_eq_ok] at hr
      obtain ⟨db, hdb, -⟩ := hr
      rw [orFatal_eq_ok.mp hdb] at c2
      exact c2
  cases hr : serverMain M config ⟨id, k, scheme⟩ with
  | crash m => trivial
  | err m => exact absurd hr (serverMain_not_err M config _ m)
  | ok r =>
    unfold serverMain at hr
    simp only [bind_eq_ok] at hr
    obtain ⟨-, -, -, -, s, hs, -⟩ := hr
    exact absurd hs (hl s)

/-! ### What does not work -/

/-- C64: two servers start, but the programs show no key: the client sends them keys to expand, and the servers take them
for bit vectors. The keys are shorter than the rows of the table (`hshort`). -/
theorem C64_two_servers_show_nothing (L : Lib) (W : Predicate.World) (gob : Predicate.Msg → List Byte) (mk : Int → Time)
    (hh : HashLong L.hash) (servers : List (List Char × Server)) (hc : Config servers) (h2 : servers.length = 2)
    (files : List (List Char × List Key)) (hf : InOrder files) (machine : Nat → Machine)
    (config : Nat → List (List Char × Server)) (hM : ∀ i, i < 2 → Installed L files (machine i))
    (hp : ∀ i, i < 2 → (config i).Perm servers) (k : Nat) (hk : k ≤ files.length)
    (h10 : 10 ≤ (keysIn files k).length) (h32 : (keysIn files k).length ≤ 2 ^ 32)
    (hnd : ((keysIn files k).map (·.id)).Nodup) (R C : Nat)
    (hd : calculateNumRowsAndColumns (preSquareNumBlocks (keysIn files k).length) true = (R, C))
    (hB : ∀ p, p < R * C → (packets (bucket L.hash (R * C) (keysIn files k) p)).length ≤ 2 ^ 32 - 2048)
    (hshort : ∀ α logN k0 k1, L.dpf.gen α logN = ok (k0, k1) → 8 * k0.length < C) :
    ∃ running, startAll machine config 2 k "pointPIR" = ok running ∧
      ∀ cfg : List (List Char × Server), cfg.Perm servers → ∃ addrs, loadConfig cfg = ok addrs ∧
        ∀ S : Schedule, Fair S → ∀ id : String,
          (∀ (f : Flags) (typed : String), f.scheme = "pointPIR" ∨ f.scheme = "pointVPIR" →
            ¬ ∃ o, main L W gob mk (network running) S addrs f typed = ok o) ∧
          (¬ ∃ a, downloadKey L (network running) S addrs id = ok (.result a)) ∧
          (∀ req : Request, ¬ ∃ a, handleRetrieve L (network running) S addrs req = ok (.body a) ∧
            a ≠ bytes "key not found in block") := by
  have hM0 := hM 0 (by omega)
  have hdb := generateRealKeyBytes_eq hh hM0.sort hM0.order (keysIn files k) h10 h32 true hd
  have hdesc := describable_bytes hh hM0.sort hM0.order h10 h32 hd hB hdb
  obtain ⟨-, t2, -⟩ := table_size h32 true
  have t2 := t2 h10
  rw [hd] at t2
  generalize hdbv : (⟨_, _⟩ : Database.Bytes) = db at hdb hdesc
  have hR : db.info.numRows = R ∧ db.info.numColumns = C := by rw [← hdbv]; exact ⟨rfl, rfl⟩
  have hl : ∀ i, i < servers.length → loadServer (machine i) ⟨(i : Nat), k, "pointPIR"⟩ =
      ok (pointDbInfo db, Point.answer L.dpf 0 db) := by
    intro i hi
    have hMi := hM i (by omega)
    unfold loadServer
    rw [if_pos rfl]
    dsimp only
    rw [loadKeys_eq hf hMi hk, hMi.hash, hMi.dpf, orFatal_ok, ok_bind,
      C15_bytes L.hash (machine i).sort (machine 0).sort hMi.sort hM0.sort (machine i).order (machine 0).order hMi.order
        hM0.order (keysIn files k) (keysIn files k) (List.Perm.refl _) hnd true]
    rw [hdb, orFatal_ok, ok_bind]
  have hst := startAll_eq hc (by omega) (fun i hi => hM i (by omega)) (fun i hi => hp i (by omega)) hl
  rw [h2] at hst
  refine ⟨_, hst, ?_⟩
  intro cfg hcfg
  refine ⟨addresses servers, C49_sorted_partial servers cfg hcfg hc.numbered, ?_⟩
  intro S hS id
  obtain ⟨a1, a2, a3⟩ := C60_two_servers_show_nothing L W gob mk _ S hS db hdesc
    (by rw [hR.1]; exact Nat.pos_of_mul_pos_right t2) (by rw [hR.2]; exact hshort) (addresses servers)
    (by simp [addresses, h2]) (uniform_serves L.dpf db (addresses servers)) id
  exact ⟨a1 hc.distinct, a2, a3⟩

/-- Ten of the twenty keys in each of two files. -/
def exFiles : List (List Char × List Key) := [(chunkName 0, twenty.take 10), (chunkName 1, twenty.drop 10)]

/-- A configuration with this many servers. -/
def exServers (n : Nat) : List (List Char × Server) :=
  (List.range n).map (fun i => ([digit i], ⟨0, "10.0.0.1", 8000 + (i : Nat)⟩))

/-- A machine of the examples: the directory is listed backwards. -/
def exMachine (dpf : Point.Dpf) : Machine where
  H := Merkle.toyHash
  ck := Merkle.fnv1a
  hash := lengthHash
  queryHash := id
  dpf := dpf
  sort := sortDesc
  order := reversed
  readRing := ringOfBytes
  timeOf := dayTime
  algoOf _ := 1
  ungob _ := err "not a query"
  dir := (exFiles.map (fun f => (f.1, ok f.2))).reverse
  bind _ := ok ()
  env := exWorld.env0
  now := exWorld.now0
  buf := exWorld.buf0

theorem exFiles_inOrder : InOrder exFiles := by
  unfold InOrder exFiles
  simp only [List.pairwise_cons, List.mem_singleton, List.not_mem_nil, forall_eq, false_implies, implies_true, and_true,
    List.Pairwise.nil]
  exact C58_names_sorted_partial 0 1 (by omega) (by omega)

theorem exMachine_installed (dpf : Point.Dpf) : Installed (exLib dpf) exFiles (exMachine dpf) :=
  ⟨rfl, rfl, rfl, sortDesc_sorts, reversed_fair, List.reverse_perm _, fun _ => rfl⟩

theorem exServers_config : Config (exServers 3) ∧ Config (exServers 6) ∧ Config (exServers 2) := by
  refine ⟨⟨(numbered_iff _).2 (by decide), by decide⟩, ⟨(numbered_iff _).2 (by decide), by decide⟩, ⟨(numbered_iff _).2 (by decide), by decide⟩⟩

theorem exFiles_keys : keysIn exFiles 2 = twenty := by decide

/-- C64 as claimed is false: the sixth server finds no certificate. -/
theorem C64_refuted : ¬ C64_Statement := by
  intro h
  obtain ⟨running, hr, -⟩ := h (exLib emptyKeyDpf) exWorld (fun _ => []) dayTime Point.sevens_delivers lengthHash_long
    emptyKeyDpf_correct (exServers 6) exServers_config.2.1 (by decide) exFiles exFiles_inOrder
    (fun _ => exMachine emptyKeyDpf) (fun _ => exServers 6) (fun _ _ => exMachine_installed _) (fun _ _ => List.Perm.refl _) 2
    (by decide) (by rw [exFiles_keys]; decide) (by rw [exFiles_keys]; decide) (by rw [exFiles_keys]; decide)
    (by rw [exFiles_keys]; decide) (fun k => entityOf k.id) (by rw [exFiles_keys]; exact twenty_parses)
    (by rw [exFiles_keys]; exact twenty_named)
  obtain ⟨r, hr⟩ := mapM_inv hr 5 (by decide)
  have := C64_refuses (exLib emptyKeyDpf) (exServers 6) (exServers 6) exServers_config.2.1 (List.Perm.refl _) exFiles
    (exMachine emptyKeyDpf) (exMachine_installed _) ⟨5, 2, "pointPIR"⟩ (Or.inr (Or.inr (Or.inl (by decide))))
  have h' : serverMain (exMachine emptyKeyDpf) (exServers 6) ⟨5, 2, "pointPIR"⟩ = ok r := hr
  rw [h'] at this
  exact this

theorem exFiles_dims : calculateNumRowsAndColumns (preSquareNumBlocks (keysIn exFiles 2).length) true = (2, 2) := by
  rw [exFiles_keys, show preSquareNumBlocks twenty.length = 2 by decide]
  obtain ⟨c, h1, -, h2, h3⟩ := calculate_matrix (n := 2) (by norm_num)
  have h3 := h3 (by omega)
  have hc : c = 2 := by
    have : c < 3 := by
      by_contra hc
      have : 2 * 2 ≤ (c - 1) * (c - 1) := Nat.mul_le_mul (by omega) (by omega)
      omega
    interval_cases c <;> omega
  rw [h1, hc]

theorem exFiles_small : ∀ p, p < 2 * 2 → (packets (bucket lengthHash (2 * 2) (keysIn exFiles 2) p)).length ≤ 2 ^ 32 - 2048 := by
  rw [exFiles_keys]
  decide

/-- Three servers, two files with twenty keys, the configuration read backwards by servers and client: the interactive client
shows the key of the identifier `[3, 1]`. -/
example : ∃ running, startAll (fun _ => exMachine Point.plainDpf) (fun _ => (exServers 3).reverse) 3 2 "pointPIR" = ok running ∧
    ∃ addrs, loadConfig (exServers 3).reverse = ok addrs ∧
      downloadKey (exLib Point.plainDpf) (network running) backwards addrs "\x03\x01" = ok (.result [3, 1]) := by
  obtain ⟨running, hr, h⟩ := C64_lookup_partial (exLib Point.plainDpf) exWorld (fun _ => []) dayTime Point.sevens_delivers
    lengthHash_long (exServers 3) exServers_config.1 (Or.inr (by decide)) exFiles exFiles_inOrder
    (fun _ => exMachine Point.plainDpf) (fun _ => (exServers 3).reverse) (fun _ _ => exMachine_installed _)
    (fun _ _ => List.reverse_perm _) 2 (by decide) (by rw [exFiles_keys]; decide) (by rw [exFiles_keys]; decide)
    (by rw [exFiles_keys]; decide) 2 2 exFiles_dims exFiles_small (fun k => entityOf k.id)
    (by rw [exFiles_keys]; exact twenty_parses) (by rw [exFiles_keys]; exact twenty_named)
  obtain ⟨addrs, ha, -, hS⟩ := h (exServers 3).reverse (List.reverse_perm _)
  refine ⟨running, hr, addrs, ha, ?_⟩
  exact ((hS backwards backwards_fair).1 ⟨[3, 1], [3]⟩ (by rw [exFiles_keys]; decide) "\x03\x01" [3, 1] (by decide)
    (by decide) rfl).interactive

/-- The hypothesis of `C64_two_servers_show_nothing`. -/
example : ∃ running, startAll (fun _ => exMachine emptyKeyDpf) (fun _ => exServers 2) 2 2 "pointPIR" = ok running ∧
    ∃ addrs, loadConfig (exServers 2) = ok addrs ∧
      ¬ ∃ a, downloadKey (exLib emptyKeyDpf) (network running) backwards addrs "\x03\x01" = ok (.result a) := by
  obtain ⟨running, hr, h⟩ := C64_two_servers_show_nothing (exLib emptyKeyDpf) exWorld (fun _ => []) dayTime lengthHash_long
    (exServers 2) exServers_config.2.2 rfl exFiles exFiles_inOrder (fun _ => exMachine emptyKeyDpf) (fun _ => exServers 2)
    (fun _ _ => exMachine_installed _) (fun _ _ => List.Perm.refl _) 2 (by decide) (by rw [exFiles_keys]; decide)
    (by rw [exFiles_keys]; decide) (by rw [exFiles_keys]; decide) 2 2 exFiles_dims exFiles_small (by
      intro α logN k0 k1 hg
      simp only [exLib, emptyKeyDpf, ok.injEq, Prod.mk.injEq] at hg
      rw [← hg.1]
      decide)
  obtain ⟨addrs, ha, hS⟩ := h (exServers 2) (List.Perm.refl _)
  exact ⟨running, hr, addrs, ha, (hS backwards backwards_fair _).2.1⟩

/-- Three servers of the authenticated scheme, with a hash that spreads the keys. -/
example : ∃ running, startAll (fun _ => { exMachine Point.plainDpf with hash := headHash }) (fun _ => exServers 3) 3 2
      "pointVPIR" = ok running ∧ ∃ addrs, loadConfig (exServers 3).reverse = ok addrs ∧
      downloadKey { exLib Point.plainDpf with hash := headHash } (network running) backwards addrs "\x03\x01" =
        ok (.result [3, 1]) := by
  obtain ⟨running, hr, h⟩ := C64_lookup_merkle_partial { exLib Point.plainDpf with hash := headHash } Merkle.toyHash_length
    Merkle.fnv1a exWorld (fun _ => []) dayTime Point.sevens_delivers
    headHash_long (exServers 3) exServers_config.1 (Or.inr (by decide)) exFiles exFiles_inOrder
    (fun _ => { exMachine Point.plainDpf with hash := headHash }) (fun _ => exServers 3)
    (fun _ _ => ⟨⟨rfl, rfl, rfl, sortDesc_sorts, reversed_fair, List.reverse_perm _, fun _ => rfl⟩, rfl⟩)
    (fun _ _ => List.Perm.refl _) 2 (by decide) (by rw [exFiles_keys]; decide) (by rw [exFiles_keys]; decide)
    (by rw [exFiles_keys]; decide) 2 2 exFiles_dims (by decide)
    (by rw [exFiles_keys]; decide) sortDesc sortDesc_sorts
    (by rw [exFiles_keys]; unfold Merkle.ChecksumsFaithful; decide) (by rw [exFiles_keys]; decide) (fun k => entityOf k.id)
    (by rw [exFiles_keys]; exact twenty_parses) (by rw [exFiles_keys]; exact twenty_named)
  obtain ⟨addrs, ha, -, hS⟩ := h (exServers 3).reverse (List.reverse_perm _)
  refine ⟨running, hr, addrs, ha, ?_⟩
  exact ((hS backwards backwards_fair).1 ⟨[3, 1], [3]⟩ (by rw [exFiles_keys]; decide) "\x03\x01" [3, 1] (by decide)
    (by decide) rfl).interactive

/-- Three keys only. -/
example : (serverMain { exMachine Point.plainDpf with dir := [(chunkName 0, ok (twenty.take 3))] } (exServers 3)
    ⟨0, 1, "pointPIR"⟩).isCrash :=
  C64_few_keys (exLib Point.plainDpf) lengthHash_long [(chunkName 0, twenty.take 3)] (by simp [InOrder]) _
    ⟨rfl, rfl, rfl, sortDesc_sorts, reversed_fair, List.Perm.refl _, fun _ => rfl⟩ _ 0 1 (by decide) (by decide) (by decide) _
    (Or.inl rfl)

/-! ### From the dump -/

/-- The files written for these chunks. -/
def chunkFiles (chunks : List (List Key)) : List (List Char × List Key) :=
  chunks.zipIdx.map (fun c => (chunkName c.2, c.1))

theorem chunkFiles_inOrder {chunks : List (List Key)} (h : chunks.length ≤ 1000) : InOrder (chunkFiles chunks) := by
  unfold InOrder chunkFiles
  rw [List.pairwise_map, List.pairwise_iff_getElem]
  intro i j hi hj hij
  rw [List.length_zipIdx] at hj
  simp only [List.getElem_zipIdx]
  exact C58_names_sorted_partial _ _ (by omega) (by omega)

theorem chunkFiles_keys (chunks : List (List Key)) : keysIn (chunkFiles chunks) chunks.length = chunks.flatten := by
  unfold keysIn chunkFiles
  rw [List.take_of_length_le (by simp), List.flatMap_map]
  show chunks.zipIdx.flatMap (fun c => c.1) = _
  rw [List.flatMap_def]
  congr 1
  exact List.zipIdx_map_fst 0 chunks

/-- C64, the whole way: import a key dump, write it, split it into chunks of 100 MiB, start one or three to five servers on
the chunks and look up an e-mail: the programs show its newest key that is not revoked, without subkeys. Missing from
the full claim: as for `C64_lookup_partial`; fewer than ten keys; keys of more than 8192 bytes, which are not stored; and more
than a thousand chunks, which do not load in order (C58). -/
theorem C64_dump_partial (L : Lib) (W : Predicate.World) (gob : Predicate.Msg → List Byte) (mk : Int → Time)
    (hread : Point.Delivers L.read) (hh : HashLong L.hash) (dump : List (List Entity)) (ser : Entity → List Byte)
    (worder : List (Str × Entity) → List (Str × Entity)) (hw : Enumerates worder)
    (servers : List (List Char × Server)) (hc : Config servers)
    (hn : servers.length = 1 ∨ 3 ≤ servers.length ∧ servers.length ≤ 5) :
    ∃ m keys, analyzeKeyDump L.lower (dump.map ok) = ok m ∧ writeKeysOnDisk (fun e => ok (ser e)) worder m = ok keys ∧
      ((∀ es : List Entity, es ≠ [] → (∀ e ∈ es, ∃ email, (email, e) ∈ m) → L.readRing (es.flatMap ser) = ok es) →
        10 ≤ keys.length → keys.length ≤ 2 ^ 32 →
        ∀ R C : Nat, calculateNumRowsAndColumns (preSquareNumBlocks keys.length) true = (R, C) →
        (∀ p, p < R * C → (packets (bucket L.hash (R * C) keys p)).length ≤ 2 ^ 32 - 2048) → ∀ chunks : List (List Key),
        splitDump hundredMb keys (ok ()) = (chunks, ok ()) → chunks.length ≤ 1000 →
        ∀ (machine : Nat → Machine) (config : Nat → List (List Char × Server)),
        (∀ i, i < servers.length → Installed L (chunkFiles chunks) (machine i)) →
        (∀ i, i < servers.length → (config i).Perm servers) →
        ∃ running, startAll machine config servers.length chunks.length "pointPIR" = ok running ∧
          ∀ cfg : List (List Char × Server), cfg.Perm servers → ∃ addrs, loadConfig cfg = ok addrs ∧
            ∀ S : Schedule, Fair S → ∀ (id : String) (e : Entity) (a : List Byte), id ≠ "" →
              Newest L.lower dump.flatten (bytes id) e → (ser { e with subkeys := [] }).length ≤ 8192 →
              L.armor { e with subkeys := [] } = ok a → ShowKey L W gob mk (network running) S addrs id a) := by
  obtain ⟨m, keys, hm, hk, hkn, hrest⟩ := stored_from_dump L.lower dump ser worder hw L.readRing
  refine ⟨m, keys, hm, hk, ?_⟩
  intro hring h10 h32 R C hd hB chunks hch h1000 machine config hM hp
  obtain ⟨parse, hP, hN, -, hnewest⟩ := hrest hring
  have hflat : keysIn (chunkFiles chunks) chunks.length = keys := by
    rw [chunkFiles_keys, ← (C52_content hundredMb keys (ok ())).1, hch]
  obtain ⟨running, hr, h⟩ := C64_lookup_partial L W gob mk hread hh servers hc hn (chunkFiles chunks)
    (chunkFiles_inOrder h1000) machine config hM hp chunks.length (by simp [chunkFiles]) (by rw [hflat]; exact h10)
    (by rw [hflat]; exact h32) (by rw [hflat]; exact hkn) R C (by rw [hflat]; exact hd) (by rw [hflat]; exact hB) parse
    (by rw [hflat]; exact hP) (by rw [hflat]; exact hN)
  refine ⟨running, hr, ?_⟩
  intro cfg hcfg
  obtain ⟨addrs, ha, -, hS⟩ := h cfg hcfg
  refine ⟨addrs, ha, ?_⟩
  intro S hfair id e a hid hnew hsmall harm
  obtain ⟨hkey, hpe⟩ := hnewest (bytes id) e (bytes_ne_nil hid) hnew hsmall
  refine (hS S hfair).1 _ (by rw [hflat]; exact hkey) id a hid rfl ?_
  rw [hpe]
  exact harm

/-- The dump of twenty entities, three servers on its only chunk. -/
example : ∃ (m : List (Str × Entity)) (keys : List Key) (running : List Running) (addrs : List String),
    analyzeKeyDump id (exDump.map ok) = ok m ∧ writeKeysOnDisk (fun e => ok (exSer e)) List.reverse m = ok keys ∧
    startAll (fun _ => { exMachine Point.plainDpf with dir := [(chunkName 0, ok keys)] }) (fun _ => exServers 3) 3 1
      "pointPIR" = ok running ∧ loadConfig (exServers 3).reverse = ok addrs ∧
    downloadKey (exLib Point.plainDpf) (network running) backwards addrs "\x03\x01" = ok (.result [3, 1]) := by
  obtain ⟨m, keys, hm, hk, h⟩ := C64_dump_partial (exLib Point.plainDpf) exWorld (fun _ => []) dayTime Point.sevens_delivers
    lengthHash_long exDump exSer List.reverse List.reverse_perm (exServers 3) exServers_config.1 (Or.inr (by decide))
  have hm' : analyzeKeyDump id (exDump.map ok) = ok (exDump.foldl (fun keys el => el.foldl (saveKeyIfValid id) keys) []) := rfl
  have hmm : m = exDump.foldl (fun keys el => el.foldl (saveKeyIfValid id) keys) [] := by
    have := hm.symm.trans hm'
    simpa using this
  have hkk : keys = twenty := by
    have : writeKeysOnDisk (fun e => ok (exSer e)) List.reverse m = ok twenty := by
      rw [hmm]
      decide
    have := hk.symm.trans this
    simpa using this
  subst hkk
  obtain ⟨running, hr, hshow⟩ := h (fun es _ hes => exDump_ring m hm es hes) (by decide) (by decide) 2 2
    (by rw [← exFiles_keys]; exact exFiles_dims) (by decide) [twenty] (by decide) (by decide)
    (fun _ => { exMachine Point.plainDpf with dir := [(chunkName 0, ok twenty)] }) (fun _ => exServers 3)
    (fun _ _ => ⟨rfl, rfl, rfl, sortDesc_sorts, reversed_fair, List.Perm.refl _, fun _ => rfl⟩) (fun _ _ => List.Perm.refl _)
  obtain ⟨addrs, ha, hS⟩ := hshow (exServers 3).reverse (List.reverse_perm _)
  refine ⟨m, _, running, addrs, hm, hk, hr, ha, ?_⟩
  refine (hS backwards backwards_fair "\x03\x01" (entityOf [3, 1]) [3, 1] (by decide) ?_ (by decide) rfl).interactive
  refine ⟨(List.range 3).map (fun i => entityOf [BitVec.ofNat 8 i, 1]),
    (List.range' 4 16).map (fun i => entityOf [BitVec.ofNat 8 i, 1]), by decide, ⟨rfl, Or.inl ⟨by decide, by decide⟩⟩, ?_, ?_⟩
  · intro x hx hel
    exfalso
    revert hel
    obtain ⟨i, hi, rfl⟩ := List.mem_map.mp hx
    rintro ⟨-, ⟨-, h⟩ | ⟨h, -⟩ | ⟨h, -⟩⟩
    · have hi : i < 3 := by simpa using hi
      interval_cases i <;> exact absurd h (by decide)
    · simp [entityOf] at h
    · simp [entityOf] at h
  · intro x hx _
    obtain ⟨i, hi, rfl⟩ := List.mem_map.mp hx
    exact le_refl _

end Verif.Deploy
