import Verif.Props.DataHistory

/-! # C71 and C72: from the files of a key dump to what the client programs show -/

namespace Verif.Data
open Res Verif.Cmd Verif.Pgp Verif.Pgp.Spec Verif.Deploy.Spec Verif.Client.Spec Spec

/-- The keys of a dump are determined up to their order. -/
theorem keysOf_unique {lower : Str → Str} {ser : Entity → List Byte} {dump : List (List Entity)} {a b : List Key}
    (ha : KeysOf lower ser dump a) (hb : KeysOf lower ser dump b) : a.Perm b :=
  (List.perm_ext_iff_of_nodup ha.distinct.of_map hb.distinct.of_map).mpr (fun k => by rw [ha.mem, hb.mem])

theorem storedAs_unique {lower : Str → Str} {ser : Entity → List Byte} {dump : List (List Entity)} {email : Str} {a b : Entity}
    (ha : StoredAs lower ser dump email a) (hb : StoredAs lower ser dump email b) : a = b := by
  obtain ⟨-, -, a', h1, rfl⟩ := ha
  obtain ⟨-, -, b', h2, rfl⟩ := hb
  rw [newest_unique h1 h2]

/-- Reading the keys of a dump. -/
theorem keysOf_parse {lower : Str → Str} {ser : Entity → List Byte} {dump : List (List Entity)} {keys : List Key}
    (h : KeysOf lower ser dump keys) (readRing : List Byte → Res (List Entity))
    (hring : ∀ es : List Entity, es ≠ [] → (∀ e ∈ es, ∃ email, StoredAs lower ser dump email e) →
      readRing (es.flatMap ser) = ok es) :
    ∃ parse, Parses readRing parse keys ∧ NamedBy lower parse keys ∧ ∀ k ∈ keys, StoredAs lower ser dump k.id (parse k) := by
  have hback : ∀ k : Key, ∃ e : Entity, k ∈ keys → StoredAs lower ser dump k.id e ∧ k.packet = ser e := by
    intro k
    by_cases hk : k ∈ keys
    · obtain ⟨e, he⟩ := (h.mem k).mp hk
      exact ⟨e, fun _ => he⟩
    · exact ⟨entityOf [], fun h => absurd h hk⟩
  choose parse hparse using hback
  refine ⟨parse, ?_, ?_, fun k hk => (hparse k hk).1⟩
  · intro ks hne hks
    have he : packets ks = (ks.map parse).flatMap ser := by
      unfold packets
      rw [List.flatMap_map]
      clear hne
      induction ks with
      | nil => rfl
      | cons k ks ih =>
        simp only [List.flatMap_cons]
        rw [ih (fun x hx => hks x (List.mem_cons_of_mem _ hx)), (hparse k (hks k (by simp))).2]
    rw [he]
    apply hring _ (by simpa using hne)
    intro e he
    obtain ⟨k, hk, rfl⟩ := List.mem_map.mp he
    exact ⟨k.id, (hparse k (hks k hk)).1⟩
  · intro k hk
    obtain ⟨-, -, e0, ⟨b, a, -, hel, -, -⟩, he⟩ := (hparse k hk).1
    rw [he]
    exact hel.2

theorem packets_perm {a b : List Key} (h : a.Perm b) : (packets a).length = (packets b).length := by
  unfold packets
  exact (List.Perm.flatMap_right _ h).length_eq

/-- C71, the whole way: with a dump in the directory `D`, run `parseDump` into `O` and `genChunks` from there into the empty
directory `S`, copy `S` to one server or to three to five, start them on all of its files, and look up an e-mail: the programs
show its newest key that is not revoked, without subkeys. Missing from the full claim: as for `C64_dump_partial`, but there is
no limit to the number of chunks; other files in `S`. -/
theorem C71_shown_partial (C : Client.Lib) (W : Predicate.World) (gob : Predicate.Msg → List Byte) (mk : Int → Query.Time)
    (hread : Point.Delivers C.read) (hh : HashLong C.hash) (servers : List (List Char × Server)) (hc : Config servers)
    (hn : servers.length = 1 ∨ 3 ≤ servers.length ∧ servers.length ≤ 5)
    (L : Lib) (hlow : L.lower = C.lower) (ser : Entity → List Byte) (hser : ∀ e, L.serialize e = ok (ser e))
    (horder : Enumerates L.order) (hgob : GobFaithful L) (limit : Nat) (d : Disk) (hd : Proper d) (D O S : Path)
    (dump : List (Path × List Entity)) (hD0 : D ≠ []) (hO0 : O ≠ []) (hS0 : S ≠ []) (hD : entry d D = some .dir)
    (hO : entry d O = some .dir) (hS : entry d S = some .dir) (hOS : O ≠ S) (hfull : entry d (join O fullName) ≠ some .dir)
    (hempty : ∀ n, IsName n → entry d (join S n) = none) (hdump : DumpIs L d D ContainsDumpName dump)
    (keys : List Key) (hkeys : KeysOf C.lower ser (dump.map (·.2)) keys) (h10 : 10 ≤ keys.length) (h32 : keys.length ≤ 2 ^ 32)
    (R B : Nat) (hdim : Layout.calculateNumRowsAndColumns (Layout.preSquareNumBlocks keys.length) true = (R, B))
    (hB : ∀ p, p < R * B → (packets (bucket C.hash (R * B) keys p)).length ≤ 2 ^ 32 - 2048)
    (hring : ∀ es : List Entity, es ≠ [] → (∀ e ∈ es, ∃ email, StoredAs C.lower ser (dump.map (·.2)) email e) →
      C.readRing (es.flatMap ser) = ok es)
    (machine : Nat → Deploy.Machine) (config : Nat → List (List Char × Server))
    (hM : ∀ i, i < servers.length → Hosts C L
      (after L (after L d limit (parseFlags D O)) limit (chunkFlags (join O fullName) S)) S (machine i))
    (hp : ∀ i, i < servers.length → (config i).Perm servers) :
    ∃ names running, readDir (after L (after L d limit (parseFlags D O)) limit (chunkFlags (join O fullName) S)) S = ok names ∧
      startAll machine config servers.length names.length "pointPIR" = ok running ∧
      ∀ cfg : List (List Char × Server), cfg.Perm servers → ∃ addrs, loadConfig cfg = ok addrs ∧
        ∀ T : Client.Schedule, Fair T → ∀ (id : String) (e : Entity) (a : List Byte), id ≠ "" →
          Newest C.lower (dump.map (·.2)).flatten (bytes id) e → (ser { e with subkeys := [] }).length ≤ 8192 →
          C.armor { e with subkeys := [] } = ok a → ShowKey C W gob mk (Deploy.network running) T addrs id a := by
  obtain ⟨-, -, found, hfound, hw, hch, hprop, -⟩ := C71_loaded L ser hser horder hgob limit d hd D O S dump hD0 hO0 hS0 hD hO hS
    hfull (fun i => by rw [hempty _ (chunkName_name i)]; simp) hdump
  rw [hlow] at hfound
  have hS1 : entry (after L d limit (parseFlags D O)) S = some .dir := by
    by_cases hc : S = join O fullName
    · exact absurd (hc ▸ hS) hfull
    · rw [hw.rest S hc]; exact hS
  obtain ⟨files, hperm, hord, hdir, -⟩ := chunked_server hgob hprop hS1 hch (fun i _ => join_ne_self _ _) [] (by simp) (by simp)
    (by
      intro n hn hsome
      rw [hw.rest _ (fun he => hOS (join_inj hn.2 fullName_name.2 he).1.symm), hempty n hn] at hsome
      cases hsome)
  obtain ⟨names, hnames, he⟩ := bind_eq_ok.mp hdir
  have hl : names.length = files.length := by
    have := congrArg List.length (ok.inj he)
    simpa using this
  have hload : (keysIn files names.length).Perm keys := by
    unfold keysIn
    rw [List.take_of_length_le (by rw [hl])]
    refine ((List.Perm.flatMap_right _ hperm).trans ?_).trans (keysOf_unique hfound hkeys)
    have h := Deploy.chunkFiles_keys (splitDump limit found (ok ())).1
    unfold keysIn at h
    rw [List.take_of_length_le (by simp [Deploy.chunkFiles])] at h
    rw [List.append_nil, h, (C52_content limit found (ok ())).1]
  have hkl := keysOf_perm hkeys hload
  obtain ⟨parse, hP, hN, hst⟩ := keysOf_parse hkl C.readRing hring
  obtain ⟨running, hr, h⟩ := Deploy.C64_lookup_partial C W gob mk hread hh servers hc hn files hord machine config
    (fun i hi => by
      obtain ⟨a1, a2, a3, a4, a5, a6, a7⟩ := hM i hi
      rw [hdir] at a6
      exact ⟨a1, a2, a3, a4, a5, by rw [ok.inj a6], a7⟩) hp names.length (by rw [hl]) (by rw [hload.length_eq]; exact h10)
    (by rw [hload.length_eq]; exact h32) hkl.distinct R B (by rw [hload.length_eq]; exact hdim)
    (by
      intro p hlt
      rw [packets_perm (b := bucket C.hash (R * B) keys p) (by unfold bucket; exact hload.filter _)]
      exact hB p hlt) parse hP hN
  refine ⟨names, running, hnames, hr, ?_⟩
  intro cfg hcfg
  obtain ⟨addrs, ha, -, hall⟩ := h cfg hcfg
  refine ⟨addrs, ha, ?_⟩
  intro T hT id e a hid hnew hsmall harm
  have hstored : StoredAs C.lower ser (dump.map (·.2)) (bytes id) { e with subkeys := [] } :=
    ⟨Client.bytes_ne_nil hid, hsmall, e, hnew, rfl⟩
  have hkey : (⟨bytes id, ser { e with subkeys := [] }⟩ : Key) ∈ keysIn files names.length :=
    (hkl.mem _).mpr ⟨_, hstored, rfl⟩
  refine (hall T hT).1 _ hkey id a hid rfl ?_
  rw [storedAs_unique (hst _ hkey) hstored]
  exact harm

/-- C72, the whole way: the same after any sequence of runs, complete or interrupted, that have other output directories than
`S`. Missing from the full claim: as above; earlier runs into `S`, whose files are served as well if they outnumber the new
ones (`C71_refuted`). -/
theorem C72_shown_partial (C : Client.Lib) (W : Predicate.World) (gob : Predicate.Msg → List Byte) (mk : Int → Query.Time)
    (hread : Point.Delivers C.read) (hh : HashLong C.hash) (servers : List (List Char × Server)) (hc : Config servers)
    (hn : servers.length = 1 ∨ 3 ≤ servers.length ∧ servers.length ≤ 5)
    (L : Lib) (hlow : L.lower = C.lower) (ser : Entity → List Byte) (hser : ∀ e, L.serialize e = ok (ser e))
    (horder : Enumerates L.order) (hgob : GobFaithful L) (limit : Nat) (d : Disk) (hd : Proper d) (D O S : Path)
    (dump : List (Path × List Entity)) (hD0 : D ≠ []) (hO0 : O ≠ []) (hS0 : S ≠ []) (hD : entry d D = some .dir)
    (hO : entry d O = some .dir) (hS : entry d S = some .dir) (hOS : O ≠ S) (hfull : entry d (join O fullName) ≠ some .dir)
    (hempty : ∀ n, IsName n → entry d (join S n) = none) (hdump : DumpIs L d D ContainsDumpName dump)
    (runs : List Invocation) (hruns : ∀ r ∈ runs, r.flags.out ≠ S)
    (keys : List Key) (hkeys : KeysOf C.lower ser (dump.map (·.2)) keys) (h10 : 10 ≤ keys.length) (h32 : keys.length ≤ 2 ^ 32)
    (R B : Nat) (hdim : Layout.calculateNumRowsAndColumns (Layout.preSquareNumBlocks keys.length) true = (R, B))
    (hB : ∀ p, p < R * B → (packets (bucket C.hash (R * B) keys p)).length ≤ 2 ^ 32 - 2048)
    (hring : ∀ es : List Entity, es ≠ [] → (∀ e ∈ es, ∃ email, StoredAs C.lower ser (dump.map (·.2)) email e) →
      C.readRing (es.flatMap ser) = ok es)
    (machine : Nat → Deploy.Machine) (config : Nat → List (List Char × Server))
    (hM : ∀ i, i < servers.length → Hosts C L (after L (after L (history L limit d runs) limit (parseFlags D O)) limit
      (chunkFlags (join O fullName) S)) S (machine i))
    (hp : ∀ i, i < servers.length → (config i).Perm servers) :
    ∃ names running, readDir (after L (after L (history L limit d runs) limit (parseFlags D O)) limit
        (chunkFlags (join O fullName) S)) S = ok names ∧
      startAll machine config servers.length names.length "pointPIR" = ok running ∧
      ∀ cfg : List (List Char × Server), cfg.Perm servers → ∃ addrs, loadConfig cfg = ok addrs ∧
        ∀ T : Client.Schedule, Fair T → ∀ (id : String) (e : Entity) (a : List Byte), id ≠ "" →
          Newest C.lower (dump.map (·.2)).flatten (bytes id) e → (ser { e with subkeys := [] }).length ≤ 8192 →
          C.armor { e with subkeys := [] } = ok a → ShowKey C W gob mk (Deploy.network running) T addrs id a := by
  obtain ⟨hframe, hdir, -⟩ := C72_frame L limit d runs
  refine C71_shown_partial C W gob mk hread hh servers hc hn L hlow ser hser horder hgob limit (history L limit d runs)
    (proper_history L limit hd runs) D O S dump hD0 hO0 hS0 ((hdir D).mpr hD) ((hdir O).mpr hO) ((hdir S).mpr hS) hOS
    (fun h => hfull ((hdir _).mp h)) ?_ (dump_history hdump runs) keys hkeys h10 h32 R B hdim hB hring machine config hM hp
  intro n hn
  rw [hframe (join S n) ?_, hempty n hn]
  intro r hr ho
  rcases ho with he | ⟨i, he⟩
  · exact hruns r hr (join_inj hn.2 fullName_name.2 he).1.symm
  · exact hruns r hr (join_inj hn.2 (chunkName_name i).2 he).1.symm

/-! Example: twenty keys, three servers, after an interrupted import. -/

theorem exKeys : KeysOf id exSer exDump twenty := by
  obtain ⟨m, hm, hmn, hme⟩ := C17_newest id exDump
  obtain ⟨keys, hk, hkn, hkm⟩ := C17_written exSer List.reverse List.reverse_perm m hmn
  have hm' : analyzeKeyDump id (exDump.map ok) = ok (exDump.foldl (fun keys el => el.foldl (saveKeyIfValid id) keys) []) := rfl
  have hmm : m = exDump.foldl (fun keys el => el.foldl (saveKeyIfValid id) keys) [] := by
    have := hm.symm.trans hm'
    simpa using this
  have hkk : keys = twenty := by
    have : Pgp.writeKeysOnDisk (fun e => ok (exSer e)) List.reverse m = ok twenty := by
      rw [hmm]
      decide
    have := hk.symm.trans this
    simpa using this
  subst hkk
  refine ⟨hkn, ?_⟩
  intro k
  rw [hkm]
  constructor
  · rintro ⟨e, h1, h2, h3⟩
    obtain ⟨h4, e', h5, h6⟩ := ((hme k.id).1 e).mp h1
    exact ⟨e, ⟨h4, h3, e', h5, h6⟩, h2⟩
  · rintro ⟨e, ⟨h1, h2, e', h3, h4⟩, h5⟩
    exact ⟨e, ((hme k.id).1 e).mpr ⟨h1, e', h3, h4⟩, h5, h2⟩

/-- The bytes of the dump. -/
def exRing : List Byte := (List.range 20).map (BitVec.ofNat 8)

theorem exRing_dump : [("sks-dump-0000.pgp".toList, exRing.map (fun x => entityOf [x, 1]))].map (·.2) = exDump := by decide

theorem exRing_parses (es : List Entity) (hes : ∀ e ∈ es, ∃ email, StoredAs id exSer exDump email e) :
    ringOfBytes (es.flatMap exSer) = ok es := by
  unfold ringOfBytes
  congr 1
  induction es with
  | nil => rfl
  | cons e es ih =>
    rw [List.flatMap_cons, List.map_append, ih (fun e he => hes e (List.mem_cons_of_mem _ he))]
    obtain ⟨email, -, -, e', ⟨b, a, hsplit, -, -, -⟩, he⟩ := hes e (by simp)
    have hmem : e' ∈ exDump.flatten := by rw [hsplit]; simp
    have hall : ∀ e' ∈ exDump.flatten, (exSer { e' with subkeys := [] }).map (fun x => entityOf [x, 1]) =
        [{ e' with subkeys := [] }] := by decide
    rw [he, hall e' hmem]
    rfl

theorem exRing_empty : ∀ n, IsName n → entry (exDiskOf exRing []) (join "s".toList n) = none := by
  intro n hn
  cases h : entry (exDiskOf exRing []) (join "s".toList n) with
  | none => rfl
  | some x =>
    exfalso
    obtain ⟨e, he, hp⟩ := (entry_isSome (exDiskOf exRing []) (join "s".toList n)).mp (by rw [h]; rfl)
    have hin : nameIn "s".toList e.1 = some n := (nameIn_eq_some _ _ _).mpr ⟨hn, hp⟩
    have : ∀ e ∈ (exDiskOf exRing []).nodes, nameIn "s".toList e.1 = none := by decide
    rw [this e he] at hin
    cases hin

/-- The disk after an interrupted import, an import and splitting. -/
def exPrepared : Disk :=
  after exData (after exData (history exData hundredMb (exDiskOf exRing []) [⟨parseFlags "d".toList "o".toList, id, some 5⟩])
    hundredMb (parseFlags "d".toList "o".toList)) hundredMb (chunkFlags (join "o".toList fullName) "s".toList)

theorem exPrepared_dir : ∃ files, serverDir exData exPrepared "s".toList = ok files := by
  have h : entry exPrepared "s".toList = some .dir := by
    obtain ⟨-, h, -⟩ := C72_frame exData hundredMb (exDiskOf exRing []) [⟨parseFlags "d".toList "o".toList, id, some 5⟩,
      ⟨parseFlags "d".toList "o".toList, List.reverse, none⟩,
      ⟨chunkFlags (join "o".toList fullName) "s".toList, List.reverse, none⟩]
    exact (h "s".toList).mpr (by decide)
  unfold serverDir readDir
  unfold entry at h
  rw [h]
  exact ⟨_, rfl⟩

example : ∃ (machine : Nat → Deploy.Machine) (k : Nat) (running : List Deploy.Running) (addrs : List String),
      serverDir exData exPrepared "s".toList = ok (machine 0).dir ∧
      startAll machine (fun _ => Deploy.exServers 3) 3 k "pointPIR" = ok running ∧
      loadConfig (Deploy.exServers 3).reverse = ok addrs ∧
      Client.downloadKey (Client.exLib Point.plainDpf) (Deploy.network running) Client.backwards addrs "\x03\x01" =
        ok (.result [3, 1]) := by
  obtain ⟨files, hfiles⟩ := exPrepared_dir
  obtain ⟨names, running, -, hr, h⟩ := C72_shown_partial (Client.exLib Point.plainDpf) Client.exWorld (fun _ => []) Query.dayTime
    Point.sevens_delivers lengthHash_long (Deploy.exServers 3) Deploy.exServers_config.1 (Or.inr (by decide)) exData rfl exSer
    (fun _ => rfl) List.reverse_perm exData_gob hundredMb (exDiskOf exRing []) (by unfold Proper; decide) "d".toList "o".toList
    "s".toList _ (by decide) (by decide) (by decide) (by decide) (by decide) (by decide) (by decide) (by decide) exRing_empty
    (exDiskOf_dump exRing [] (by simp)) [⟨parseFlags "d".toList "o".toList, id, some 5⟩]
    (by intro r hr; rw [List.mem_singleton.mp hr]; decide) twenty (by rw [exRing_dump]; exact exKeys) (by decide) (by decide) 2 2
    (by rw [← Deploy.exFiles_keys]; exact Deploy.exFiles_dims) (by decide)
    (fun es _ hes => exRing_parses es (by rw [exRing_dump] at hes; exact hes))
    (fun _ => { Deploy.exMachine Point.plainDpf with dir := files }) (fun _ => Deploy.exServers 3)
    (fun _ _ => ⟨rfl, rfl, rfl, sortDesc_sorts, reversed_fair, hfiles, fun _ => rfl⟩)
    (fun _ _ => List.Perm.refl _)
  obtain ⟨addrs, ha, hS⟩ := h (Deploy.exServers 3).reverse (List.reverse_perm _)
  refine ⟨_, names.length, running, addrs, hfiles, hr, ha, ?_⟩
  rw [exRing_dump] at hS
  refine (hS Client.backwards Client.backwards_fair "\x03\x01" (entityOf [3, 1]) [3, 1] (by decide) ?_ (by decide) rfl).interactive
  refine ⟨(List.range 3).map (fun i => entityOf [BitVec.ofNat 8 i, 1]),
    (List.range' 4 16).map (fun i => entityOf [BitVec.ofNat 8 i, 1]), by decide, ⟨rfl, Or.inl ⟨by decide, by decide⟩⟩, ?_, ?_⟩
  · intro x hx hel
    exfalso
    revert hel
    obtain ⟨i, hi, rfl⟩ := List.mem_map.mp hx
    rintro ⟨-, ⟨-, h⟩ | ⟨h, -⟩ | ⟨h, -⟩⟩
    · have hi : i < 3 := by simpa using hi
      interval_cases i <;> exact absurd h (by decide)
    · simp [entityOf] at h
    · simp [entityOf] at h
  · intro x hx _
    obtain ⟨i, hi, rfl⟩ := List.mem_map.mp hx
    exact le_refl _

end Verif.Data
