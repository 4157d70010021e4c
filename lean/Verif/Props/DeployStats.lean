import Verif.Props.Deploy

/-! # C65: statistics over the keys of a dump -/

namespace Verif.Deploy
open Res Verif.Cmd Verif.Pgp Verif.Pgp.Spec Verif.Query Verif.Client Verif.Client.Spec Verif.Deploy.Spec
open Verif.Predicate (World Msg KeyDB KeyInfo numMatching textInfo)
open Verif.Predicate.Spec (AtEnd)

/-- Two predicate servers started on the same files are honest predicate servers numbers 0 and 1. -/
theorem stats_deployed {L : Lib} {W : World} {gob : Msg → List Byte} {timeOf : Int → Time} {algoOf : Entity → Byte}
    {servers : List (List Char × Server)} (hc : Config servers) (h2 : servers.length = 2)
    {files : List (List Char × List Key)} (hf : InOrder files) {machine : Nat → Machine}
    {config : Nat → List (List Char × Server)} (hM : ∀ i, i < 2 → Installed L files (machine i))
    (hE0 : Equipped L W.hash gob timeOf algoOf W.env0 W.now0 W.buf0 (machine 0))
    (hE1 : Equipped L W.hash gob timeOf algoOf W.env1 W.now1 W.buf1 (machine 1))
    (hp : ∀ i, i < 2 → (config i).Perm servers) {k : Nat} (hk : k ≤ files.length)
    (hnd : ((keysIn files k).map (·.id)).Nodup) {parse : Key → Entity}
    (hparse : Parses L.readRing parse (keysIn files k)) {sort : List Key → List Key} (hs : SortsById sort)
    {scheme : String} {ex : Nat} (hscheme : scheme = "complexPIR" ∧ ex = 1 ∨ scheme = "complexVPIR" ∧ ex = 5) :
    ∃ running, startAll machine config 2 k scheme = ok running ∧ ∃ (info : DbInfo) (a0 a1 : String), a0 ≠ a1 ∧
      (∀ cfg : List (List Char × Server), cfg.Perm servers → loadConfig cfg = ok [a0, a1]) ∧
      PredicateServers (network running) W gob ex (infosOf timeOf algoOf parse (sort (keysIn files k))) info a0 a1 := by
  obtain ⟨s0, s1, rfl⟩ := List.length_eq_two.mp h2
  obtain ⟨ans0, l0, e0⟩ := loadServer_stats hf (hM 0 (by omega)) hE0 hk hparse hs hnd hscheme ((0 : Nat) : Int)
  obtain ⟨ans1, l1, e1⟩ := loadServer_stats hf (hM 1 (by omega)) hE1 hk hparse hs hnd hscheme ((1 : Nat) : Int)
  have m0 := serverMain_eq (hM 0 (by omega)) hc (hp 0 (by omega)) (i := 0) (by simp) (by omega) k scheme _ l0
  have m1 := serverMain_eq (hM 1 (by omega)) hc (hp 1 (by omega)) (i := 1) (by simp) (by omega) k scheme _ l1
  have hne : address s0.2 ≠ address s1.2 := by
    have := hc.distinct
    simpa using this
  refine ⟨[⟨address s0.2, predicateDbInfo (keysIn files k).length, ans0⟩,
    ⟨address s1.2, predicateDbInfo (keysIn files k).length, ans1⟩], ?_, transmit (predicateDbInfo (keysIn files k).length),
    address s0.2, address s1.2, hne, fun cfg hcfg => C49_sorted_partial [s0, s1] cfg hcfg hc.numbered, ?_⟩
  · unfold startAll
    rw [show List.range 2 = [0, 1] by decide, List.mapM_cons, m0, ok_bind, List.mapM_cons, m1, ok_bind]
    rfl
  · have f0 : ∀ r0 r1 : Running, r0.addr = address s0.2 → [r0, r1].find? (fun s => s.addr = address s0.2) = some r0 := by
      intro r0 r1 h
      simp [h]
    have f1 : ∀ r0 r1 : Running, r0.addr = address s0.2 → r1.addr = address s1.2 →
        [r0, r1].find? (fun s => s.addr = address s1.2) = some r1 := by
      intro r0 r1 h h'
      simp [h, h', hne]
    refine ⟨?_, ?_, ?_, ?_, ?_, ?_⟩
    · simp [network]
    · simp [network]
    · unfold network
      dsimp only
      rw [f0 _ _ rfl]
    · unfold network
      dsimp only
      rw [f1 _ _ rfl rfl]
    · intro m
      unfold network
      dsimp only
      rw [f0 _ _ rfl]
      dsimp only
      rw [e0]
      rfl
    · intro m
      unfold network
      dsimp only
      rw [f1 _ _ rfl rfl]
      dsimp only
      rw [e1]
      rfl

/-- The number of keys counted is the number of addresses with such a key. -/
theorem count_addresses {lower : Str → Str} {ser : Entity → List Byte} {dump : List (List Entity)} {keys sorted : List Key}
    (hnd : (keys.map (·.id)).Nodup) (hperm : sorted.Perm keys) {timeOf : Int → Time} {algoOf : Entity → Byte}
    {parse : Key → Entity}
    (h1 : ∀ k ∈ keys, StoredAs lower ser dump k.id (parse k))
    (h2 : ∀ email e, StoredAs lower ser dump email e → ∃ k ∈ keys, k.id = email ∧ parse k = e)
    (P : KeyInfo → Prop) :
    numMatching (infosOf timeOf algoOf parse sorted) P =
      addressesWith lower ser dump (fun _ e => P (describe timeOf algoOf e)) := by
  classical
  unfold addressesWith
  have hset : {email : Str | ∃ e, StoredAs lower ser dump email e ∧ P (describe timeOf algoOf e)} =
      (((keys.filter (fun k => P (describe timeOf algoOf (parse k)))).map (·.id)).toFinset : Set Str) := by
    ext email
    simp only [Set.mem_ofPred_eq, List.coe_toFinset, List.mem_map, List.mem_filter, decide_eq_true_eq]
    constructor
    · rintro ⟨e, hst, hP⟩
      obtain ⟨k, hk, rfl, rfl⟩ := h2 email e hst
      exact ⟨k, ⟨hk, hP⟩, rfl⟩
    · rintro ⟨k, ⟨hk, hP⟩, rfl⟩
      exact ⟨_, h1 k hk, hP⟩
  have hcard : Nat.card {email : Str // ∃ e, StoredAs lower ser dump email e ∧ P (describe timeOf algoOf e)} =
      ((keys.filter (fun k => P (describe timeOf algoOf (parse k)))).map (·.id)).length := by
    have : Nat.card {email : Str // ∃ e, StoredAs lower ser dump email e ∧ P (describe timeOf algoOf e)} =
        Nat.card ({email : Str | ∃ e, StoredAs lower ser dump email e ∧ P (describe timeOf algoOf e)} : Set Str) := rfl
    rw [this, hset, Nat.card_coe_set_eq, Set.ncard_coe_finset, List.toFinset_card_of_nodup]
    exact (hnd.sublist (List.Sublist.map _ List.filter_sublist))
  rw [hcard, List.length_map]
  unfold numMatching infosOf
  dsimp only
  rw [List.countP_map, (hperm.countP_eq _), List.countP_eq_length_filter]
  congr 1

/-- C65, what the servers hold: after importing a dump, writing, splitting, and starting two predicate servers on the chunks,
these are honest predicate servers with a database of descriptions, one for each address stored, so that the number of
descriptions satisfying a condition is the number of addresses whose key does. -/
theorem C65_database (L : Lib) (W : World) (gob : Msg → List Byte) (timeOf : Int → Time) (algoOf : Entity → Byte)
    (dump : List (List Entity)) (ser : Entity → List Byte) (worder : List (Str × Entity) → List (Str × Entity))
    (hw : Enumerates worder) (servers : List (List Char × Server)) (hc : Config servers) (h2 : servers.length = 2)
    (scheme : String) (ex : Nat) (hscheme : scheme = "complexPIR" ∧ ex = 1 ∨ scheme = "complexVPIR" ∧ ex = 5) :
    ∃ m keys, analyzeKeyDump L.lower (dump.map ok) = ok m ∧ writeKeysOnDisk (fun e => ok (ser e)) worder m = ok keys ∧
      ((∀ es : List Entity, es ≠ [] → (∀ e ∈ es, ∃ email, (email, e) ∈ m) → L.readRing (es.flatMap ser) = ok es) →
        ∀ chunks : List (List Key), splitDump hundredMb keys (ok ()) = (chunks, ok ()) → chunks.length ≤ 1000 →
        ∀ (machine : Nat → Machine) (config : Nat → List (List Char × Server)),
        (∀ i, i < 2 → Installed L (chunkFiles chunks) (machine i)) →
        Equipped L W.hash gob timeOf algoOf W.env0 W.now0 W.buf0 (machine 0) →
        Equipped L W.hash gob timeOf algoOf W.env1 W.now1 W.buf1 (machine 1) →
        (∀ i, i < 2 → (config i).Perm servers) →
        ∃ (running : List Running) (db : KeyDB) (info : DbInfo) (a0 a1 : String),
          startAll machine config 2 chunks.length scheme = ok running ∧ a0 ≠ a1 ∧
          (∀ cfg : List (List Char × Server), cfg.Perm servers → loadConfig cfg = ok [a0, a1]) ∧
          PredicateServers (network running) W gob ex db info a0 a1 ∧ Predicate.Spec.Loaded db ∧
          db.keys.length = keys.length ∧
          (∀ ki ∈ db.keys, ∃ email e, StoredAs L.lower ser dump email e ∧ ki = describe timeOf algoOf e) ∧
          ∀ P : KeyInfo → Prop, numMatching db P =
            addressesWith L.lower ser dump (fun _ e => P (describe timeOf algoOf e))) := by
  obtain ⟨m, keys, hm, hk, hkn, hrest⟩ := stored_from_dump L.lower dump ser worder hw L.readRing
  refine ⟨m, keys, hm, hk, ?_⟩
  intro hring chunks hch h1000 machine config hM hE0 hE1 hp
  obtain ⟨parse, hP, -, hstored, hnewest⟩ := hrest hring
  have hflat : keysIn (chunkFiles chunks) chunks.length = keys := by
    rw [chunkFiles_keys, ← (C52_content hundredMb keys (ok ())).1, hch]
  have hs := (hM 0 (by omega)).sort
  obtain ⟨running, hr, info, a0, a1, hne, hcfg, hserv⟩ := stats_deployed hc h2 (chunkFiles_inOrder h1000) hM hE0 hE1 hp
    (k := chunks.length) (by simp [chunkFiles]) (by rw [hflat]; exact hkn) (parse := parse) (by rw [hflat]; exact hP) hs
    hscheme
  rw [hflat] at hserv
  have h1 : ∀ k ∈ keys, StoredAs L.lower ser dump k.id (parse k) := by
    intro k hk
    obtain ⟨e, h1, h2, h3, h4, h5⟩ := hstored k hk
    exact ⟨h4, by rw [h3, ← h2]; exact h5, e, h1, h3⟩
  refine ⟨running, _, info, a0, a1, hr, hne, hcfg, hserv, ?_, ?_, ?_, ?_⟩
  · simp [Predicate.Spec.Loaded, infosOf]
  · simp only [infosOf, List.length_map]
    exact (hs keys).1.length_eq
  · intro ki hki
    simp only [infosOf, List.mem_map] at hki
    obtain ⟨k, hk, rfl⟩ := hki
    exact ⟨k.id, parse k, h1 k ((hs keys).1.mem_iff.mp hk), rfl⟩
  · intro P
    apply count_addresses hkn (hs keys).1 h1
    rintro email e ⟨he, hsmall, e', hnew, rfl⟩
    obtain ⟨g1, g2⟩ := hnewest email e' he hnew hsmall
    exact ⟨_, g1, rfl, g2⟩

/-- C65 as claimed, for the web page that counts addresses ending with a text: it shows how many of the addresses with a
stored key end with the text. -/
def C65_Statement : Prop :=
  ∀ (L : Lib) (W : World) (gob : Msg → List Byte) (timeOf : Int → Time) (algoOf : Entity → Byte) (dump : List (List Entity))
    (ser : Entity → List Byte) (worder : List (Str × Entity) → List (Str × Entity)), Enumerates worder →
    ∀ servers : List (List Char × Server), Config servers → servers.length = 2 → (∀ e, (W.hash e).length = 32) →
    Predicate.Spec.Ready W 5 → (∀ db q, Predicate.Spec.NoHits W 5 db q) →
    ∀ (m : List (Str × Entity)) (keys : List Key), analyzeKeyDump L.lower (dump.map ok) = ok m →
    writeKeysOnDisk (fun e => ok (ser e)) worder m = ok keys → keys.length < Field.Spec.p →
    (∀ es : List Entity, es ≠ [] → (∀ e ∈ es, ∃ email, (email, e) ∈ m) → L.readRing (es.flatMap ser) = ok es) →
    ∀ chunks : List (List Key), splitDump hundredMb keys (ok ()) = (chunks, ok ()) → chunks.length ≤ 1000 →
    ∀ (machine : Nat → Machine) (config : Nat → List (List Char × Server)),
    (∀ i, i < 2 → Installed L (chunkFiles chunks) (machine i)) →
    Equipped L W.hash gob timeOf algoOf W.env0 W.now0 W.buf0 (machine 0) →
    Equipped L W.hash gob timeOf algoOf W.env1 W.now1 W.buf1 (machine 1) →
    (∀ i, i < 2 → (config i).Perm servers) →
    ∃ running addrs, startAll machine config 2 chunks.length "complexVPIR" = ok running ∧ loadConfig servers = ok addrs ∧
      ∀ (S : Schedule) (req : Request), Fair S → req.parse = ok () → req.value "position" = "end" →
        req.value "text" ≠ "" → (bytes (req.value "text")).length ≤ 32 →
        ∃ r, handleCountEmail W.hash (executeStatsQuery W gob (network running) S addrs) req = ok [.count r] ∧
          r.toNat = addressesWith L.lower ser dump (fun email _ => bytes (req.value "text") <:+ email)

/-- C65, what holds: the numbers shown are those of the stored keys, each key standing for the address of its primary
identity as it is written there. Command line (connections in server order), web pages for texts and algorithms,
interactive client. Missing from the full claim: addresses with capital letters, which are stored in lower case but counted
as written, and keys whose primary identity has no address, which are stored under another one but counted without
(`C65_refuted`); and the provisos of C63. -/
theorem C65_statistics_partial (L : Lib) (W : World) (gob : Msg → List Byte) (timeOf : Int → Time)
    (algoOf : Entity → Byte) (dump : List (List Entity)) (ser : Entity → List Byte)
    (worder : List (Str × Entity) → List (Str × Entity)) (hw : Enumerates worder)
    (servers : List (List Char × Server)) (hc : Config servers) (h2 : servers.length = 2)
    (hh : ∀ e, (W.hash e).length = 32) (scheme : String) (ex : Nat) (hready : Predicate.Spec.Ready W ex)
    (hscheme : scheme = "complexPIR" ∧ ex = 1 ∨ scheme = "complexVPIR" ∧ ex = 5) :
    ∃ m keys, analyzeKeyDump L.lower (dump.map ok) = ok m ∧ writeKeysOnDisk (fun e => ok (ser e)) worder m = ok keys ∧
      (keys.length < Field.Spec.p →
        (∀ es : List Entity, es ≠ [] → (∀ e ∈ es, ∃ email, (email, e) ∈ m) → L.readRing (es.flatMap ser) = ok es) →
        ∀ chunks : List (List Key), splitDump hundredMb keys (ok ()) = (chunks, ok ()) → chunks.length ≤ 1000 →
        ∀ (machine : Nat → Machine) (config : Nat → List (List Char × Server)),
        (∀ i, i < 2 → Installed L (chunkFiles chunks) (machine i)) →
        Equipped L W.hash gob timeOf algoOf W.env0 W.now0 W.buf0 (machine 0) →
        Equipped L W.hash gob timeOf algoOf W.env1 W.now1 W.buf1 (machine 1) →
        (∀ i, i < 2 → (config i).Perm servers) →
        ∃ (running : List Running) (db : KeyDB) (a0 a1 : String),
          startAll machine config 2 chunks.length scheme = ok running ∧
          (∀ cfg : List (List Char × Server), cfg.Perm servers → loadConfig cfg = ok [a0, a1]) ∧
          (∀ ki ∈ db.keys, ∃ email e, StoredAs L.lower ser dump email e ∧ ki = describe timeOf algoOf e) ∧
          ∀ S : Schedule, Fair S →
            (∀ (mk : Int → Time) (f : Flags) (typed : String) (P : KeyInfo → Prop), f.scheme = scheme →
              OptionsAsk W.hash mk db f P → Undisturbed W ex db (complexQuery W.hash mk f) → S.conns [a0, a1] = [a0, a1] →
              ∃ r, main L W gob mk (network running) S [a0, a1] f typed = ok (.count r) ∧
                r.toNat = addressesWith L.lower ser dump (fun _ e => P (describe timeOf algoOf e))) ∧
            (ex = 5 → ∀ (req : Request) (begins : Bool), req.parse = ok () →
              req.value "position" = (if begins then "begin" else "end") → req.value "text" ≠ "" →
              Plain db (bytes (req.value "text")) →
              Undisturbed W 5 db (toEmailClientFSS W.hash (textInfo begins (bytes (req.value "text")))
                (bytes (req.value "text"))) →
              ∃ r, handleCountEmail W.hash (executeStatsQuery W gob (network running) S [a0, a1]) req = ok [.count r] ∧
                r.toNat = addressesWith L.lower ser dump (fun _ e => AtEnd begins (bytes (req.value "text")) e.primary)) ∧
            (ex = 5 → ∀ (req : Request) (n : Nat), req.parse = ok () →
              Predicate.Spec.algoNumber (req.value "algo") = some n →
              Undisturbed W 5 db (toPKAClientFSS ⟨2, 0, 0, false, false, false⟩ (req.value "algo")) →
              ∃ r, handleCountAlgo (executeStatsQuery W gob (network running) S [a0, a1]) req = ok [.count r] ∧
                r.toNat = addressesWith L.lower ser dump (fun _ e => (algoOf e).toNat = n)) ∧
            (ex = 5 → ∀ (c : Choice) (mk : Int → Time),
              (match c with
                | .countEmail _ text => text ≠ "" ∧ Plain db (bytes text)
                | .countAlgo name => name ∈ ["RSA", "ElGamal", "DSA", "ECDH", "ECDSA"]
                | _ => False) →
              Undisturbed W 5 db (interactiveQuery W.hash mk c) →
              showStats W gob mk (network running) S [a0, a1] c =
                ok ("Result of " ++ caption c ++ ": " ++
                  toString (addressesWith L.lower ser dump (fun _ e => Said c (describe timeOf algoOf e))) ++
                  ".\n Type enter to continue."))) := by
  obtain ⟨m, keys, hm, hk, h⟩ := C65_database L W gob timeOf algoOf dump ser worder hw servers hc h2 scheme ex hscheme
  refine ⟨m, keys, hm, hk, ?_⟩
  intro hsmall hring chunks hch h1000 machine config hM hE0 hE1 hp
  obtain ⟨running, db, info, a0, a1, hr, hne, hcfg, hserv, hload, hlen, hkeys, hcount⟩ :=
    h hring chunks hch h1000 machine config hM hE0 hE1 hp
  have hst : StatsReady W ex db := ⟨hh, hready, hload, by omega⟩
  refine ⟨running, db, a0, a1, hr, hcfg, hkeys, ?_⟩
  intro S hS
  refine ⟨?_, ?_, ?_, ?_⟩
  · intro mk f typed P hf hask hno hord
    obtain ⟨r, h1, h2⟩ := C63_command_line_partial hS hserv hne hst L mk f typed (by rw [hf]; exact hscheme) P hask hno hord
    exact ⟨r, h1, by rw [h2, hcount]⟩
  · rintro rfl req begins hparse hpos ht hpl hno
    obtain ⟨r, h1, h2⟩ := C63_web_email_partial hS hserv hst req hparse begins hpos ht hpl hno
    exact ⟨r, h1, by rw [h2, hcount]; rfl⟩
  · rintro rfl req n hparse hn hno
    obtain ⟨r, h1, h2⟩ := C63_web_algo_partial hS hserv hst req hparse n hn hno
    exact ⟨r, h1, by rw [h2, hcount]; rfl⟩
  · rintro rfl c mk hcc hno
    rw [C63_interactive_partial hS hserv hst mk c hcc hno, hcount]

theorem filed_lower {lower : Str → Str} {e : Entity} {email : Str} (h : FiledUnder lower e email) (hp : e.primary ≠ [])
    (hl : lower e.primary = e.primary) : email = e.primary := by
  rcases h with ⟨-, h⟩ | ⟨h, -⟩ | ⟨h, -⟩
  · rw [h, hl]
  · exact absurd h hp
  · exact absurd h hp

/-- C65: if the primary identity of every key of the dump has an address, in lower case, the addresses counted are those under
which the keys are stored. With `C65_statistics_partial` this is the full claim for such dumps. -/
theorem C65_lower_case_partial (lower : Str → Str) (ser : Entity → List Byte) (dump : List (List Entity))
    (h : ∀ e ∈ dump.flatten, e.primary ≠ [] ∧ lower e.primary = e.primary) (Q : Str → Prop) :
    addressesWith lower ser dump (fun _ e => Q e.primary) = addressesWith lower ser dump (fun email _ => Q email) := by
  unfold addressesWith
  congr 1
  have key : ∀ email e, StoredAs lower ser dump email e → email = e.primary := by
    rintro email e ⟨-, -, e', ⟨b, a, hd, hel, -, -⟩, rfl⟩
    have hm : e' ∈ dump.flatten := by rw [hd]; simp
    exact filed_lower hel.2 (h e' hm).1 (h e' hm).2
  congr 1
  funext email
  apply propext
  constructor
  · rintro ⟨e, hs, hq⟩
    exact ⟨e, hs, by rw [key email e hs]; exact hq⟩
  · rintro ⟨e, hs, hq⟩
    exact ⟨e, hs, by show Q e.primary; rw [← key email e hs]; exact hq⟩

/-- Lower case of the letter A. -/
def lowerA (s : Str) : Str := s.map (fun b => if b = 65 then 97 else b)

/-- The parser for packets of one byte, the address. -/
def ringOfLetters (b : List Byte) : Res (List Entity) := ok (b.map (fun x => entityOf [x]))

/-- The client of the examples. -/
def letterLib : Lib := { exLib Point.plainDpf with lower := lowerA, readRing := ringOfLetters }

/-- A machine that answers predicate queries about these files. -/
noncomputable def letterMachine (files : List (List Char × List Key)) (env : Nat → Fss.Env) (now : Nat → Int)
    (buf : List Byte) : Machine :=
  { exMachine Point.plainDpf with
    queryHash := Predicate.exHash
    readRing := ringOfLetters
    ungob := fun bs =>
      haveI := Classical.propDecidable
      if h : ∃ m, exGob m = bs then ok h.choose else err "gob"
    dir := files.map (fun f => (f.1, ok f.2))
    env := env
    now := now
    buf := buf }

theorem letterMachine_installed (files : List (List Char × List Key)) (env : Nat → Fss.Env) (now : Nat → Int)
    (buf : List Byte) : Installed letterLib files (letterMachine files env now buf) :=
  ⟨rfl, rfl, rfl, sortDesc_sorts, reversed_fair, List.Perm.refl _, fun _ => rfl⟩

theorem letterMachine_equipped (files : List (List Char × List Key)) (env : Nat → Fss.Env) (now : Nat → Int)
    (buf : List Byte) : Equipped letterLib Predicate.exHash exGob dayTime (fun _ => 1) env now buf
      (letterMachine files env now buf) := by
  refine ⟨rfl, rfl, rfl, rfl, ?_, rfl, rfl, rfl⟩
  intro m
  have h : ∃ m', exGob m' = exGob m := ⟨m, rfl⟩
  unfold letterMachine
  dsimp only
  rw [dif_pos h, exGob_injective h.choose_spec]

/-- The world of the examples. -/
def letterWorld : World := Predicate.world Fss.parityCipher 5 0 0

theorem letters_read (es : List Entity) (m : List (Str × Entity)) (h : ∀ x ∈ m, x.2 = entityOf (x.2.primary.take 1) ∧
    x.2.primary.length = 1) (hes : ∀ e ∈ es, ∃ email, (email, e) ∈ m) : ringOfLetters (es.flatMap (·.primary)) = ok es := by
  unfold ringOfLetters
  congr 1
  induction es with
  | nil => rfl
  | cons e es ih =>
    obtain ⟨email, he⟩ := hes e (by simp)
    obtain ⟨h1, h2⟩ := h _ he
    have h3 := ih (fun x hx => hes x (List.mem_cons_of_mem _ hx))
    obtain ⟨b, hb⟩ := List.length_eq_one_iff.mp h2
    dsimp only at h1 hb
    rw [List.flatMap_cons, List.map_append, h3, hb]
    rw [hb] at h1
    rw [h1]
    rfl

theorem letter_import : analyzeKeyDump lowerA ([[entityOf [65]]].map ok) = ok [([97], entityOf [65])] := by decide

theorem letter_write : writeKeysOnDisk (fun e => ok (e.primary)) List.reverse [([97], entityOf [65])] =
    ok [⟨[97], [65]⟩] := by decide

theorem letter_ring : ∀ es : List Entity, es ≠ [] → (∀ e ∈ es, ∃ email, (email, e) ∈ [(([97] : Str), entityOf [65])]) →
    letterLib.readRing (es.flatMap (·.primary)) = ok es :=
  fun es _ hes => letters_read es _ (by decide) hes

theorem letter_split : splitDump hundredMb [⟨[97], [65]⟩] (ok ()) = ([[⟨[97], [65]⟩]], ok ()) := by decide

theorem letter_installed (files : List (List Char × List Key)) : ∀ i, i < 2 → Installed letterLib files
    ((fun i => if i = 0 then letterMachine files letterWorld.env0 letterWorld.now0 letterWorld.buf0
      else letterMachine files letterWorld.env1 letterWorld.now1 letterWorld.buf1) i) := by
  intro i _
  dsimp only
  split <;> exact letterMachine_installed _ _ _ _

/-- The number shown by the web page for addresses that end with "a", in a deployment whose dump has one key with the address
"A": it is stored under "a" but not counted. -/
theorem letter_deployed : ∃ (running : List Running) (a0 a1 : String),
    startAll (fun i => if i = 0 then
        letterMachine (chunkFiles [[⟨[97], [65]⟩]]) letterWorld.env0 letterWorld.now0 letterWorld.buf0
      else letterMachine (chunkFiles [[⟨[97], [65]⟩]]) letterWorld.env1 letterWorld.now1 letterWorld.buf1)
      (fun _ => exServers 2) 2 1 "complexVPIR" = ok running ∧ loadConfig (exServers 2) = ok [a0, a1] ∧
    ∀ S, Fair S → ∃ r, handleCountEmail letterWorld.hash (executeStatsQuery letterWorld exGob (network running) S [a0, a1])
      (formWith "end" "a" "" "") = ok [.count r] ∧ r.toNat =
        addressesWith lowerA (fun e => e.primary) [[entityOf [65]]] (fun _ e => AtEnd false [97] e.primary) := by
  obtain ⟨m', keys', hm', hk', h'⟩ := C65_statistics_partial letterLib letterWorld exGob dayTime (fun _ => 1) [[entityOf [65]]]
    (fun e => e.primary) List.reverse List.reverse_perm (exServers 2) exServers_config.2.2 rfl Predicate.exHash_length
    "complexVPIR" 5 (Predicate.world_ready5 _ Fss.parityCipher_block _ _) (Or.inr ⟨rfl, rfl⟩)
  obtain rfl : m' = [([97], entityOf [65])] := by
    have := hm'.symm.trans letter_import
    simpa using this
  obtain rfl : keys' = [⟨[97], [65]⟩] := by
    have := hk'.symm.trans letter_write
    simpa using this
  obtain ⟨running, db, a0, a1, hr', ha', -, hS⟩ := h' (by rw [Field.p_val]; decide) letter_ring _ letter_split (by decide) _
    (fun _ => exServers 2) (letter_installed _) (letterMachine_equipped _ _ _ _) (letterMachine_equipped _ _ _ _)
    (fun _ _ => List.Perm.refl _)
  refine ⟨running, a0, a1, hr', ha' _ (List.Perm.refl _), ?_⟩
  intro S hF
  obtain ⟨r, h3, h4⟩ := (hS S hF).2.1 rfl (formWith "end" "a" "" "") false rfl rfl (by decide)
    (Or.inl (by decide)) (undisturbed _ _)
  have htext : bytes ((formWith "end" "a" "" "").value "text") = [97] := by decide
  rw [htext] at h4
  exact ⟨r, h3, h4⟩

/-- C65 as claimed is false: a key with the address "A" is stored under "a", but it is not among those whose address ends with
"a". -/
theorem C65_refuted : ¬ C65_Statement := by
  intro H
  obtain ⟨running, addrs, hr, ha, h⟩ := H letterLib letterWorld exGob dayTime (fun _ => 1) [[entityOf [65]]]
    (fun e => e.primary) List.reverse List.reverse_perm (exServers 2) exServers_config.2.2 rfl Predicate.exHash_length
    (Predicate.world_ready5 _ Fss.parityCipher_block _ _) (fun db q => Predicate.world_noHits 0 0 5 db q) _ _ letter_import
    letter_write (by rw [Field.p_val]; decide) letter_ring _ letter_split (by decide) _ (fun _ => exServers 2)
    (letter_installed _) (letterMachine_equipped _ _ _ _) (letterMachine_equipped _ _ _ _) (fun _ _ => List.Perm.refl _)
  obtain ⟨r, h1, h2⟩ := h (order false) (formWith "end" "a" "" "") (order_fair false) rfl rfl (by decide) (by decide)
  obtain ⟨running', a0, a1, hr', ha', h'⟩ := letter_deployed
  have e1 : running' = running := by
    have := hr'.symm.trans hr
    simpa using this
  have e2 : addrs = [a0, a1] := by
    have := ha.symm.trans ha'
    simpa using this
  subst e1 e2
  obtain ⟨r', h3, h4⟩ := h' (order false) (order_fair false)
  have h5 := h1.symm.trans h3
  simp only [ok.injEq, List.cons.injEq, Write.count.injEq, and_true] at h5
  subst h5
  have htext : bytes ((formWith "end" "a" "" "").value "text") = [97] := by decide
  rw [htext] at h2
  have hstored : ∀ email e, StoredAs lowerA (fun e => e.primary) [[entityOf [65]]] email e ↔
      email = [97] ∧ e = entityOf [65] := by
    intro email e
    constructor
    · rintro ⟨-, -, e', ⟨b, a, hd, hel, -, -⟩, rfl⟩
      have hme : e' ∈ [[entityOf [65]]].flatten := by rw [hd]; simp
      simp only [List.flatten_cons, List.flatten_nil, List.append_nil, List.mem_singleton] at hme
      subst hme
      refine ⟨?_, rfl⟩
      rcases hel.2 with ⟨-, h⟩ | ⟨h, -⟩ | ⟨h, -⟩
      · rw [h]; decide
      · exact absurd h (by decide)
      · exact absurd h (by decide)
    · rintro ⟨rfl, rfl⟩
      exact ⟨by decide, by decide, entityOf [65], ⟨[], [], rfl, ⟨rfl, Or.inl ⟨by decide, by decide⟩⟩, by simp, by simp⟩, rfl⟩
  have c1 : addressesWith lowerA (fun e => e.primary) [[entityOf [65]]] (fun email _ => [97] <:+ email) = 1 := by
    unfold addressesWith
    rw [Nat.card_eq_one_iff_unique]
    refine ⟨⟨fun x y => ?_⟩, ⟨⟨[97], entityOf [65], (hstored _ _).mpr ⟨rfl, rfl⟩, by decide⟩⟩⟩
    obtain ⟨x, e, hx, -⟩ := x
    obtain ⟨y, e', hy, -⟩ := y
    simp only [Subtype.mk.injEq]
    rw [((hstored _ _).mp hx).1, ((hstored _ _).mp hy).1]
  have c0 : addressesWith lowerA (fun e => e.primary) [[entityOf [65]]] (fun _ e => AtEnd false [97] e.primary) = 0 := by
    unfold addressesWith
    have : IsEmpty {email : Str // ∃ e, StoredAs lowerA (fun e => e.primary) [[entityOf [65]]] email e ∧
        AtEnd false [97] e.primary} := by
      refine ⟨?_⟩
      rintro ⟨email, e, he, hat⟩
      rw [((hstored _ _).mp he).2] at hat
      exact absurd hat (by decide)
    exact Nat.card_of_isEmpty
  have h2' : r.toNat = 1 := by rw [← c1]; exact h2
  have h4' : r.toNat = 0 := by rw [← c0]; exact h4
  omega

/-- C65: a predicate server that has loaded its keys reports no rows and as many columns as it has keys. -/
theorem C65_info (M : Machine) (f : ServerFlags) (hs : f.scheme = "complexPIR" ∨ f.scheme = "complexVPIR") (keys : List Key)
    (hk : loadKeys M f.files = ok keys) (info : DbInfo) (answer : List Byte → Res (List Byte))
    (h : loadServer M f = ok (info, answer)) :
    info.numRows = 0 ∧ info.numColumns = keys.length ∧ info.blockSize = 0 ∧ info.pirType = "" := by
  have h1 : ¬ f.scheme = "pointPIR" := by rcases hs with h | h <;> rw [h] <;> decide
  have h2 : ¬ f.scheme = "pointVPIR" := by rcases hs with h | h <;> rw [h] <;> decide
  unfold loadServer at h
  rw [if_neg h1, if_neg h2, if_pos hs, hk, orFatal_ok, ok_bind, bind_eq_ok] at h
  obtain ⟨infos, -, h⟩ := h
  have := (Prod.mk.inj (ok.inj h)).1
  rw [← this]
  exact ⟨rfl, rfl, rfl, rfl⟩

example (info : DbInfo) (answer : List Byte → Res (List Byte)) (h : loadServer
    { exMachine Point.plainDpf with dir := [(chunkName 0, ok [⟨[97], [97]⟩])], sort := id } ⟨0, 1, "complexPIR"⟩ = ok (info, answer)) :
    info.numColumns = 1 :=
  (C65_info { exMachine Point.plainDpf with dir := [(chunkName 0, ok [⟨[97], [97]⟩])], sort := id } ⟨0, 1, "complexPIR"⟩
    (Or.inl rfl) [⟨[97], [97]⟩] (by
      unfold loadKeys readDir
      rw [List.mergeSort_singleton]
      decide) info answer h).2.1

example : ∃ r, loadServer { exMachine Point.plainDpf with dir := [(chunkName 0, ok [⟨[97], [97]⟩])], sort := id }
    ⟨0, 1, "complexPIR"⟩ = ok r := by
  unfold loadServer loadKeys readDir
  simp only [List.mergeSort_singleton]
  exact ⟨_, rfl⟩

/-- The hypotheses of C65 are met by the deployment of `letter_deployed`, whose page shows a number. -/
example : ∃ (running : List Running) (a0 a1 : String), ∀ S, Fair S → ∃ r, handleCountEmail letterWorld.hash
    (executeStatsQuery letterWorld exGob (network running) S [a0, a1]) (formWith "end" "a" "" "") = ok [.count r] := by
  obtain ⟨running, a0, a1, -, -, h⟩ := letter_deployed
  exact ⟨running, a0, a1, fun S hS => let ⟨r, hr, _⟩ := h S hS; ⟨r, hr⟩⟩

/-- A dump with two lower-case addresses meets the hypothesis of `C65_lower_case_partial`. -/
example : ∀ e ∈ [[entityOf [97]], [entityOf [98]]].flatten, e.primary ≠ [] ∧ lowerA e.primary = e.primary := by decide

end Verif.Deploy
