import Verif.Lemmas.Client
import Verif.Props.Predicate

/-! # C60: looking up a key with the client programs -/

namespace Verif.Client
open Res Verif.Cmd Verif.Pgp Verif.Pgp.Spec Verif.Query Verif.Client.Spec Verif.MerklePir Verif.Point.Spec Verif.Layout

/-- From the outcome of `getKey` to what the programs show. -/
theorem programs_show (L : Lib) (W : Predicate.World) (gob : Predicate.Msg → List Byte) (mk : Int → Time) {net : Net}
    {S : Schedule} (hS : Fair S) {mode : Nat} {db : Database.Bytes}
    {servers : List String} (hserv : PointServers net L.dpf mode db servers) (hdesc : Describable db)
    (hfit : ServersFit L.dpf mode servers.length) (hread : Point.Delivers L.read) (hh : HashLong L.hash)
    {blocks : List (List Byte)} (hB : Serves L.H db blocks)
    (hl : blocks.length = db.info.numRows * db.info.numColumns) (h0 : 0 < blocks.length) (hN : blocks.length < 2 ^ 32)
    (id : String) (hid : id ≠ "") :
    (∀ a, getKey L.H L.dpf L.read L.hash L.lower L.readRing L.armor mode db servers.length (bytes id) = ok a →
      ShowKey L W gob mk net S servers id a) ∧
    (getKey L.H L.dpf L.read L.hash L.lower L.readRing L.armor mode db servers.length (bytes id) =
      err "no key with the given email id is found" → SayNoKey L W gob mk net S servers id) ∧
    ((getKey L.H L.dpf L.read L.hash L.lower L.readRing L.armor mode db servers.length (bytes id)).isCrash →
      Spec.Crash L W gob mk net S servers id) := by
  obtain ⟨h1, h2, h3⟩ := programs L W gob mk hS hserv hdesc hfit hread hh hB hl h0 hN id hid
  have hflag : ∀ (f : Flags) (typed : String), (f.id = id ∨ f.id = "" ∧ typed = id) →
      (if f.id = "" then typed else f.id) = id := by
    rintro f typed (h | ⟨h, h'⟩)
    · rw [if_neg (by rw [h]; exact hid), h]
    · rw [if_pos h, h']
  have hk : contains "no key with the given email id is found" keyNotFoundErr = true := by decide
  refine ⟨fun a ha => ⟨fun hnd f typed hf hi => ?_, ?_, fun req hr he => ?_⟩,
    fun ha => ⟨fun hnd f typed hf hi => ?_, ?_, fun req hr he => ?_⟩,
    fun ha => ⟨fun hnd f typed hf hi => ?_, ?_, fun req hr he => ?_⟩⟩
  · rw [h1 hnd f typed hf (hflag f typed hi), ha]; rfl
  · rw [h2, ha]
  · rw [h3 req hr he, ha]
  · rw [h1 hnd f typed hf (hflag f typed hi), ha]; rfl
  · rw [h2, ha]
    dsimp only
    rw [if_pos hk]
  · rw [h3 req hr he, ha]
    dsimp only
    rw [if_pos hk]
  all_goals
    cases hg : getKey L.H L.dpf L.read L.hash L.lower L.readRing L.armor mode db servers.length (bytes id) with
    | ok a => rw [hg] at ha; cases ha
    | err m => rw [hg] at ha; cases ha
    | crash m => ?_
  · rw [h1 hnd f typed hf (hflag f typed hi), hg]; trivial
  · rw [h2, hg]; trivial
  · rw [h3 req hr he, hg]; trivial

/-- C60 as claimed: with honest point servers of the server program (all started by `NewPIR`, cmd/grpc/server/main.go:141-146)
that loaded the same keys, and in every order of enumeration and arrival, the three programs show a loaded key. -/
def C60_Statement : Prop :=
  ∀ (L : Lib) (W : Predicate.World) (gob : Predicate.Msg → List Byte) (mk : Int → Time) (net : Net) (S : Schedule),
    Fair S → Point.Delivers L.read → HashLong L.hash → Correct L.dpf → ∀ (sort : List Key → List Key), SortsById sort →
    ∀ (order : Orders), OrdersFair order → ∀ (loaded : List Key) (rebalanced : Bool), 10 ≤ loaded.length →
    loaded.length ≤ 2 ^ 32 → (loaded.map (·.id)).Nodup → ∀ (parse : Key → Entity), Parses L.readRing parse loaded →
    NamedBy L.lower parse loaded → ∀ db, generateRealKeyBytes L.hash sort order loaded rebalanced = ok db →
    Describable db → ∀ servers : List String, 2 ≤ servers.length → PointServers net L.dpf 0 db servers →
    ∀ k ∈ loaded, ∀ (id : String) (a : List Byte), id ≠ "" → bytes id = k.id → L.armor (parse k) = ok a →
      ShowKey L W gob mk net S servers id a

/-- C60, what holds: with servers fit for their number (one or at least three of those of the server program, or two
that expand the keys) the programs show loaded keys, and say so if there is no key; but if the bucket of the identifier
is empty they crash. Missing from the full claim: two servers of the server program, for which it is false. -/
theorem C60_lookup_partial (L : Lib) (W : Predicate.World) (gob : Predicate.Msg → List Byte) (mk : Int → Time)
    (hread : Point.Delivers L.read) (hh : HashLong L.hash)
    (sort : List Key → List Key) (hs : SortsById sort) (order : Orders) (ho : OrdersFair order) (loaded : List Key)
    (rebalanced : Bool) (h10 : 10 ≤ loaded.length) (h32 : loaded.length ≤ 2 ^ 32) (hnd : (loaded.map (·.id)).Nodup)
    (parse : Key → Entity) (hparse : Parses L.readRing parse loaded) (hnamed : NamedBy L.lower parse loaded) :
    ∃ db, generateRealKeyBytes L.hash sort order loaded rebalanced = ok db ∧ (Describable db →
      ∀ (net : Net) (S : Schedule), Fair S → ∀ (servers : List String) (mode : Nat), ServersFit L.dpf mode servers.length →
      PointServers net L.dpf mode db servers →
      (∀ k ∈ loaded, ∀ (id : String) (a : List Byte), id ≠ "" → bytes id = k.id → L.armor (parse k) = ok a →
        ShowKey L W gob mk net S servers id a) ∧
      (∀ id : String, id ≠ "" → (∀ k ∈ loaded, k.id ≠ bytes id) →
        (∃ k ∈ loaded, position L.hash (db.info.numRows * db.info.numColumns) k.id =
          position L.hash (db.info.numRows * db.info.numColumns) (bytes id)) →
        SayNoKey L W gob mk net S servers id) ∧
      (∀ id : String, id ≠ "" → (∀ k ∈ loaded, position L.hash (db.info.numRows * db.info.numColumns) k.id ≠
          position L.hash (db.info.numRows * db.info.numColumns) (bytes id)) →
        Spec.Crash L W gob mk net S servers id)) := by
  obtain ⟨t1, t2, -⟩ := table_size h32 rebalanced
  have t2 := t2 h10
  obtain ⟨R, C, hd⟩ : ∃ R C, dims loaded rebalanced = (R, C) := ⟨_, _, rfl⟩
  obtain ⟨db, h1, h2, h3, h4⟩ := serves_bytes (H := L.H) hh hs ho loaded h10 h32 rebalanced hd
  unfold dims at hd
  rw [hd] at t1 t2
  refine ⟨db, h1, fun hdesc net S hS servers mode hfit hserv => ?_⟩
  have hlen : (storedBlocks L.hash (R * C) (sort loaded)).length = R * C := by simp [storedBlocks]
  have hL := Pgp.lookup (H := L.H) hh (hs loaded).1 h2 h3 h4 t2 t1 hread hfit hparse hnamed L.armor
  have hP := fun id hid => programs_show L W gob mk hS hserv hdesc hfit hread hh h4 (by rw [hlen, h2, h3])
    (by rw [hlen]; exact t2) (by rw [hlen]; exact t1) id hid
  refine ⟨fun k hk id a hid hb ha => (hP id hid).1 a ?_, fun id hid habs hex => (hP id hid).2.1 ?_,
    fun id hid hno => (hP id hid).2.2 ?_⟩
  · rw [hb, hL.1 k hk hnd, ha]
  · rw [h2, h3] at hex
    exact hL.2.1 (bytes id) habs hex
  · rw [h2, h3] at hno
    exact hL.2.2 (bytes id) hno

/-- C60 for the authenticated database. Missing from the full claim: as above, and databases whose proofs cannot be made
(C07). -/
theorem C60_lookup_merkle_partial (L : Lib) (hH : ∀ s, (L.H s).length = 32) (ck : List Byte → Merkle.U64) (W : Predicate.World)
    (gob : Predicate.Msg → List Byte) (mk : Int → Time)
    (hread : Point.Delivers L.read) (hh : HashLong L.hash)
    (sort : List Key → List Key) (hs : SortsById sort) (order : Orders) (ho : OrdersFair order) (loaded : List Key)
    (rebalanced : Bool) (h10 : 10 ≤ loaded.length) (h32 : loaded.length ≤ 2 ^ 32) (hnd : (loaded.map (·.id)).Nodup)
    (R C : Nat) (hd : Layout.calculateNumRowsAndColumns (Layout.preSquareNumBlocks loaded.length) rebalanced = (R, C))
    (hsize : R * C ≤ 2 ^ 31) (hck : Merkle.ChecksumsFaithful ck (storedBlocks L.hash (R * C) (sort loaded)))
    (hdist : Nat.clog 2 (storedBlocks L.hash (R * C) (sort loaded)).dedup.length = Nat.clog 2 (R * C))
    (parse : Key → Entity) (hparse : Parses L.readRing parse loaded) (hnamed : NamedBy L.lower parse loaded) :
    ∃ db, generateRealKeyMerkle L.H ck L.hash sort order loaded rebalanced = ok db ∧ (Describable db →
      ∀ (net : Net) (S : Schedule), Fair S → ∀ (servers : List String) (mode : Nat), ServersFit L.dpf mode servers.length →
      PointServers net L.dpf mode db servers →
      (∀ k ∈ loaded, ∀ (id : String) (a : List Byte), id ≠ "" → bytes id = k.id → L.armor (parse k) = ok a →
        ShowKey L W gob mk net S servers id a) ∧
      (∀ id : String, id ≠ "" → (∀ k ∈ loaded, k.id ≠ bytes id) →
        (∃ k ∈ loaded, position L.hash (R * C) k.id = position L.hash (R * C) (bytes id)) →
        SayNoKey L W gob mk net S servers id) ∧
      (∀ id : String, id ≠ "" →
        (∀ k ∈ loaded, position L.hash (R * C) k.id ≠ position L.hash (R * C) (bytes id)) →
        Spec.Crash L W gob mk net S servers id)) := by
  obtain ⟨t1, t2, -⟩ := table_size h32 rebalanced
  have t2 := t2 h10
  have hl : (storedBlocks L.hash (R * C) (sort loaded)).length = R * C := by simp [storedBlocks]
  obtain ⟨db, h1, h2, h3, h4⟩ := serves_merkle hH hh hs ho loaded h10 h32 rebalanced hd hsize hck hdist
  rw [hd] at t1 t2
  refine ⟨db, h1, fun hdesc net S hS servers mode hfit hserv => ?_⟩
  have hL := Pgp.lookup (H := L.H) hh (hs loaded).1 h2 h3 h4 t2 t1 hread hfit hparse hnamed L.armor
  have hP := fun id hid => programs_show L W gob mk hS hserv hdesc hfit hread hh h4 (by rw [hl, h2, h3])
    (by rw [hl]; exact t2) (by rw [hl]; exact t1) id hid
  refine ⟨fun k hk id a hid hb ha => (hP id hid).1 a ?_, fun id hid habs hex => (hP id hid).2.1 ?_,
    fun id hid hno => (hP id hid).2.2 ?_⟩
  · rw [hb, hL.1 k hk hnd, ha]
  · exact hL.2.1 (bytes id) habs hex
  · exact hL.2.2 (bytes id) hno

/-- C60: with two servers of the server program, a DPF with compressed keys and a database of more columns than a key
has bits, none of the programs ever shows a key. -/
theorem C60_two_servers_show_nothing (L : Lib) (W : Predicate.World) (gob : Predicate.Msg → List Byte) (mk : Int → Time)
    (net : Net) (S : Schedule) (hS : Fair S) (db : Database.Bytes) (hdesc : Describable db) (hR : 0 < db.info.numRows)
    (hshort : ∀ α logN k0 k1, L.dpf.gen α logN = ok (k0, k1) → 8 * k0.length < db.info.numColumns) (servers : List String)
    (h2 : servers.length = 2) (hserv : PointServers net L.dpf 0 db servers) (id : String) :
    (servers.Nodup → ∀ (f : Flags) (typed : String), f.scheme = "pointPIR" ∨ f.scheme = "pointVPIR" →
      ¬ ∃ o, main L W gob mk net S servers f typed = ok o) ∧
    (¬ ∃ a, downloadKey L net S servers id = ok (.result a)) ∧
    (∀ req : Request, ¬ ∃ a, handleRetrieve L net S servers req = ok (.body a) ∧ a ≠ bytes "key not found in block") := by
  have hno : ∀ l : List String, l.length = 2 → PointServers net L.dpf 0 db l → ∀ s a,
      lookup L 2 (runQueriesActor net S l) (pointInfo (transmit (report db))) s ≠ ok a := by
    intro l hl hserv s a h
    rw [transmit_report hdesc] at h
    unfold lookup lookupQueries at h
    simp only [bind_eq_ok] at h
    obtain ⟨⟨qs, st⟩, ⟨hk, -, hq⟩, answers, ha, -⟩ := h
    rw [queryBytes_info] at hq
    unfold Point.queryBytes Point.query at hq
    have hinv : ∀ i, Point.invalidQueryInputsIT i ((2 : Nat) : Int) = false := by simp [Point.invalidQueryInputsIT]
    simp only [hinv, bind_eq_ok, Bool.false_eq_true, if_false] at hq
    obtain ⟨i, -, ⟨ix, iy⟩, -, hq⟩ := hq
    rw [if_pos (by rfl), bind_eq_ok] at hq
    obtain ⟨⟨k0, k1⟩, hg, hq⟩ := hq
    simp only [ok.injEq, Prod.mk.injEq] at hq
    obtain ⟨x, y, rfl⟩ : ∃ x y, l = [x, y] := List.length_eq_two.mp hl
    rw [← hq.1] at ha
    unfold runQueriesActor at ha
    rw [sends_eq _ _ (by simp), ok_bind] at ha
    simp only [List.zip_cons_cons, List.mapM_cons, bind_eq_ok] at ha
    obtain ⟨as, ⟨b, hb, -⟩, -⟩ := ha
    rw [orFatal_eq_ok, hserv.answer x (by simp)] at hb
    exact Point.short_unanswered L.dpf db k0 hR (hshort _ _ _ _ hg) ⟨b, hb⟩
  have hact : ∀ s a, actorLookup L net S servers s ≠ ok a := by
    intro s a ha
    unfold actorLookup at ha
    rw [gather_eq hS hserv.info, ok_bind, getDBInfos_replicate (by omega), ok_bind] at ha
    rw [h2] at ha
    exact hno servers h2 hserv s a ha
  refine ⟨fun hnd f typed hf => ?_, ?_, fun req => ?_⟩
  · rintro ⟨o, ho⟩
    unfold main at ho
    rw [connect_nodup hserv.dial hnd, orFatal_ok, ok_bind, orFatal_eq_ok] at ho
    unfold exec at ho
    rw [gather_eq hS hserv.info, ok_bind, retrieve_replicate (by omega), ok_bind] at ho
    dsimp only at ho
    rw [if_pos hf] at ho
    by_cases hid : (if f.id = "" then typed else f.id) = ""
    · rw [if_pos hid] at ho
      cases ho
    · rw [if_neg hid, bind_eq_ok] at ho
      obtain ⟨k, hk, -⟩ := ho
      rw [h2] at hk
      exact hno (S.conns servers) (by rw [(hS.conns servers).length_eq, h2]) (perm_servers (hS.conns servers) hserv) _ k hk
  · rintro ⟨a, ha⟩
    unfold downloadKey at ha
    cases hl : actorLookup L net S servers (bytes id) with
    | ok k => exact hact _ k hl
    | err m =>
      rw [hl] at ha
      dsimp only at ha
      split at ha <;> cases ha
    | crash m =>
      rw [hl] at ha
      cases ha
  · rintro ⟨a, ha, hne⟩
    unfold handleRetrieve at ha
    cases hp : req.parse with
    | err m => rw [hp] at ha; simp at ha
    | crash m => rw [hp] at ha; cases ha
    | ok u =>
      rw [hp] at ha
      dsimp only at ha
      by_cases hid : req.value "email" = ""
      · rw [if_pos hid] at ha
        simp at ha
      · rw [if_neg hid, gather_eq hS hserv.info, ok_bind, getDBInfos_replicate (by omega)] at ha
        dsimp only at ha
        rw [h2] at ha
        have hi : idx (List.replicate 2 (transmit (report db))) 0 = ok (transmit (report db)) := rfl
        rw [hi, ok_bind] at ha
        cases hl : lookup L 2 (runQueriesActor net S servers) (pointInfo (transmit (report db)))
            (bytes (req.value "email")) with
        | ok k => exact hno servers h2 hserv _ k hl
        | crash m => rw [hl] at ha; cases ha
        | err m =>
          rw [hl] at ha
          dsimp only at ha
          split at ha
          · simp only [ok.injEq, Page.body.injEq] at ha
            exact hne ha.symm
          · simp at ha

/-- A DPF that meets the contract, one of whose keys is empty. -/
def emptyKeyDpf : Point.Dpf where
  gen α logN := ok ([], Point.unitVec (2 ^ logN / 8 + 1) α)
  evalFull k logN := ok (if k = [] then List.replicate (2 ^ logN / 8 + 1) 0 else k)

theorem emptyKeyDpf_correct : Correct emptyKeyDpf := by
  intro α logN _ hα
  have hne : Point.unitVec (2 ^ logN / 8 + 1) α ≠ [] := by
    intro h
    have := congrArg List.length h
    simp at this
  refine ⟨_, _, List.replicate (2 ^ logN / 8 + 1) 0, _, rfl, by simp [emptyKeyDpf], by simp [emptyKeyDpf, hne]; rfl,
    by simp; omega, by simp; omega, ?_⟩
  intro j _
  rw [Point.bitOf_unitVec (by omega)]
  have : bitOf (List.replicate (2 ^ logN / 8 + 1) 0) j = false := by
    unfold bitOf; rw [Point.getD_replicate]; simp
  rw [this]; simp

/-- The libraries of the examples. -/
def exLib (dpf : Point.Dpf) : Lib := ⟨Merkle.toyHash, dpf, Point.sevens, lengthHash, id, ringOfBytes, fun e => ok e.primary⟩

/-- Cipher, random bytes and clocks of the examples. -/
def exWorld : Predicate.World := Predicate.world Fss.parityCipher 5 0 0

/-- Honest point servers of mode 0 at every address. -/
def honestNet (dpf : Point.Dpf) (db : Database.Bytes) : Net :=
  ⟨fun _ => ok (), fun _ => ok (transmit (report db)), fun _ q => Point.answer dpf 0 db q⟩

theorem honestNet_serves (dpf : Point.Dpf) (db : Database.Bytes) (servers : List String) :
    PointServers (honestNet dpf db) dpf 0 db servers := ⟨fun _ _ => rfl, fun _ _ => rfl, fun _ _ _ => rfl⟩

/-- A schedule that reverses everything. -/
def backwards : Schedule := ⟨List.reverse, List.reverse, List.reverse⟩

theorem backwards_fair : Fair backwards := ⟨List.reverse_perm, List.reverse_perm, List.reverse_perm⟩

theorem twenty_db : ∃ db, generateRealKeyBytes lengthHash sortDesc reversed twenty false = ok db ∧ Describable db ∧
    db.info.numRows = 1 ∧ db.info.numColumns = 2 := by
  have := generateRealKeyBytes_eq lengthHash_long sortDesc_sorts reversed_fair twenty (by decide) (by decide) false
    (R := 1) (C := 2) (by decide)
  refine ⟨_, this, ⟨?_, ?_, ?_, ?_⟩, rfl, rfl⟩ <;> decide

/-- C60 as claimed is false: two servers of the server program. -/
theorem C60_refuted : ¬ C60_Statement := by
  intro h
  obtain ⟨db, hdb, hdesc, hR, hC⟩ := twenty_db
  have hshow := h (exLib emptyKeyDpf) exWorld (fun _ => []) dayTime (honestNet emptyKeyDpf db)
    backwards backwards_fair Point.sevens_delivers lengthHash_long emptyKeyDpf_correct sortDesc sortDesc_sorts reversed
    reversed_fair twenty false (by decide) (by decide) (by decide) _ twenty_parses twenty_named db hdb hdesc ["a", "b"]
    (by decide) (honestNet_serves _ _ _) ⟨[3, 1], [3]⟩ (by decide) "\x03\x01" [3, 1] (by decide) (by decide) rfl
  refine (C60_two_servers_show_nothing (exLib emptyKeyDpf) exWorld (fun _ => []) dayTime
    (honestNet emptyKeyDpf db) backwards backwards_fair db hdesc (by omega) ?_ ["a", "b"] rfl
    (honestNet_serves _ _ _) "\x03\x01").2.1 ⟨_, hshow.interactive⟩
  intro α logN k0 k1 hg
  simp only [exLib, emptyKeyDpf, ok.injEq, Prod.mk.injEq] at hg
  rw [← hg.1, hC]
  decide

/-- The hypotheses of the positive theorem hold of three servers with twenty keys; there the web page shows a key. -/
example : ∃ db, generateRealKeyBytes lengthHash sortDesc reversed twenty false = ok db ∧
    handleRetrieve (exLib Point.plainDpf) (honestNet Point.plainDpf db) backwards ["a", "b", "c"]
      ⟨ok (), fun _ => "\x03\x01"⟩ = ok (.body [3, 1]) := by
  obtain ⟨db, h1, h2⟩ := C60_lookup_partial (exLib Point.plainDpf) exWorld (fun _ => []) dayTime
    Point.sevens_delivers lengthHash_long sortDesc sortDesc_sorts
    reversed reversed_fair twenty false (by decide) (by decide) (by decide) _ twenty_parses twenty_named
  obtain ⟨db', hdb, hdesc, hR, hC⟩ := twenty_db
  refine ⟨db, h1, ?_⟩
  have : db = db' := by have := h1.symm.trans hdb; simpa using this
  subst this
  exact ((h2 hdesc (honestNet Point.plainDpf db) backwards backwards_fair ["a", "b", "c"] 0 (servers_fit_three _) (honestNet_serves _ _ _)).1 ⟨[3, 1], [3]⟩ (by decide)
    "\x03\x01" [3, 1] (by decide) (by decide) rfl).web ⟨ok (), fun _ => "\x03\x01"⟩ rfl rfl

end Verif.Client
