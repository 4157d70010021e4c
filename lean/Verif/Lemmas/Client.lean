import Verif.Spec.Client
import Verif.Props.Pgp
import Verif.Props.PredicateMac

/-! # Lemmas on the client programs -/

namespace Verif.Client
open Res Verif.Cmd Verif.Pgp Verif.Pgp.Spec Verif.Query Verif.Client.Spec Verif.MerklePir

@[simp] theorem orFatal_ok {α : Type _} (a : α) : orFatal (ok a) = ok a := rfl

theorem orFatal_eq_ok {α : Type _} {r : Res α} {a : α} : orFatal r = ok a ↔ r = ok a := by
  cases r <;> simp [orFatal]

/-! ### Connections -/

theorem connect_fold {dial : String → Res Unit} {l : List String} (h : ∀ a ∈ l, dial a = ok ()) (acc : List String)
    (hn : (acc ++ l).Nodup) :
    l.foldlM (fun conns s => do
      let _ ← dial s
      ok (if s ∈ conns then conns else conns ++ [s])) acc = ok (acc ++ l) := by
  induction l generalizing acc with
  | nil => simp
  | cons a l ih =>
    rw [List.foldlM_cons, h a (by simp), ok_bind, ok_bind]
    have ha : a ∉ acc := by
      intro hm
      have := List.nodup_append.mp hn
      exact this.2.2 a hm a (by simp) rfl
    rw [if_neg ha, ih (fun x hx => h x (by simp [hx])) _ (by simpa using hn)]
    simp

theorem connect_nodup {dial : String → Res Unit} {l : List String} (h : ∀ a ∈ l, dial a = ok ()) (hn : l.Nodup) :
    connect dial l = ok l := by
  have := connect_fold h [] (by simpa using hn)
  simpa [connect] using this

/-- The enumeration of indexed servers picks the queries in order. -/
theorem sends_from (servers : List String) (qs pre : List (List Byte)) (hl : servers.length ≤ qs.length) :
    (servers.zipIdx pre.length).mapM (fun c => do
      let q ← idx (pre ++ qs) c.2
      ok (c.1, q)) = ok (servers.zip qs) := by
  induction servers generalizing qs pre with
  | nil => simp [pure_eq]
  | cons a l ih =>
    cases qs with
    | nil => simp at hl
    | cons q qs =>
      have hi : idx (pre ++ q :: qs) pre.length = ok q := by simp [idx]
      rw [List.zipIdx_cons, List.mapM_cons]
      simp only [hi, ok_bind]
      have := ih qs (pre ++ [q]) (by simpa using hl)
      simp only [List.length_append, List.length_cons, List.length_nil, List.append_assoc, List.cons_append,
        List.nil_append, Nat.zero_add] at this
      rw [this]
      rfl

theorem sends_eq (servers : List String) (qs : List (List Byte)) (hl : servers.length ≤ qs.length) :
    sends servers qs = ok (servers.zip qs) := by
  have := sends_from servers qs [] hl
  simpa [sends] using this

/-- If all servers answer alike, only the queries matter. -/
theorem dispatch_eq {f : List Byte → Res (List Byte)} {g : String → List Byte → Res (List Byte)} {servers : List String}
    (hg : ∀ a ∈ servers, ∀ q, g a q = f q) (qs : List (List Byte)) (hl : servers.length = qs.length) :
    (servers.zip qs).mapM (fun m => orFatal (g m.1 m.2)) = qs.mapM (fun q => orFatal (f q)) := by
  induction servers generalizing qs with
  | nil =>
    cases qs with
    | nil => rfl
    | cons q qs => simp at hl
  | cons a l ih =>
    cases qs with
    | nil => simp at hl
    | cons q qs =>
      rw [List.zip_cons_cons, List.mapM_cons, List.mapM_cons]
      dsimp only
      rw [hg a (by simp), ih (fun x hx => hg x (by simp [hx])) qs (by simpa using hl)]

theorem mapM_orFatal {α β : Type _} {f : α → Res β} {l : List α} {r : List β} (h : l.mapM f = ok r) :
    l.mapM (fun q => orFatal (f q)) = ok r := by
  induction l generalizing r with
  | nil => simpa using h
  | cons a l ih =>
    rw [List.mapM_cons] at h ⊢
    rw [bind_eq_ok] at h
    obtain ⟨b, hb, h⟩ := h
    rw [bind_eq_ok] at h
    obtain ⟨bs, hbs, h⟩ := h
    rw [hb, orFatal_ok, ok_bind, ih hbs, ok_bind]
    exact h

theorem run_eq {net : Net} {S : Schedule} {servers : List String} {f : List Byte → Res (List Byte)}
    (hg : ∀ a ∈ servers, ∀ q, net.answer a q = f q) {qs answers : List (List Byte)} (hl : servers.length = qs.length)
    (h : qs.mapM f = ok answers) : runQueriesActor net S servers qs = ok (S.answers answers) := by
  unfold runQueriesActor
  rw [sends_eq _ _ (by omega), ok_bind, dispatch_eq hg qs hl, mapM_orFatal h]
  rfl

/-! ### Agreement on the database -/

theorem gather_eq {net : Net} {S : Schedule} (hS : Fair S) {i : DbInfo} {servers : List String}
    (h : ∀ a ∈ servers, net.info a = ok i) :
    gatherInfos net S servers = ok (List.replicate servers.length i) := by
  have : servers.mapM (fun a => orFatal (net.info a)) = ok (List.replicate servers.length i) := by
    induction servers with
    | nil => rfl
    | cons a l ih =>
      rw [List.mapM_cons, h a (by simp), orFatal_ok, ok_bind, ih (fun x hx => h x (by simp [hx]))]
      rfl
  unfold gatherInfos
  rw [this, ok_bind, List.perm_replicate.mp (hS.infos _)]

theorem equal_replicate (n : Nat) (i : DbInfo) : equalDBInfo (List.replicate n i) = true := by
  cases n with
  | zero => rfl
  | succ n => simp [equalDBInfo, List.replicate_succ]

theorem retrieve_replicate {n : Nat} (hn : 0 < n) (i : DbInfo) : retrieveDBInfo (List.replicate n i) = ok i := by
  obtain ⟨m, rfl⟩ : ∃ m, n = m + 1 := ⟨n - 1, by omega⟩
  unfold retrieveDBInfo
  rw [equal_replicate]
  rfl

theorem getDBInfos_replicate {n : Nat} (hn : 0 < n) (i : DbInfo) :
    getDBInfos (List.replicate n i) = ok (List.replicate n i) := by
  obtain ⟨m, rfl⟩ : ∃ m, n = m + 1 := ⟨n - 1, by omega⟩
  unfold getDBInfos
  rw [equal_replicate]
  rfl

theorem transmit_report {db : Database.Bytes} (h : Describable db) : transmit (report db) = report db := by
  have h1 := h.rows
  have h2 := h.columns
  have h3 := h.block
  have h4 := h.proof
  simp only [transmit, report, Nat.mod_eq_of_lt h1, Nat.mod_eq_of_lt h2, Nat.mod_eq_of_lt h3, Nat.mod_eq_of_lt h4]

/-! ### Looking up -/

theorem queryBytes_info (dpf : Point.Dpf) (read : Nat → Res (List Byte)) (db : Database.Bytes) (inp : List Byte)
    (n : Int) : Point.queryBytes dpf read (pointInfo (report db)) inp n = Point.queryBytes dpf read db.info inp n := rfl

theorem reconstruct_info (H : List Byte → List Byte) (answers : List (List Byte)) (db : Database.Bytes)
    (st : Point.State) :
    reconstructPIR H answers (pointInfo (report db)) st = reconstructPIR H answers db.info st := rfl

/-- In an exchange in which all servers answer, the clients compute what `getKey` computes. -/
theorem lookup_eq (L : Lib) {net : Net} {S : Schedule} (hS : Fair S) {mode : Nat} {db : Database.Bytes}
    {servers : List String} (hserv : PointServers net L.dpf mode db servers) (hdesc : Describable db) (id : Str)
    {i : Nat} (hi : hashToIndex L.hash id (db.info.numRows * db.info.numColumns) = ok i) {qs answers : List (List Byte)}
    {st : Point.State}
    (hq : Point.queryBytes L.dpf L.read db.info (putBE32 (BitVec.ofNat 32 i)) servers.length = ok (qs, st))
    (hl : qs.length = servers.length) (ha : qs.mapM (Point.answer L.dpf mode db) = ok answers) :
    lookup L servers.length (runQueriesActor net S servers) (pointInfo (transmit (report db))) id =
      getKey L.H L.dpf L.read L.hash L.lower L.readRing L.armor mode db servers.length id := by
  rw [transmit_report hdesc]
  unfold lookup lookupQueries getKey
  have hi' : hashToIndex L.hash id ((pointInfo (report db)).numRows * (pointInfo (report db)).numColumns) = ok i := hi
  rw [hi', hi, ok_bind, ok_bind]
  dsimp only
  rw [queryBytes_info, hq, ok_bind, ok_bind]
  dsimp only
  rw [run_eq hserv.answer (by omega) ha, ha, ok_bind, ok_bind, reconstruct_info,
    C05_authenticated_order L.H _ _ db.info st (hS.answers answers)]

theorem query_length {dpf : Point.Dpf} {read : Nat → Res (List Byte)} (hread : Point.Delivers read)
    {info : Database.Info} {i n : Nat} (hC : 0 < info.numColumns) (hn : 0 < n) {qs : List (List Byte)}
    {st : Point.State} (h : Point.query dpf read info i n = ok (qs, st)) : qs.length = n := by
  by_cases hn2 : n = 2
  · subst hn2
    unfold Point.query at h
    have hinv : Point.invalidQueryInputsIT (i : Int) ((2 : Nat) : Int) = false := by simp [Point.invalidQueryInputsIT]
    rw [hinv] at h
    simp only [Bool.false_eq_true, if_false] at h
    rw [Point.indices i info.numColumns hC, ok_bind] at h
    dsimp only at h
    rw [if_pos (by rfl), bind_eq_ok] at h
    obtain ⟨k, -, h⟩ := h
    simp only [ok.injEq, Prod.mk.injEq] at h
    rw [← h.1]
    rfl
  · obtain ⟨rand, -, -, hq⟩ := Point.query_shares dpf hread (i := i) hC hn hn2
    have := hq.symm.trans h
    simp only [ok.injEq, Prod.mk.injEq] at this
    rw [← this.1, Point.shares_length]
    omega

/-- With honest servers, all orders of enumeration and arrival give what `getKey` computes. -/
theorem lookup_getKey (L : Lib) {net : Net} {S : Schedule} (hS : Fair S) {mode : Nat} {db : Database.Bytes}
    {servers : List String} (hserv : PointServers net L.dpf mode db servers) (hdesc : Describable db)
    (hfit : ServersFit L.dpf mode servers.length) (hread : Point.Delivers L.read) (hh : HashLong L.hash)
    {blocks : List (List Byte)} (hB : Serves L.H db blocks)
    (hl : blocks.length = db.info.numRows * db.info.numColumns) (h0 : 0 < blocks.length) (hN : blocks.length < 2 ^ 32)
    (id : Str) :
    lookup L servers.length (runQueriesActor net S servers) (pointInfo (transmit (report db))) id =
      getKey L.H L.dpf L.read L.hash L.lower L.readRing L.armor mode db servers.length id := by
  have hp := position_lt L.hash h0 id
  obtain ⟨qs, st, answers, z, h1, h2, h3⟩ := fetch hB hread hfit hN hp
  refine lookup_eq L hS hserv hdesc id (i := position L.hash blocks.length id) ?_ h1 ?_ h2
  · rw [← hl]
    exact hashToIndex_spec hh h0 hN id
  · unfold Point.queryBytes at h1
    rw [bind_eq_ok] at h1
    obtain ⟨i, -, h1⟩ := h1
    refine query_length hread ?_ ?_ h1
    · rcases Nat.eq_zero_or_pos db.info.numColumns with h | h
      · rw [h, Nat.mul_zero] at hl; omega
      · exact h
    · rcases hfit with ⟨-, h, -⟩ | ⟨-, h, -⟩ <;> omega

theorem perm_servers {net : Net} {dpf : Point.Dpf} {mode : Nat} {db : Database.Bytes} {l l' : List String}
    (hp : l'.Perm l) (h : PointServers net dpf mode db l) : PointServers net dpf mode db l' :=
  ⟨fun a ha => h.dial a (hp.mem_iff.mp ha), fun a ha => h.info a (hp.mem_iff.mp ha),
    fun a ha => h.answer a (hp.mem_iff.mp ha)⟩

/-- What the three client programs do with the outcome of a lookup by `getKey`. -/
theorem programs (L : Lib) (W : Predicate.World) (gob : Predicate.Msg → List Byte) (mk : Int → Time) {net : Net}
    {S : Schedule} (hS : Fair S) {mode : Nat} {db : Database.Bytes}
    {servers : List String} (hserv : PointServers net L.dpf mode db servers) (hdesc : Describable db)
    (hfit : ServersFit L.dpf mode servers.length) (hread : Point.Delivers L.read) (hh : HashLong L.hash)
    {blocks : List (List Byte)} (hB : Serves L.H db blocks)
    (hl : blocks.length = db.info.numRows * db.info.numColumns) (h0 : 0 < blocks.length) (hN : blocks.length < 2 ^ 32)
    (id : String) (hid : id ≠ "") :
    (servers.Nodup → ∀ (f : Flags) (typed : String), f.scheme = "pointPIR" ∨ f.scheme = "pointVPIR" →
      (if f.id = "" then typed else f.id) = id → main L W gob mk net S servers f typed =
        orFatal (getKey L.H L.dpf L.read L.hash L.lower L.readRing L.armor mode db servers.length (bytes id) >>=
          fun k => ok (.key k))) ∧
    downloadKey L net S servers id =
      (match getKey L.H L.dpf L.read L.hash L.lower L.readRing L.armor mode db servers.length (bytes id) with
      | ok k => ok (.result k)
      | err m => if contains m keyNotFoundErr then ok .noKey else err m
      | crash m => crash m) ∧
    (∀ req : Request, req.parse = ok () → req.value "email" = id → handleRetrieve L net S servers req =
      (match getKey L.H L.dpf L.read L.hash L.lower L.readRing L.armor mode db servers.length (bytes id) with
      | ok k => ok (.body k)
      | err m => if contains m keyNotFoundErr then ok (.body (bytes "key not found in block"))
          else ok (.error 500 ("failed to get result: " ++ m))
      | crash m => crash m)) := by
  have hn : 0 < servers.length := by rcases hfit with ⟨-, h, -⟩ | ⟨-, h, -⟩ <;> omega
  have hlook := lookup_getKey L hS hserv hdesc hfit hread hh hB hl h0 hN (bytes id)
  have hidx : idx (List.replicate servers.length (transmit (report db))) 0 = ok (transmit (report db)) := by
    obtain ⟨m, hm⟩ : ∃ m, servers.length = m + 1 := ⟨servers.length - 1, by omega⟩
    rw [hm]
    rfl
  refine ⟨fun hnd f typed hf he => ?_, ?_, fun req hreq hem => ?_⟩
  · have hpl := (hS.conns servers).length_eq
    have hlook' := lookup_getKey L hS (perm_servers (hS.conns servers) hserv) hdesc (by rw [hpl]; exact hfit) hread hh hB
      hl h0 hN (bytes id)
    rw [hpl] at hlook'
    unfold main exec
    rw [connect_nodup hserv.dial hnd, orFatal_ok, ok_bind, gather_eq hS hserv.info, ok_bind, retrieve_replicate hn,
      ok_bind, if_pos hf]
    dsimp only
    rw [he, if_neg hid]
    have : runQueries net S servers = runQueriesActor net S (S.conns servers) := rfl
    rw [this, hlook']
  · unfold downloadKey actorLookup
    rw [gather_eq hS hserv.info, ok_bind, getDBInfos_replicate hn, ok_bind, hidx, ok_bind, hlook]
    cases getKey L.H L.dpf L.read L.hash L.lower L.readRing L.armor mode db servers.length (bytes id) <;> rfl
  · unfold handleRetrieve
    rw [hreq]
    dsimp only
    rw [hem, if_neg hid, gather_eq hS hserv.info, ok_bind, getDBInfos_replicate hn]
    dsimp only
    rw [hidx, ok_bind, hlook]
    cases getKey L.H L.dpf L.read L.hash L.lower L.readRing L.armor mode db servers.length (bytes id) <;> rfl

end Verif.Client
