import Verif.Spec.Simul
import Verif.Lemmas.Deploy
import Verif.Lemmas.ClientStats

/-! # Lemmas on the experiments -/

namespace Verif.Simul
open Res Verif.Cmd Verif.Pgp Verif.Client Verif.Client.Spec Verif.Deploy Verif.Deploy.Spec Verif.Query Verif.MerklePir
  Verif.Point.Spec Verif.Simul.Spec

/-! ### Servers -/

theorem serves_mode (dpf : Point.Dpf) (mode : Nat) (db : Database.Bytes) (addrs : List String) :
    PointServers (network (uniform (pointDbInfo db) (Point.answer dpf mode db) addrs)) dpf mode db addrs := by
  refine ⟨?_, ?_, ?_⟩
  · intro a ha
    have : (uniform (pointDbInfo db) (Point.answer dpf mode db) addrs).map (·.addr) = addrs := by
      unfold uniform
      rw [List.map_map]
      exact List.map_id' _
    unfold network
    dsimp only
    rw [this, if_pos ha]
  · intro a ha
    unfold network
    dsimp only
    rw [find_uniform _ _ ha]
    rfl
  · intro a ha q
    unfold network
    dsimp only
    rw [find_uniform _ _ ha]

theorem serverMain_run {M : Host} (hb : ∀ a, M.bind a = ok ()) {servers config : List (List Char × Server)}
    (hc : Config servers) (hp : config.Perm servers) {i : Nat} (hi : i < servers.length) (h5 : i < 5) (f : ServerFlags)
    {r : DbInfo × (List Byte → Res (List Byte))} (hl : makeServer M i f = ok r) :
    serverMain M config i f = ok ⟨(addresses servers)[i]'(by simpa [addresses] using hi), r.1, r.2⟩ := by
  unfold serverMain
  rw [C49_sorted_partial servers config hp hc.numbered]
  show (do
    let addr ← idx (addresses servers) i
    let _ ← idx (List.range numCertificates) i
    let _ ← orFatal (M.bind addr)
    let s ← makeServer M i f
    ok (⟨addr, s.1, s.2⟩ : Running)) = _
  rw [idx_of_lt (by simpa [addresses] using hi), ok_bind, idx_of_lt (by simpa [numCertificates] using h5), ok_bind, hb,
    Client.orFatal_ok, ok_bind, hl]
  rfl

theorem launch_run {host : Nat → Host} {config : Nat → List (List Char × Server)} {servers : List (List Char × Server)}
    (hc : Config servers) (h5 : servers.length ≤ 5) (hb : ∀ i, i < servers.length → ∀ a, (host i).bind a = ok ())
    (hp : ∀ i, i < servers.length → (config i).Perm servers) {f : ServerFlags}
    {r : DbInfo × (List Byte → Res (List Byte))}
    (hl : ∀ i, i < servers.length → makeServer (host i) i f = ok r) :
    launch host config servers.length f = ok (uniform r.1 r.2 (addresses servers)) := by
  unfold launch
  have hlen : (addresses servers).length = servers.length := by simp [addresses]
  rw [mapM_eq (g := fun i => ⟨(addresses servers).getD i "", r.1, r.2⟩)]
  · unfold uniform
    congr 1
    apply List.ext_getElem
    · simp [hlen]
    · intro i h1 h2
      simp at h1 h2
      simp [List.getD_eq_getElem?_getD, h2]
  · intro i hi
    have hi : i < servers.length := by simpa using hi
    rw [serverMain_run (hb i hi) hc (hp i hi) hi (by omega) f (hl i hi)]
    simp [List.getD_eq_getElem?_getD, hlen, hi]

theorem first3_classic : first3 "pir-classic" = ok [112, 105, 114] := by decide
theorem first3_merkle : first3 "pir-merkle" = ok [112, 105, 114] := by decide
theorem first3_fss : first3 "fss-classic" = ok [102, 115, 115] ∧ first3 "fss-auth" = ok [102, 115, 115] := by decide
theorem first3_cmp : bytes "cmp" = [99, 109, 112] := by decide

/-- The number of rows is computed as specified. -/
theorem numRows_eq {f : ServerFlags} {p : List Byte} (hs : first3 f.scheme = ok p) (hp : p ≠ bytes "cmp")
    (h0 : 0 < f.elemBitSize * f.blockLen) (h52 : f.dbLen / (f.elemBitSize * f.blockLen) ≤ 2 ^ 52) {r : Nat}
    (hr : Rows f r) : numRows f = ok r := by
  unfold numRows
  unfold Rows at hr
  rw [hs, ok_bind, if_pos hp, if_neg (by omega), ok_bind]
  by_cases h1 : f.nRows = 1
  · rw [if_pos h1] at hr
    dsimp only
    rw [if_neg (by simpa using h1), hr, h1]
  · rw [if_neg h1] at hr
    dsimp only
    rw [if_pos h1]
    obtain ⟨c, hc1, hc2, hc3, hc4⟩ := Layout.increase_spec h52
    rw [hc1]
    obtain ⟨s, hs⟩ := Layout.sqrtF64_square hc2
    simp only [hs]
    rw [Nat.mul_div_cancel _ (by positivity), ok.injEq]
    have h2 := (hr c).mp hc3
    by_contra hne
    have hlt : r < c := by omega
    have h3 := (hr r).mpr le_rfl
    have h4 : r * r ≤ (c - 1) * (c - 1) := Nat.mul_le_mul (by omega) (by omega)
    rcases (Nat.eq_zero_or_pos (f.dbLen / (f.elemBitSize * f.blockLen))).symm with hN | hN
    · have := hc4 hN
      omega
    · -- an empty database: both are the root of zero
      rw [hN] at hc1
      have hz : Layout.increaseToNextSquare 0 = 0 := by decide
      rw [hz] at hc1
      have : c = 0 := by
        rcases Nat.eq_zero_or_pos c with h | h
        · exact h
        · have := Nat.mul_pos h h
          omega
      omega

/-! ### The client -/

theorem bitsToBlocks_eq {bs el bits k : Nat} (h0 : 0 < bs * el) (h : Needed bits (bs * el) k) :
    bitsToBlocks bs el bits = ok k := by
  unfold bitsToBlocks
  rw [if_neg (by omega)]
  congr 1
  generalize bs * el = u at *
  have h1 := (h k).mpr le_rfl
  have h2 : (bits + u - 1) / u ≤ k := by
    apply Nat.le_of_lt_succ
    rw [Nat.div_lt_iff_lt_mul h0, Nat.succ_mul]
    omega
  have h3 : k ≤ (bits + u - 1) / u := by
    rw [← h]
    have := Nat.div_add_mod (bits + u - 1) u
    have hm := Nat.mod_lt (bits + u - 1) h0
    rw [Nat.mul_comm] at this
    omega
  omega

theorem query_bytes {dpf : Point.Dpf} {read : Nat → Res (List Byte)} (hread : Point.Delivers read) {size : Nat → Nat}
    (hsize : KeySize dpf size) {info : Database.Info} {i n : Nat} (hC : 0 < info.numColumns) (hn : 0 < n)
    {qs : List (List Byte)} {st : Point.State} (h : Point.query dpf read info i n = ok (qs, st)) :
    bytesOf qs = cost size n info.numColumns := by
  unfold cost
  by_cases hn2 : n = 2
  · subst hn2
    rw [if_pos rfl]
    unfold Point.query at h
    have hinv : Point.invalidQueryInputsIT (i : Int) ((2 : Nat) : Int) = false := by simp [Point.invalidQueryInputsIT]
    rw [hinv] at h
    simp only [Bool.false_eq_true, if_false] at h
    rw [Point.indices i info.numColumns hC, ok_bind] at h
    dsimp only at h
    rw [if_pos (by rfl), bind_eq_ok] at h
    obtain ⟨⟨k0, k1⟩, hk, h⟩ := h
    simp only [ok.injEq, Prod.mk.injEq] at h
    rw [← h.1]
    obtain ⟨h0, h1⟩ := hsize _ _ _ _ hk
    simp [bytesOf, h0, h1]
    omega
  · rw [if_neg hn2]
    obtain ⟨rand, -, hl, hq⟩ := Point.query_shares dpf hread (i := i) hC hn hn2
    have := hq.symm.trans h
    simp only [ok.injEq, Prod.mk.injEq] at this
    have hm := Point.shares_mem_length (C := info.numColumns) (y := i % info.numColumns) hl
    have hlen := query_length hread hC hn h
    rw [this.1] at hm
    unfold bytesOf
    rw [List.map_congr_left (g := fun _ => info.numColumns / 8 + 1) hm]
    simp [hlen]

variable {H : List Byte → List Byte} {dpf : Point.Dpf} {mode : Nat} {db : Database.Bytes} {blocks : List (List Byte)}

/-- One block. -/
theorem retrieveBlock_eq {read : Nat → Res (List Byte)} (hread : Point.Delivers read) {size : Nat → Nat}
    (hsize : KeySize dpf size) {net : Net} {S : Schedule} (hS : Fair S) {conns : List String}
    (hserv : PointServers net dpf mode db conns) (hdesc : Describable db) (hfit : ServersFit dpf mode conns.length)
    (hB : Serves H db blocks) (hl : blocks.length = db.info.numRows * db.info.numColumns) (hN : blocks.length < 2 ^ 32)
    {i : Nat} (hi : i < blocks.length) (hfull : db.info.pirType = "" → blocks[i].length = db.info.blockSize) :
    retrieveBlock H dpf read net S conns (pointInfo (transmit (report db))) i =
      ok (cost size conns.length db.info.numColumns, blocks[i]) := by
  obtain ⟨qs, st, answers, z, h1, h2, h3, h4⟩ := fetch_exact hB hread hfit hN hi
  have hz : blocks[i] ++ List.replicate z 0 = blocks[i] := by
    rw [h4 hfull]
    simp
  have hq : ∃ j : Nat, Point.query dpf read db.info j conns.length = ok (qs, st) := by
    unfold Point.queryBytes at h1
    rw [bind_eq_ok] at h1
    obtain ⟨j, -, h1⟩ := h1
    exact ⟨j.toNat, h1⟩
  obtain ⟨j, hj⟩ := hq
  have hC : 0 < db.info.numColumns := by
    rcases Nat.eq_zero_or_pos db.info.numColumns with h | h
    · rw [h, Nat.mul_zero] at hl; omega
    · exact h
  have hn : 0 < conns.length := by rcases hfit with ⟨-, h, -⟩ | ⟨-, h, -⟩ <;> omega
  have hperm := hS.conns conns
  rw [transmit_report hdesc]
  unfold retrieveBlock
  dsimp only
  rw [queryBytes_info, h1, Client.orFatal_ok, ok_bind]
  dsimp only
  unfold runQueries
  rw [run_eq (perm_servers hperm hserv).answer (by rw [hperm.length_eq, query_length hread hC hn hj]) h2, ok_bind,
    reconstruct_info, C05_authenticated_order H _ _ db.info st (hS.answers answers), h3, hz]
  dsimp only [orFatal]
  rw [ok_bind, query_bytes hread hsize hC hn hj]

/-- All rounds of the retrieval. -/
theorem retrievePointPIR_eq {intn : Nat → Nat} {read : Nat → Nat → Res (List Byte)}
    (hread : ∀ c, Point.Delivers (read c)) {size : Nat → Nat}
    (hsize : KeySize dpf size) {net : Nat → Net} {S : Nat → Schedule} (hS : ∀ c, Fair (S c)) {conns : List String}
    (hserv : ∀ c, PointServers (net c) dpf mode db conns) (hdesc : Describable db)
    (hfit : ServersFit dpf mode conns.length)
    (hB : Serves H db blocks) (hl : blocks.length = db.info.numRows * db.info.numColumns) (hN : blocks.length < 2 ^ 32)
    (hfull : ∀ i (hi : i < blocks.length), db.info.pirType = "" → blocks[i].length = db.info.blockSize) {f : ClientFlags}
    {k : Nat} (h0 : 0 < db.info.blockSize * f.elemBitSize)
    (hk : Needed f.bitsToRetrieve (db.info.blockSize * f.elemBitSize) k) (hkb : k < blocks.length)
    (hi : intn (blocks.length - k) < blocks.length - k) :
    retrievePointPIR H dpf intn read net S conns (pointInfo (transmit (report db))) f =
      ok (List.replicate f.repetitions ⟨k * cost size conns.length db.info.numColumns,
        (blocks.drop (intn (blocks.length - k))).take k⟩) := by
  have htr := transmit_report hdesc
  have e1 : (pointInfo (transmit (report db))).numRows * (pointInfo (transmit (report db))).numColumns = blocks.length := by
    rw [htr, hl]; rfl
  have e2 : (pointInfo (transmit (report db))).blockSize = db.info.blockSize := by
    rw [htr]; rfl
  unfold retrievePointPIR
  dsimp only
  rw [e1, e2, bitsToBlocks_eq h0 hk, ok_bind, if_neg (by omega)]
  generalize intn (blocks.length - k) = start at *
  have hround : ∀ j, (forLoop k (fun i (r : Round (List (List Byte))) => do
      let c := j * k + i
      let (bw, block) ← retrieveBlock H dpf (read c) (net c) (S c) conns (pointInfo (transmit (report db))) (start + i)
      ok (⟨r.sent + bw, r.found ++ [block]⟩ : Round (List (List Byte)))) ⟨0, []⟩) =
      ok ⟨k * cost size conns.length db.info.numColumns, (blocks.drop start).take k⟩ := by
    intro j
    have := forLoop_eq (n := k) (body := fun i (r : Round (List (List Byte))) => (do
      let c := j * k + i
      let (bw, block) ← retrieveBlock H dpf (read c) (net c) (S c) conns (pointInfo (transmit (report db))) (start + i)
      ok (⟨r.sent + bw, r.found ++ [block]⟩ : Round (List (List Byte)))))
      (fun i => ⟨i * cost size conns.length db.info.numColumns, (blocks.drop start).take i⟩) (by
        intro i hik
        have hlt : start + i < blocks.length := by omega
        dsimp only
        rw [retrieveBlock_eq (hread _) hsize (hS _) (hserv _) hdesc hfit hB hl hN hlt (hfull _ hlt), ok_bind]
        dsimp only
        rw [Nat.succ_mul]
        congr 2
        rw [List.take_add_one, List.getElem?_drop, List.getElem?_eq_getElem hlt]
        rfl)
    simpa using this
  have := forLoop_eq (n := f.repetitions) (body := fun j (rounds : List (Round (List (List Byte)))) => (do
    let r ← forLoop k (fun i (r : Round (List (List Byte))) => do
      let c := j * k + i
      let (bw, block) ← retrieveBlock H dpf (read c) (net c) (S c) conns (pointInfo (transmit (report db))) (start + i)
      ok (⟨r.sent + bw, r.found ++ [block]⟩ : Round (List (List Byte)))) ⟨0, []⟩
    ok (rounds ++ [r])))
    (fun j => List.replicate j ⟨k * cost size conns.length db.info.numColumns, (blocks.drop start).take k⟩) (by
      intro j hj
      dsimp only at hround ⊢
      rw [hround, ok_bind, List.replicate_succ'])
  simpa using this

/-- The client with a set of servers holding a point database. -/
theorem clientMain_point {C : ClientHost} (hread : ∀ c, Point.Delivers (C.read c)) {size : Nat → Nat}
    (hsize : KeySize C.dpf size) (hrand : Bounded C.rand) {net : Nat → Net} {S : Nat → Schedule} (hS : ∀ c, Fair (S c))
    {servers config : List (List Char × Server)} (hc : Config servers) (hp : config.Perm servers)
    (hserv : ∀ c, PointServers (net c) C.dpf mode db (addresses servers)) (hdesc : Describable db)
    {f : ClientFlags} (hn : f.numServers ≤ servers.length) (hfit : ServersFit C.dpf mode f.numServers)
    (hscheme : f.scheme = "pir-classic" ∨ f.scheme = "pir-merkle")
    (hB : Serves C.H db blocks) (hl : blocks.length = db.info.numRows * db.info.numColumns) (hN : blocks.length < 2 ^ 32)
    (hfull : ∀ i (hi : i < blocks.length), db.info.pirType = "" → blocks[i].length = db.info.blockSize)
    {k : Nat} (h0 : 0 < db.info.blockSize * f.elemBitSize)
    (hk : Needed f.bitsToRetrieve (db.info.blockSize * f.elemBitSize) k) (hkb : k < blocks.length) :
    ∃ start, start + k < blocks.length ∧ clientMain C config net S f =
      ok (.blocks (List.replicate f.repetitions ⟨k * cost size f.numServers db.info.numColumns,
        (blocks.drop start).take k⟩)) := by
  have hlen : (addresses servers).length = servers.length := by simp [addresses]
  have hconn : ((addresses servers).take f.numServers).length = f.numServers := by
    rw [List.length_take, hlen]; omega
  have hsub : ∀ a ∈ (addresses servers).take f.numServers, a ∈ addresses servers := fun a ha => List.mem_of_mem_take ha
  have hserv' : ∀ c, PointServers (net c) C.dpf mode db ((addresses servers).take f.numServers) := fun c =>
    ⟨fun a ha => (hserv c).dial a (hsub a ha), fun a ha => (hserv c).info a (hsub a ha),
      fun a ha => (hserv c).answer a (hsub a ha)⟩
  have hint := hrand (blocks.length - k) C.randState (by omega)
  refine ⟨(C.rand.intn (blocks.length - k) C.randState).1, by omega, ?_⟩
  have hnpos : 0 < f.numServers := by rcases hfit with ⟨-, h, -⟩ | ⟨-, h, -⟩ <;> omega
  unfold clientMain
  rw [C49_sorted_partial servers config hp hc.numbered]
  show (do
    let used ← slice (addresses servers) 0 f.numServers
    let conns ← orFatal (connect (net 0).dial used)
    orFatal (exec C net S conns f)) = _
  rw [slice_of_le (by omega) (by omega), ok_bind, Nat.sub_zero, List.drop_zero,
    connect_nodup (hserv' 0).dial (hc.distinct.sublist (List.take_sublist _ _)), Client.orFatal_ok, ok_bind]
  unfold exec
  rw [gather_eq (hS 0) (hserv' 0).info, ok_bind, retrieve_replicate (by omega), Client.orFatal_ok, ok_bind,
    if_pos hscheme, retrievePointPIR_eq hread hsize hS hserv' hdesc (by rw [hconn]; exact hfit) hB hl hN hfull h0 hk hkb hint,
    hconn]
  rfl

end Verif.Simul
