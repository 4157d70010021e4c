import Verif.Spec.Deploy
import Verif.Lemmas.Client
import Verif.Props.Pgp
import Verif.Props.Cmd

/-! # Lemmas for deployments -/

set_option linter.unusedSimpArgs false

namespace Verif.Deploy
open Res Verif.Cmd Verif.Pgp Verif.Pgp.Spec Verif.Query Verif.Client Verif.Client.Spec Verif.MerklePir Verif.Point.Spec
  Verif.Layout Verif.Deploy.Spec

theorem readDir_eq {α : Type _} {dir l : List (List Char × α)} (hp : dir.Perm l) (hl : InOrder l) : readDir dir = l := by
  unfold readDir
  have h1 : (dir.mergeSort (fun a b => decide (a.1 ≤ b.1))).Perm l := (List.mergeSort_perm _ _).trans hp
  have h2 : (dir.mergeSort (fun a b => decide (a.1 ≤ b.1))).Pairwise (fun a b => a.1 ≤ b.1) := by
    have := List.pairwise_mergeSort (le := fun a b : List Char × α => decide (a.1 ≤ b.1))
      (by intro a b c h1 h2; simp only [decide_eq_true_iff] at *; exact List.le_trans h1 h2)
      (by intro a b; simp only [Bool.or_eq_true, decide_eq_true_iff]; exact List.le_total _ _) dir
    simpa using this
  have h3 : l.Pairwise (fun a b => a.1 ≤ b.1) := hl.imp (fun h => List.le_of_lt h)
  refine List.Perm.eq_of_pairwise ?_ h2 h3 h1
  intro a b ha hb hab hba
  have hn : (l.map (·.1)).Nodup := by
    rw [List.nodup_iff_pairwise_ne, List.pairwise_map]
    exact hl.imp (fun h e => by rw [e] at h; exact List.lt_irrefl _ h)
  exact List.inj_on_of_nodup_map hn (h1.mem_iff.mp ha) hb (List.le_antisymm hab hba)

theorem orFatal_ok {α : Type _} (a : α) : orFatal (ok a) = ok a := rfl

theorem packets_perm {a b : List Key} (h : a.Perm b) : (packets a).length = (packets b).length := by
  unfold packets
  exact (h.flatMap_right _).length_eq

theorem longest_le {hash : Str → List Byte} {n B : Nat} {keys loaded : List Key} (hp : keys.Perm loaded)
    (hB : ∀ p, p < n → (packets (bucket hash n loaded p)).length ≤ B) : longest hash n keys ≤ B := by
  unfold longest
  rcases (max_spec ((List.range n).map (fun k => packets (bucket hash n keys k)))).2 with h | ⟨v, hv, h⟩
  · omega
  · rw [← h]
    obtain ⟨k, hk, rfl⟩ := List.mem_map.mp hv
    have hperm : (bucket hash n keys k).Perm (bucket hash n loaded k) := hp.filter _
    rw [packets_perm hperm]
    exact hB k (by simpa using hk)

/-- The numbers describing the database fit when no bucket is larger than (almost) 4 GB. -/
theorem describable_bytes {hash : Str → List Byte} (hh : HashLong hash) {sort : List Key → List Key}
    (hs : SortsById sort) {order : Orders} (ho : OrdersFair order) {loaded : List Key} (h10 : 10 ≤ loaded.length)
    (h32 : loaded.length ≤ 2 ^ 32) {rebalanced : Bool} {R C : Nat} (hd : dims loaded rebalanced = (R, C))
    (hB : ∀ p, p < R * C → (packets (bucket hash (R * C) loaded p)).length ≤ 2 ^ 32 - 2048) {db : Database.Bytes}
    (h : generateRealKeyBytes hash sort order loaded rebalanced = ok db) : Describable db := by
  have hl := longest_le (hs loaded).1 hB
  rw [generateRealKeyBytes_eq hh hs ho loaded h10 h32 rebalanced hd] at h
  obtain ⟨t1, t2, -⟩ := table_size h32 rebalanced
  have t2 := t2 h10
  unfold dims at hd
  rw [hd] at t1 t2
  dsimp only at t1 t2
  simp only [ok.injEq] at h
  have hR : 0 < R := Nat.pos_of_mul_pos_right t2
  have hC : 0 < C := Nat.pos_of_mul_pos_left t2
  subst h
  refine ⟨?_, ?_, ?_, ?_⟩ <;> dsimp only
  · exact lt_of_le_of_lt (Nat.le_mul_of_pos_right R hC) t1
  · exact lt_of_le_of_lt (Nat.le_mul_of_pos_left C hR) t1
  · omega
  · omega

theorem describable_merkle {H : List Byte → List Byte} {ck : List Byte → Merkle.U64} {hash : Str → List Byte}
    (hh : HashLong hash) {sort : List Key → List Key}
    (hs : SortsById sort) {order : Orders} (ho : OrdersFair order) {loaded : List Key} (h10 : 10 ≤ loaded.length)
    (h32 : loaded.length ≤ 2 ^ 32) {rebalanced : Bool} {R C : Nat} (hd : dims loaded rebalanced = (R, C))
    (hB : ∀ p, p < R * C → (packets (bucket hash (R * C) loaded p)).length ≤ 2 ^ 32 - 2048) {db : Database.Bytes}
    (h : generateRealKeyMerkle H ck hash sort order loaded rebalanced = ok db) : Describable db := by
  have hl := longest_le (hs loaded).1 hB
  have hbl := storedBlock_length_le hash (R * C) (sort loaded)
  have hlen : (storedBlocks hash (R * C) (sort loaded)).length = R * C := by simp [storedBlocks]
  rw [generateRealKeyMerkle_eq H ck hh hs ho loaded h10 h32 rebalanced hd] at h
  obtain ⟨t1, t2, -⟩ := table_size h32 rebalanced
  have t2 := t2 h10
  unfold dims at hd
  rw [hd] at t1 t2
  dsimp only at t1 t2
  have hR : 0 < R := Nat.pos_of_mul_pos_right t2
  have hC : 0 < C := Nat.pos_of_mul_pos_left t2
  generalize hblk : storedBlocks hash (R * C) (sort loaded) = blocks at *
  have hne : blocks ≠ [] := by intro e; rw [e] at hlen; simp at hlen; omega
  obtain ⟨t, ht, hT⟩ := Merkle.newUsing_spec H 32 ck blocks hne (by omega)
  have hp : Merkle.encodedProofLength 32 t ≤ 1032 := by
    unfold Merkle.encodedProofLength Merkle.ceilLog2
    have h1 : t.data.length ≤ 2 ^ 32 := by
      rw [hT.map.length]
      have : (blocks.map ck).dedup.length ≤ (blocks.map ck).length := (List.dedup_sublist _).length_le
      rw [List.length_map] at this
      omega
    have := Nat.clog_le_of_le_pow h1
    omega
  unfold merkleOf at h
  rw [ht, ok_bind] at h
  dsimp only at h
  generalize Merkle.encodedProofLength 32 t = pl at *
  rw [bind_eq_ok] at h
  obtain ⟨⟨lens, mx⟩, hloop, h⟩ := h
  dsimp only at h
  simp only [bind_eq_ok, ok.injEq] at h
  obtain ⟨entries, -, root, -, rfl⟩ := h
  have hmx : mx ≤ 2 ^ 32 - 2048 + pl + 2 := by
    refine forLoop_inv_ok (P := fun _ (st : List Nat × Nat) => st.2 ≤ 2 ^ 32 - 2048 + pl + 2) (Nat.zero_le _) ?_ hloop
    intro i st st' _ hst hb
    simp only [bind_eq_ok, ok.injEq] at hb
    obtain ⟨b, hb, lens', -, rfl⟩ := hb
    have hmem : b ∈ blocks := by
      unfold idx at hb
      split at hb
      · rename_i x hx
        simp only [ok.injEq] at hb
        exact hb ▸ List.mem_of_getElem? hx
      · cases hb
    have := hbl b hmem
    dsimp only at hst ⊢
    split <;> omega
  refine ⟨?_, ?_, ?_, ?_⟩ <;> dsimp only
  · exact lt_of_le_of_lt (Nat.le_mul_of_pos_right R hC) t1
  · exact lt_of_le_of_lt (Nat.le_mul_of_pos_left C hR) t1
  · omega
  · omega

theorem loadKeys_eq {L : Lib} {files : List (List Char × List Key)} (hf : InOrder files) {M : Machine}
    (hM : Installed L files M) {k : Nat} (hk : k ≤ files.length) : loadKeys M k = ok (keysIn files k) := by
  unfold loadKeys
  rw [readDir_eq hM.dir (by unfold InOrder; rw [List.pairwise_map]; exact hf)]
  unfold getSksFiles
  rw [if_neg (by omega), slice_of_le (by omega) (by simp; omega), ok_bind]
  have : (List.map (fun x : List Char × Res (List Key) => x.2) (List.take ((k : Int).toNat - 0) (List.drop 0
      (files.map (fun f => (f.1, ok f.2)))))) = ((files.take k).map (·.2)).map ok := by
    simp only [List.drop_zero, Int.toNat_natCast, Nat.sub_zero, ← List.map_take, List.map_map]
    rfl
  rw [this, load_ok]
  rfl

theorem loadKeys_crash {L : Lib} {files : List (List Char × List Key)} {M : Machine}
    (hM : Installed L files M) {k : Int} (hk : ¬ (0 ≤ k ∧ k ≤ files.length)) : (loadKeys M k).isCrash := by
  have hlen : (readDir M.dir).length = files.length := by
    unfold readDir
    rw [List.length_mergeSort, hM.dir.length_eq, List.length_map]
  unfold loadKeys getSksFiles
  split
  · exact trivial
  · unfold slice
    rw [if_neg (by omega)]
    exact trivial

theorem idxInt_nat {α : Type _} (l : List α) (i : Nat) : idxInt l (i : Int) = idx l i := by
  unfold idxInt
  rw [if_neg (by omega)]
  rfl

theorem mapM_eq {α β : Type _} {f : α → Res β} {g : α → β} {l : List α} (h : ∀ a ∈ l, f a = ok (g a)) :
    l.mapM f = ok (l.map g) := by
  induction l with
  | nil => rfl
  | cons a l ih =>
    rw [List.mapM_cons, h a (by simp), ok_bind, ih (fun x hx => h x (List.mem_cons_of_mem _ hx)), ok_bind]
    rfl

/-- Servers that say and answer the same. -/
def uniform (info : DbInfo) (answer : List Byte → Res (List Byte)) (addrs : List String) : List Running :=
  addrs.map (fun a => ⟨a, info, answer⟩)

theorem find_uniform (info : DbInfo) (answer : List Byte → Res (List Byte)) {addrs : List String} {a : String}
    (ha : a ∈ addrs) : (uniform info answer addrs).find? (fun s => s.addr = a) = some ⟨a, info, answer⟩ := by
  unfold uniform
  induction addrs with
  | nil => simp at ha
  | cons b l ih =>
    rw [List.map_cons, List.find?_cons]
    by_cases hb : b = a
    · subst hb; simp
    · simp only [hb, decide_false]
      exact ih (by simpa [Ne.symm hb] using ha)

theorem uniform_serves (dpf : Point.Dpf) (db : Database.Bytes) (addrs : List String) :
    PointServers (network (uniform (pointDbInfo db) (Point.answer dpf 0 db) addrs)) dpf 0 db addrs := by
  refine ⟨?_, ?_, ?_⟩
  · intro a ha
    have : (uniform (pointDbInfo db) (Point.answer dpf 0 db) addrs).map (·.addr) = addrs := by
      unfold uniform
      rw [List.map_map]
      exact List.map_id' _
    unfold network
    dsimp only
    rw [this, if_pos ha]
  · intro a ha
    unfold network
    dsimp only
    rw [find_uniform _ _ ha]
    rfl
  · intro a ha q
    unfold network
    dsimp only
    rw [find_uniform _ _ ha]

theorem serverMain_eq {L : Lib} {files : List (List Char × List Key)} {M : Machine} (hM : Installed L files M)
    {servers config : List (List Char × Server)} (hc : Config servers) (hp : config.Perm servers) {i : Nat}
    (hi : i < servers.length) (h5 : i < 5) (k : Int) (scheme : String) (r : DbInfo × (List Byte → Res (List Byte)))
    (hl : loadServer M ⟨i, k, scheme⟩ = ok r) :
    serverMain M config ⟨i, k, scheme⟩ = ok ⟨(addresses servers)[i]'(by simpa [addresses] using hi), r.1, r.2⟩ := by
  unfold serverMain
  rw [C49_sorted_partial servers config hp hc.numbered]
  show (do
    let addr ← idxInt (addresses servers) (i : Int)
    let s ← loadServer M ⟨i, k, scheme⟩
    let _ ← idxInt (List.range numCertificates) (i : Int)
    let _ ← orFatal (M.bind addr)
    ok (⟨addr, s.1, s.2⟩ : Running)) = _
  rw [idxInt_nat, idxInt_nat, idx_of_lt (by simpa [addresses] using hi), ok_bind, hl, ok_bind,
    idx_of_lt (by simpa [numCertificates] using h5), ok_bind, hM.bind]
  rfl

/-- All servers start and say and answer the same. -/
theorem startAll_eq {L : Lib} {files : List (List Char × List Key)} {machine : Nat → Machine}
    {config : Nat → List (List Char × Server)} {servers : List (List Char × Server)} (hc : Config servers)
    (h5 : servers.length ≤ 5) (hM : ∀ i, i < servers.length → Installed L files (machine i))
    (hp : ∀ i, i < servers.length → (config i).Perm servers) {k : Nat} {scheme : String}
    {r : DbInfo × (List Byte → Res (List Byte))}
    (hl : ∀ i, i < servers.length → loadServer (machine i) ⟨(i : Nat), k, scheme⟩ = ok r) :
    startAll machine config servers.length k scheme = ok (uniform r.1 r.2 (addresses servers)) := by
  unfold startAll
  have hlen : (addresses servers).length = servers.length := by simp [addresses]
  rw [mapM_eq (g := fun i => ⟨(addresses servers).getD i "", r.1, r.2⟩)]
  · unfold uniform
    congr 1
    apply List.ext_getElem
    · simp [hlen]
    · intro i h1 h2
      simp at h1 h2
      simp [List.getD_eq_getElem?_getD, h2]
  · intro i hi
    have hi : i < servers.length := by simpa using hi
    rw [serverMain_eq (hM i hi) hc (hp i hi) hi (by omega) k scheme r (hl i hi)]
    simp [List.getD_eq_getElem?_getD, hlen, hi]

theorem orFatal_eq_ok {α : Type _} {r : Res α} {a : α} : orFatal r = ok a ↔ r = ok a := by
  cases r <;> simp [orFatal]

theorem orFatal_not_err {α : Type _} (r : Res α) (m : String) : orFatal r ≠ err m := by
  cases r <;> simp [orFatal]

theorem idxInt_not_err {α : Type _} (l : List α) (i : Int) (m : String) : idxInt l i ≠ err m := by
  unfold idxInt idx
  split
  · simp
  · split <;> simp

theorem bind_not_err {α β : Type _} {x : Res α} {f : α → Res β} (hx : ∀ m, x ≠ err m) (hf : ∀ a m, f a ≠ err m)
    (m : String) : (x >>= f) ≠ err m := by
  cases hc : x with
  | ok a => exact hf a m
  | err m' => exact absurd hc (hx m')
  | crash m' =>
    intro h
    cases h

theorem mapM_not_err {α β : Type _} {f : α → Res β} (hf : ∀ a m, f a ≠ err m) (l : List α) (m : String) :
    l.mapM f ≠ err m := by
  induction l generalizing m with
  | nil => intro h; cases h
  | cons a l ih =>
    rw [List.mapM_cons]
    exact bind_not_err (hf a) (fun b => bind_not_err ih (fun c m h => by cases h)) m

theorem mapM_inv {α β : Type _} {f : α → Res β} {l : List α} {r : List β} (h : l.mapM f = ok r) :
    ∀ a ∈ l, ∃ b, f a = ok b := by
  induction l generalizing r with
  | nil => simp
  | cons a l ih =>
    rw [List.mapM_cons] at h
    simp only [bind_eq_ok] at h
    obtain ⟨b, hb, c, hc, -⟩ := h
    intro x hx
    rcases List.mem_cons.mp hx with rfl | hx
    · exact ⟨b, hb⟩
    · exact ih hc x hx

theorem loadServer_not_err (M : Machine) (f : ServerFlags) (m : String) : loadServer M f ≠ err m := by
  unfold loadServer
  split
  · exact bind_not_err (orFatal_not_err _) (fun _ => bind_not_err (orFatal_not_err _) (fun _ m h => by cases h)) m
  split
  · exact bind_not_err (orFatal_not_err _) (fun _ => bind_not_err (orFatal_not_err _) (fun _ m h => by cases h)) m
  split
  · refine bind_not_err (orFatal_not_err _) (fun keys => bind_not_err ?_ (fun _ m h => by cases h)) m
    unfold generateRealKeyDB
    apply mapM_not_err
    intro k m
    split <;> simp
  · simp

theorem serverMain_not_err (M : Machine) (config : List (List Char × Server)) (f : ServerFlags) (m : String) :
    serverMain M config f ≠ err m := by
  unfold serverMain
  exact bind_not_err (orFatal_not_err _) (fun _ => bind_not_err (idxInt_not_err _ _) (fun _ => bind_not_err
    (loadServer_not_err M f) (fun _ => bind_not_err (idxInt_not_err _ _) (fun _ => bind_not_err (orFatal_not_err _)
      (fun _ m h => by cases h))))) m

theorem idxInt_eq_ok {α : Type _} {l : List α} {i : Int} {a : α} (h : idxInt l i = ok a) :
    ∃ n : Nat, i = n ∧ l[n]? = some a := by
  unfold idxInt at h
  split at h
  · cases h
  · refine ⟨i.toNat, by omega, ?_⟩
    unfold idx at h
    split at h
    · rename_i hx
      simp only [ok.injEq] at h
      rw [hx, h]
    · cases h

/-- The descriptions of these keys. -/
def infosOf (timeOf : Int → Time) (algoOf : Entity → Byte) (parse : Key → Entity) (keys : List Key) : Predicate.KeyDB :=
  ⟨keys.length, keys.map (fun k => describe timeOf algoOf (parse k))⟩

/-- A predicate server loads the descriptions of the keys and answers as the predicate servers of `Predicate.World`. -/
theorem loadServer_stats {L : Lib} {files : List (List Char × List Key)} (hf : InOrder files) {M : Machine}
    (hM : Installed L files M) {hash : List Byte → List Byte} {gob : Predicate.Msg → List Byte} {timeOf : Int → Time}
    {algoOf : Entity → Byte} {env : Nat → Fss.Env} {now : Nat → Int} {buf : List Byte}
    (hE : Equipped L hash gob timeOf algoOf env now buf M) {k : Nat} (hk : k ≤ files.length) {parse : Key → Entity}
    (hparse : Parses L.readRing parse (keysIn files k)) {sort : List Key → List Key} (hs : SortsById sort)
    (hnd : ((keysIn files k).map (·.id)).Nodup) {scheme : String} {ex : Nat}
    (hscheme : scheme = "complexPIR" ∧ ex = 1 ∨ scheme = "complexVPIR" ∧ ex = 5) (id : Int) :
    ∃ answer, loadServer M ⟨id, k, scheme⟩ = ok (predicateDbInfo (keysIn files k).length, answer) ∧
      ∀ m, answer (gob m) = (do
        let (a, _) ← Predicate.answer hash env now (BitVec.ofInt 8 id) (infosOf timeOf algoOf parse (sort (keysIn files k))) ex
          buf m
        Utils.uint32SliceToByteSlice a) := by
  have hsort := sorts_agree hM.sort hs (List.Perm.refl (keysIn files k)) hnd
  have hgen : generateRealKeyDB (getKeyInfoFromPacket M.readRing M.timeOf M.algoOf) M.sort (keysIn files k) =
      ok ((sort (keysIn files k)).map (fun k => describe timeOf algoOf (parse k))) := by
    unfold generateRealKeyDB
    rw [hsort]
    apply mapM_eq
    intro x hx
    have hx : x ∈ keysIn files k := (hs _).1.mem_iff.mp hx
    have hp := hparse [x] (by simp) (by simpa using hx)
    simp only [packets, List.flatMap_cons, List.flatMap_nil, List.append_nil, List.map_cons, List.map_nil] at hp
    unfold getKeyInfoFromPacket
    rw [hE.readRing, hp, hE.time, hE.algo]
    rfl
  have hlen : (sort (keysIn files k)).length = (keysIn files k).length := (hs _).1.length_eq
  refine ⟨predicateAnswer M (BitVec.ofInt 8 id) ex (infosOf timeOf algoOf parse (sort (keysIn files k))), ?_, ?_⟩
  · unfold loadServer
    dsimp only
    rw [loadKeys_eq hf hM hk]
    rcases hscheme with ⟨rfl, rfl⟩ | ⟨rfl, rfl⟩
    · rw [if_neg (by decide), if_neg (by decide), if_pos (Or.inl rfl), orFatal_ok, ok_bind, hgen, ok_bind, if_pos rfl]
      unfold infosOf
      rw [hlen]
    · rw [if_neg (by decide), if_neg (by decide), if_pos (Or.inr rfl), orFatal_ok, ok_bind, hgen, ok_bind,
        if_neg (by decide)]
      unfold infosOf
      rw [hlen]
      rfl
  · intro m
    unfold predicateAnswer
    rw [hE.gob, ok_bind, hE.hash, hE.env, hE.now, hE.buf]

end Verif.Deploy
