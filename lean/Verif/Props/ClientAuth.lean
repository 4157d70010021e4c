import Verif.Props.ClientPrivacy
import Verif.Props.MerkleBlind

/-! # C62: a lookup in an authenticated database shows the stored key or none -/

namespace Verif.Client
open Res Verif.Cmd Verif.Pgp Verif.Pgp.Spec Verif.Query Verif.Client.Spec Verif.Point Verif.Point.Spec Verif.MerklePir
  Verif.Merkle Verif.Merkle.Spec Verif.Padding Verif.Layout

/-- The generated authenticated database commits to the blocks of the keys. -/
theorem merkle_root {H : List Byte → List Byte} {ck : List Byte → Merkle.U64} {hash : Str → List Byte}
    (hh : HashLong hash) {sort : List Key → List Key} (hs : SortsById sort) {order : Orders} (ho : OrdersFair order)
    {loaded : List Key} (h10 : 10 ≤ loaded.length) (h32 : loaded.length ≤ 2 ^ 32) {rebalanced : Bool} {R C : Nat}
    (hd : calculateNumRowsAndColumns (preSquareNumBlocks loaded.length) rebalanced = (R, C)) {db : Database.Bytes}
    (hdb : generateRealKeyMerkle H ck hash sort order loaded rebalanced = ok db) :
    ∃ t, newUsing H 32 ck (storedBlocks hash (R * C) (sort loaded)) = ok t ∧ root t = ok db.info.root := by
  rw [generateRealKeyMerkle_eq H ck hh hs ho loaded h10 h32 rebalanced hd] at hdb
  unfold merkleOf at hdb
  simp only [bind_eq_ok] at hdb
  obtain ⟨t, ht, ⟨lens, mx⟩, -, entries, -, r, hr, hdb⟩ := hdb
  simp only [ok.injEq] at hdb
  refine ⟨t, ht, ?_⟩
  rw [← hdb]
  exact hr

/-- What is shown of a stored block is a loaded key of the identifier. -/
theorem stored_shown (L : Lib) {keys loaded : List Key} (hp : keys.Perm loaded) {parse : Key → Entity}
    (hparse : Parses L.readRing parse loaded) (hnamed : NamedBy L.lower parse loaded) {N j : Nat} {d b : List Byte}
    {id : Str} {e : Entity} {a : List Byte} (hd : d = storedBlock L.hash N keys j) (hb : unPadBlock d = ok b)
    (he : recoverKeyFromBlock L.lower L.readRing b id = ok e) (ha : L.armor e = ok a) :
    ∃ k ∈ loaded, k.id = id ∧ L.armor (parse k) = ok a := by
  unfold storedBlock at hd
  by_cases hne : bucket L.hash N keys j = []
  · rw [if_pos hne] at hd
    rw [hd] at hb
    simp [unPadBlock, trimZeros] at hb
  · rw [if_neg hne] at hd
    have hu := unPad_signal (packets (bucket L.hash N keys j)) 0
    rw [List.replicate_zero, List.append_nil, ← hd, hb] at hu
    simp only [ok.injEq] at hu
    have hbm : ∀ k ∈ bucket L.hash N keys j, k ∈ loaded := fun k hk => hp.mem_iff.mp (List.mem_filter.mp hk).1
    unfold recoverKeyFromBlock at he
    rw [hu, hparse _ hne hbm, ok_bind] at he
    cases hf : ((bucket L.hash N keys j).map parse).find? (fun e => primaryEmail L.lower e = id) with
    | none => rw [hf] at he; simp at he
    | some e' =>
      rw [hf] at he
      simp only [ok.injEq] at he
      subst he
      have h1 := List.mem_of_find?_eq_some hf
      have h2 := List.find?_some hf
      obtain ⟨k, hk, rfl⟩ := List.mem_map.mp h1
      refine ⟨k, hbm k hk, ?_, ha⟩
      rw [← (filed_iff _ _ _).mp (hnamed k (hbm k hk))]
      simpa using h2

/-- Whatever the answers: what a lookup shows under the root of the keys is the key of the identifier, unless the proof
has another length than those of the tree or there is a collision. -/
theorem lookup_authentic (L : Lib) (hH : ∀ s, (L.H s).length = 32) {ck : List Byte → Merkle.U64} {n : Nat}
    {keys loaded : List Key} (hp : keys.Perm loaded) {parse : Key → Entity} (hparse : Parses L.readRing parse loaded)
    (hnamed : NamedBy L.lower parse loaded) {N : Nat} (hsize : N ≤ 2 ^ 31) {t : Tree}
    (ht : newUsing L.H 32 ck (storedBlocks L.hash N keys) = ok t) {info : Database.Info}
    (htype : info.pirType = "merkle") (hroot : root t = ok info.root) {run : List (List Byte) → Res (List (List Byte))}
    {id : Str} {a : List Byte} (h : lookup L n run info id = ok a) :
    ∃ queries st answers d proof, lookupQueries L n info id = ok (queries, st) ∧ run queries = ok answers ∧
      MerklePir.Spec.Presented answers info st d proof ∧ verifyProof L.H d proof info.root = ok true ∧
      (proof.hashes.length = depth (storedBlocks L.hash N keys) →
        NoCollision L.H 32 (storedBlocks L.hash N keys) d proof →
        ∃ k ∈ loaded, k.id = id ∧ L.armor (parse k) = ok a) := by
  unfold lookup at h
  simp only [bind_eq_ok] at h
  obtain ⟨⟨qs, st⟩, hq, answers, hrun, d, hrec, b, hb, e, he, ha⟩ := h
  have hl : (storedBlocks L.hash N keys).length = N := by simp [storedBlocks]
  obtain ⟨proof, hpr, hv, hmem⟩ := C11_some_record_partial L.H hH ck _ t (by rw [hl]; exact hsize) ht info htype hroot st
    answers d hrec
  refine ⟨qs, st, answers, d, proof, hq, hrun, hpr, hv, fun hfull hnc => ?_⟩
  have hm := hmem hfull hnc
  have hj : proof.index.toNat < N := by
    have := (List.getElem?_eq_some_iff.mp hm).1
    omega
  have hd : d = storedBlock L.hash N keys proof.index.toNat := by
    have := (List.getElem?_eq_some_iff.mp hm).2
    rw [← this]
    simp [storedBlocks]
  exact stored_shown L hp hparse hnamed hd hb he ha

theorem orFatal_mapM {α β : Type _} {f : α → Res β} {l : List α} {r : List β}
    (h : l.mapM (fun q => orFatal (f q)) = ok r) : l.mapM f = ok r := by
  induction l generalizing r with
  | nil => simpa using h
  | cons a l ih =>
    rw [List.mapM_cons] at h ⊢
    simp only [bind_eq_ok] at h
    obtain ⟨b, hb, bs, hbs, h⟩ := h
    rw [orFatal_eq_ok.mp hb, ok_bind, ih hbs, ok_bind]
    exact h

theorem first_honest {net : Net} {S : Schedule} {servers : List String} {r : List Byte}
    (h : FirstInfoHonest net S servers r) {infos : List DbInfo} {i : DbInfo} (hg : gatherInfos net S servers = ok infos)
    (hi : infos.head? = some i) : i.pirType = "merkle" ∧ i.root = r := by
  unfold gatherInfos at hg
  rw [bind_eq_ok] at hg
  obtain ⟨l, hl, hg⟩ := hg
  simp only [ok.injEq] at hg
  subst hg
  exact h l (orFatal_mapM hl) i hi

/-- A key shown by one of the programs is the outcome of a lookup under the first info to arrive. -/
theorem shown_lookup {L : Lib} {W : Predicate.World} {gob : Predicate.Msg → List Byte} {mk : Int → Time} {net : Net}
    {S : Schedule} {servers : List String} {id : String} {a r : List Byte}
    (hshown :
      (∃ conns f typed, connect net.dial servers = ok conns ∧ FirstInfoHonest net S conns r ∧
        (f.scheme = "pointPIR" ∨ f.scheme = "pointVPIR") ∧ id = (if f.id = "" then typed else f.id) ∧
        main L W gob mk net S servers f typed = ok (.key a)) ∨
      (FirstInfoHonest net S servers r ∧ downloadKey L net S servers id = ok (.result a)) ∨
      (FirstInfoHonest net S servers r ∧ ∃ req : Request, req.value "email" = id ∧
        a ≠ bytes "key not found in block" ∧ handleRetrieve L net S servers req = ok (.body a))) :
    ∃ (n : Nat) (peers : List String) (i : DbInfo), i.pirType = "merkle" ∧ i.root = r ∧
      lookup L n (runQueriesActor net S peers) (pointInfo i) (bytes id) = ok a := by
  rcases hshown with ⟨conns, f, typed, hc, hfirst, hf, hid, h⟩ | ⟨hfirst, h⟩ | ⟨hfirst, req, hreq, hne, h⟩
  · unfold main at h
    rw [hc, orFatal_ok, ok_bind, orFatal_eq_ok] at h
    unfold exec at h
    rw [bind_eq_ok] at h
    obtain ⟨infos, hg, h⟩ := h
    rw [bind_eq_ok] at h
    obtain ⟨info, hi, h⟩ := h
    dsimp only at h
    rw [if_pos hf, ← hid] at h
    by_cases h0 : id = ""
    · rw [if_pos h0] at h
      cases h
    · rw [if_neg h0, bind_eq_ok] at h
      obtain ⟨k, hk, h⟩ := h
      simp only [ok.injEq, Output.key.injEq] at h
      subst h
      have hhead : infos.head? = some info := by
        unfold retrieveDBInfo at hi
        split at hi
        · cases hi
        · cases infos with
          | nil => simp [idx] at hi
          | cons x l => simpa [idx] using hi
      obtain ⟨h1, h2⟩ := first_honest hfirst hg hhead
      exact ⟨_, S.conns conns, _, h1, h2, hk⟩
  · unfold downloadKey at h
    cases hl : actorLookup L net S servers (bytes id) with
    | err m =>
      rw [hl] at h
      dsimp only at h
      split at h <;> cases h
    | crash m => rw [hl] at h; cases h
    | ok k =>
      rw [hl] at h
      simp only [ok.injEq, Shown.result.injEq] at h
      subst h
      unfold actorLookup at hl
      simp only [bind_eq_ok] at hl
      obtain ⟨infos, hg, infos', hi, info, hx, hl⟩ := hl
      have hhead : infos.head? = some info := by
        unfold getDBInfos at hi
        split at hi
        · cases hi
        · rw [bind_eq_ok] at hi
          obtain ⟨_, -, hi⟩ := hi
          simp only [ok.injEq] at hi
          subst hi
          cases infos with
          | nil => simp [idx] at hx
          | cons x l => simpa [idx] using hx
      obtain ⟨h1, h2⟩ := first_honest hfirst hg hhead
      exact ⟨_, servers, _, h1, h2, hl⟩
  · unfold handleRetrieve at h
    cases hpz : req.parse with
    | err m => rw [hpz] at h; simp at h
    | crash m => rw [hpz] at h; cases h
    | ok u =>
      rw [hpz] at h
      dsimp only at h
      by_cases h0 : req.value "email" = ""
      · rw [if_pos h0] at h
        simp at h
      · rw [if_neg h0, bind_eq_ok] at h
        obtain ⟨infos, hg, h⟩ := h
        cases hi : getDBInfos infos with
        | err m => rw [hi] at h; simp at h
        | crash m => rw [hi] at h; cases h
        | ok infos' =>
          rw [hi] at h
          dsimp only at h
          rw [bind_eq_ok] at h
          obtain ⟨info, hx, h⟩ := h
          have hhead : infos.head? = some info := by
            unfold getDBInfos at hi
            split at hi
            · cases hi
            · rw [bind_eq_ok] at hi
              obtain ⟨_, -, hi⟩ := hi
              simp only [ok.injEq] at hi
              subst hi
              cases infos with
              | nil => simp [idx] at hx
              | cons x l => simpa [idx] using hx
          obtain ⟨h1, h2⟩ := first_honest hfirst hg hhead
          rw [hreq] at h
          cases hl : lookup L servers.length (runQueriesActor net S servers) (pointInfo info) (bytes id) with
          | crash m => rw [hl] at h; cases h
          | err m =>
            rw [hl] at h
            dsimp only at h
            split at h
            · simp only [ok.injEq, Page.body.injEq] at h
              exact absurd h.symm hne
            · simp at h
          | ok k =>
            rw [hl] at h
            simp only [ok.injEq, Page.body.injEq] at h
            subst h
            exact ⟨_, servers, _, h1, h2, hl⟩

/-- C62, what holds: whatever the servers answer, if the first database info to arrive has the right type and root, then
a key shown by any of the programs comes with a verified proof; and if that proof is as long as the tree is high and its
verification shows no collision, the key shown is the loaded key of the e-mail. Missing from the full claim: dishonest
database infos, see `C62_downgrade`, and proofs of another length, see C08. -/
theorem C62_authentic_partial (L : Lib) (hH : ∀ s, (L.H s).length = 32) (ck : List Byte → Merkle.U64)
    (W : Predicate.World) (gob : Predicate.Msg → List Byte) (mk : Int → Time) (hh : HashLong L.hash)
    (sort : List Key → List Key) (hs : SortsById sort) (order : Orders) (ho : OrdersFair order) (loaded : List Key)
    (rebalanced : Bool) (h10 : 10 ≤ loaded.length) (h32 : loaded.length ≤ 2 ^ 32) (R C : Nat)
    (hd : calculateNumRowsAndColumns (preSquareNumBlocks loaded.length) rebalanced = (R, C)) (hsize : R * C ≤ 2 ^ 31)
    (parse : Key → Entity) (hparse : Parses L.readRing parse loaded) (hnamed : NamedBy L.lower parse loaded)
    (db : Database.Bytes) (hdb : generateRealKeyMerkle L.H ck L.hash sort order loaded rebalanced = ok db)
    (net : Net) (S : Schedule) (servers : List String) (id : String) (a : List Byte)
    (hshown :
      (∃ conns f typed, connect net.dial servers = ok conns ∧ FirstInfoHonest net S conns db.info.root ∧
        (f.scheme = "pointPIR" ∨ f.scheme = "pointVPIR") ∧ id = (if f.id = "" then typed else f.id) ∧
        main L W gob mk net S servers f typed = ok (.key a)) ∨
      (FirstInfoHonest net S servers db.info.root ∧ downloadKey L net S servers id = ok (.result a)) ∨
      (FirstInfoHonest net S servers db.info.root ∧ ∃ req : Request, req.value "email" = id ∧
        a ≠ bytes "key not found in block" ∧ handleRetrieve L net S servers req = ok (.body a))) :
    ∃ peers i d proof, Received L net S peers i (bytes id) d proof ∧ verifyProof L.H d proof db.info.root = ok true ∧
      (proof.hashes.length = depth (storedBlocks L.hash (R * C) (sort loaded)) →
        NoCollision L.H 32 (storedBlocks L.hash (R * C) (sort loaded)) d proof →
        ∃ k ∈ loaded, k.id = bytes id ∧ L.armor (parse k) = ok a) := by
  obtain ⟨t, ht, hr⟩ := merkle_root hh hs ho h10 h32 hd hdb
  obtain ⟨n, peers, i, h1, h2, hl⟩ := shown_lookup hshown
  have hro' : (pointInfo i).root = db.info.root := h2
  obtain ⟨qs, st, answers, d, proof, hq, hrun, hpr, hv, hk⟩ := lookup_authentic L hH (hs loaded).1 hparse hnamed hsize ht
    (info := pointInfo i) h1 (by rw [hro']; exact hr) hl
  rw [hro'] at hv
  exact ⟨peers, i, d, proof, ⟨n, qs, st, answers, hq, hrun, hpr⟩, hv, hk⟩

/-- C62 as claimed: if all servers but one are honest and the hash function has no second preimage for the tree, a key
that is shown is the loaded key of the e-mail. -/
def C62_Statement : Prop :=
  ∀ (L : Lib), (∀ s, (L.H s).length = 32) → ∀ (ck : List Byte → Merkle.U64), HashLong L.hash → Delivers L.read →
    ∀ (sort : List Key → List Key), SortsById sort → ∀ (order : Orders), OrdersFair order → ∀ (loaded : List Key)
    (rebalanced : Bool), 10 ≤ loaded.length → loaded.length ≤ 2 ^ 32 → ∀ (parse : Key → Entity),
    Parses L.readRing parse loaded → NamedBy L.lower parse loaded → ∀ db,
    generateRealKeyMerkle L.H ck L.hash sort order loaded rebalanced = ok db → Describable db →
    Unforgeable L.H (storedBlocks L.hash (db.info.numRows * db.info.numColumns) (sort loaded)) →
    ∀ (net : Net) (S : Schedule), Fair S → ∀ (mode : Nat) (servers : List String), servers.Nodup →
    ServersFit L.dpf mode servers.length → ∀ m ∈ servers,
    (∀ s ∈ servers, s ≠ m → net.info s = ok (transmit (report db)) ∧
      ∀ q, net.answer s q = Point.answer L.dpf mode db q) →
    ∀ (id : String) (a : List Byte), downloadKey L net S servers id = ok (.result a) →
      ∃ k ∈ loaded, k.id = bytes id ∧ L.armor (parse k) = ok a

/-! ### One dishonest server -/

theorem masked_mapM {f : List Byte → Res (List Byte)} {g : String → List Byte → Res (List Byte)} {m : String}
    {mask : List Byte} (hm : ∀ q, g m q = f q >>= fun a => ok (a.zipWith (· ^^^ ·) mask)) {servers : List String}
    (hnd : servers.Nodup) (hmem : m ∈ servers) (hg : ∀ a ∈ servers, a ≠ m → ∀ q, g a q = f q)
    {qs answers : List (List Byte)} (hl : servers.length = qs.length) (h : qs.mapM f = ok answers) :
    ∃ k, ∃ hk : k < answers.length, (servers.zip qs).mapM (fun c => orFatal (g c.1 c.2)) =
      ok (answers.set k (answers[k].zipWith (· ^^^ ·) mask)) := by
  induction servers generalizing qs answers with
  | nil => simp at hmem
  | cons a l ih =>
    cases qs with
    | nil => simp at hl
    | cons q qs =>
      rw [List.mapM_cons] at h
      simp only [bind_eq_ok] at h
      obtain ⟨b, hb, bs, hbs, h⟩ := h
      simp only [pure_eq, ok.injEq] at h
      subst h
      rw [List.zip_cons_cons, List.mapM_cons]
      dsimp only
      obtain ⟨hnot, hnd'⟩ := List.nodup_cons.mp hnd
      by_cases ham : a = m
      · subst ham
        refine ⟨0, by simp, ?_⟩
        rw [hm q, hb, ok_bind, orFatal_ok, ok_bind,
          dispatch_eq (f := f) (fun x hx => hg x (by simp [hx]) (fun e => hnot (e ▸ hx))) qs (by simpa using hl),
          mapM_orFatal hbs]
        rfl
      · obtain ⟨k, hk, hrun⟩ := ih hnd' (by simpa [Ne.symm ham] using hmem) (fun x hx => hg x (by simp [hx]))
          (by simpa using hl) hbs
        refine ⟨k + 1, by simpa using hk, ?_⟩
        rw [hg a (by simp) ham q, hb, orFatal_ok, ok_bind, hrun, ok_bind]
        rfl

/-- The answers that reach the client. -/
theorem masked_run {net : Net} {S : Schedule} {dpf : Dpf} {mode : Nat} {db : Database.Bytes} {servers : List String}
    {m : String} {said : DbInfo} {mask : List Byte} (hnet : OneLiar net dpf mode db servers m said mask)
    (hnd : servers.Nodup) (hmem : m ∈ servers) {qs answers : List (List Byte)} (hl : servers.length = qs.length)
    (h : qs.mapM (Point.answer dpf mode db) = ok answers) :
    ∃ k, ∃ hk : k < answers.length, runQueriesActor net S servers qs =
      ok (S.answers (answers.set k (answers[k].zipWith (· ^^^ ·) mask))) := by
  obtain ⟨k, hk, hrun⟩ := masked_mapM (g := net.answer) hnet.masked hnd hmem hnet.answer hl h
  refine ⟨k, hk, ?_⟩
  unfold runQueriesActor
  rw [sends_eq _ _ (by omega), ok_bind, hrun]
  rfl

/-- The infos that reach the client. -/
theorem liar_infos {net : Net} {S : Schedule} {dpf : Dpf} {mode : Nat} {db : Database.Bytes} {servers : List String}
    {m : String} {said : DbInfo} {mask : List Byte} (hnet : OneLiar net dpf mode db servers m said mask) :
    gatherInfos net S servers =
      ok (S.infos (servers.map (fun a => if a = m then said else transmit (report db)))) := by
  unfold gatherInfos
  have : servers.mapM (fun a => orFatal (net.info a)) =
      ok (servers.map (fun a => if a = m then said else transmit (report db))) := by
    have hi := hnet.info
    generalize servers = l at hi
    induction l with
    | nil => rfl
    | cons a l ih =>
      rw [List.mapM_cons, ih (fun x hx => hi x (by simp [hx]))]
      by_cases ham : a = m
      · subst ham
        rw [hnet.said]
        simp [pure_eq]
      · rw [hi a (by simp) ham]
        simp [pure_eq, ham]
  rw [this]
  rfl

/-- What the programs make of the outcome of the lookup, for any servers. -/
theorem programs_of_lookup (L : Lib) (W : Predicate.World) (gob : Predicate.Msg → List Byte) (mk : Int → Time) {net : Net}
    {S : Schedule} (hS : Fair S) {servers : List String} (hdial : ∀ a ∈ servers, net.dial a = ok ())
    {infos : List DbInfo} {i : DbInfo} (hg : gatherInfos net S servers = ok infos) (hi : infos.head? = some i)
    (heq : equalDBInfo infos = true) {id : String} (hid : id ≠ "") {r : Res (List Byte)}
    (hr : ∀ l, l.Perm servers → lookup L servers.length (runQueriesActor net S l) (pointInfo i) (bytes id) = r) :
    (∀ a, r = ok a → ShowKey L W gob mk net S servers id a) ∧
    (r = err "no key with the given email id is found" → SayNoKey L W gob mk net S servers id) := by
  have hx : idx infos 0 = ok i := by
    cases infos with
    | nil => simp at hi
    | cons x l => simpa [idx] using hi
  have hflag : ∀ (f : Flags) (typed : String), (f.id = id ∨ f.id = "" ∧ typed = id) →
      (if f.id = "" then typed else f.id) = id := by
    rintro f typed (h | ⟨h, h'⟩)
    · rw [if_neg (by rw [h]; exact hid), h]
    · rw [if_pos h, h']
  have hmain : servers.Nodup → ∀ (f : Flags) (typed : String), f.scheme = "pointPIR" ∨ f.scheme = "pointVPIR" →
      (f.id = id ∨ f.id = "" ∧ typed = id) → main L W gob mk net S servers f typed =
        orFatal (r >>= fun k => ok (.key k)) := by
    intro hnd f typed hf he
    unfold main exec retrieveDBInfo
    rw [connect_nodup hdial hnd, orFatal_ok, ok_bind, hg, ok_bind, heq, if_neg (by decide), hx, ok_bind, if_pos hf]
    dsimp only
    rw [hflag f typed he, if_neg hid]
    have : runQueries net S servers = runQueriesActor net S (S.conns servers) := rfl
    rw [this, hr _ (hS.conns servers)]
  have hl := hr servers (List.Perm.refl _)
  have hdown : downloadKey L net S servers id = (match r with
      | ok k => ok (.result k)
      | err m => if contains m keyNotFoundErr then ok .noKey else err m
      | crash m => crash m) := by
    unfold downloadKey actorLookup getDBInfos
    rw [hg, ok_bind, heq, if_neg (by decide), hx, ok_bind, ok_bind, hx, ok_bind, hl]
    cases r <;> rfl
  have hweb : ∀ req : Request, req.parse = ok () → req.value "email" = id → handleRetrieve L net S servers req =
      (match r with
      | ok k => ok (.body k)
      | err m => if contains m keyNotFoundErr then ok (.body (bytes "key not found in block"))
          else ok (.error 500 ("failed to get result: " ++ m))
      | crash m => crash m) := by
    intro req hreq hem
    unfold handleRetrieve getDBInfos
    rw [hreq]
    dsimp only
    rw [hem, if_neg hid, hg, ok_bind, heq, if_neg (by decide), hx, ok_bind]
    dsimp only
    rw [hx, ok_bind, hl]
    cases r <;> rfl
  have hk : contains "no key with the given email id is found" keyNotFoundErr = true := by decide
  refine ⟨fun a ha => ⟨fun hnd f typed hf he => ?_, ?_, fun req hreq hem => ?_⟩,
    fun ha => ⟨fun hnd f typed hf he => ?_, ?_, fun req hreq hem => ?_⟩⟩
  · rw [hmain hnd f typed hf he, ha]; rfl
  · rw [hdown, ha]
  · rw [hweb req hreq hem, ha]
  · rw [hmain hnd f typed hf he, ha]; rfl
  · rw [hdown, ha]
    dsimp only
    rw [if_pos hk]
  · rw [hweb req hreq hem, ha]
    dsimp only
    rw [if_pos hk]

/-- What the client makes of a reconstructed value. -/
def opened (L : Lib) (info : Database.Info) (value : List Byte) (id : Str) : Res (List Byte) :=
  (if info.pirType = "classical" ∨ info.pirType = "" then ok value
    else if info.pirType = "merkle" then checkBlock L.H info value else crash "unknown PIRType") >>= fun result =>
  unPadBlock result >>= fun b => recoverKeyFromBlock L.lower L.readRing b id >>= L.armor

/-- Any value can be put in place of the requested one, by a mask that is known beforehand. -/
theorem liar_lookup {db : Database.Bytes} {blocks : List (List Byte)} (hst : Stores db blocks)
    (h0 : 0 < blocks.length) (hN : blocks.length < 2 ^ 32) (hash : Str → List Byte) (hh : HashLong hash) (id : Str)
    {value : List Byte} (hv : value.length = db.info.blockSize) :
    ∃ mask : List Byte, ∀ (L : Lib), L.hash = hash → Delivers L.read → ∀ {S : Schedule}, Fair S →
      ∀ {mode : Nat} {servers : List String}, ServersFit L.dpf mode servers.length → ∀ {net : Net} {m : String}
        {said : DbInfo}, OneLiar net L.dpf mode db servers m said mask → servers.Nodup → m ∈ servers →
      ∀ {i : DbInfo}, i.numRows = db.info.numRows → i.numColumns = db.info.numColumns →
        i.blockSize = db.info.blockSize →
        lookup L servers.length (runQueriesActor net S servers) (pointInfo i) id = opened L (pointInfo i) value id := by
  have hp := position_lt hash h0 id
  have hR : 0 < db.info.numRows := by
    rcases Nat.eq_zero_or_pos db.info.numRows with h | h
    · have := hst.count; rw [h, Nat.zero_mul] at this; omega
    · exact h
  have hC0 : 0 < db.info.numColumns := by
    rcases Nat.eq_zero_or_pos db.info.numColumns with h | h
    · have := hst.count; rw [h, Nat.mul_zero] at this; omega
    · exact h
  have hcols : db.info.numColumns < 2 ^ 63 := by
    have := Nat.le_mul_of_pos_left db.info.numColumns hR
    have := hst.count
    omega
  obtain ⟨mask, -, hm⟩ := blind db blocks hst hcols (position hash blocks.length id) hp value hv
  refine ⟨mask, fun L hL hread S hS mode servers hfit net m said hnet hnd hmem i h1 h2 h3 => ?_⟩
  have hn : 0 < servers.length := List.length_pos_of_mem hmem
  obtain ⟨qs, st, answers, hq, ha, hal, hval⟩ := hm L.dpf L.read hread mode servers.length hfit
  have hql : qs.length = servers.length := query_length hread hC0 hn hq
  obtain ⟨k, hk, hrun⟩ := masked_run (S := S) hnet hnd hmem hql.symm ha
  unfold lookup lookupQueries opened
  have hix : hashToIndex L.hash id ((pointInfo i).numRows * (pointInfo i).numColumns) =
      ok (position hash blocks.length id) := by
    have e : (pointInfo i).numRows * (pointInfo i).numColumns = blocks.length := by
      rw [hst.count, ← h1, ← h2]; rfl
    rw [e, hL]
    exact hashToIndex_spec hh h0 hN id
  have hqb : Point.queryBytes L.dpf L.read (pointInfo i)
      (putBE32 (BitVec.ofNat 32 (position hash blocks.length id))) servers.length = ok (qs, st) := by
    unfold queryBytes
    have : getBE32 (putBE32 (BitVec.ofNat 32 (position hash blocks.length id))) =
        ok (BitVec.ofNat 32 (position hash blocks.length id)) := by
      have := getBE32_put (BitVec.ofNat 32 (position hash blocks.length id)) []
      rwa [List.append_nil] at this
    rw [this, ok_bind, BitVec.toNat_ofNat, Nat.mod_eq_of_lt (by omega), ← hq]
    have hc : (pointInfo i).numColumns = db.info.numColumns := h2
    unfold Point.query
    rw [hc]
  have hrv : reconstructValue (S.answers (answers.set k (answers[k].zipWith (· ^^^ ·) mask))) (pointInfo i) st =
      ok value := by
    have hb : (pointInfo i).blockSize = db.info.blockSize := h3
    rw [C05_point_order _ _ _ _ (hS.answers _), ← hval k hk]
    unfold reconstructValue
    rw [hb]
  rw [hix, ok_bind]
  dsimp only
  rw [hqb, ok_bind]
  dsimp only
  rw [hrun, ok_bind]
  unfold reconstructPIR
  rw [hrv]
  simp only [ok_bind]

/-- C62: one server that says that the database is unauthenticated, and says so first, has any key of its choice shown for
an e-mail that it expects to be looked up, whatever the database holds. It needs to know neither the queries nor the
answers of the others: the mask depends only on the database, the e-mail and the key. -/
theorem C62_downgrade (hash : Str → List Byte) (hh : HashLong hash) (db : Database.Bytes) (blocks : List (List Byte))
    (hst : Stores db blocks) (hdesc : Describable db) (h0 : 0 < blocks.length) (hN : blocks.length < 2 ^ 32) (id : String)
    (hid : id ≠ "") (payload : List Byte) (hroom : payload.length < db.info.blockSize) :
    ∃ mask : List Byte, ∀ (L : Lib), L.hash = hash → Delivers L.read →
      ∀ e a, L.readRing payload = ok [e] → primaryEmail L.lower e = bytes id → L.armor e = ok a →
      ∀ (W : Predicate.World) (gob : Predicate.Msg → List Byte) (mk : Int → Time) (S : Schedule), Fair S →
      ∀ (mode : Nat) (servers : List String), ServersFit L.dpf mode servers.length → servers.Nodup →
      ∀ (net : Net) (m : String), m ∈ servers →
        OneLiar net L.dpf mode db servers m (unauthenticated db) mask →
        (∀ l, (unauthenticated db) ∈ l →
          (S.infos l).head? = some (unauthenticated db)) →
        ShowKey L W gob mk net S servers id a := by
  obtain ⟨mask, hm⟩ := liar_lookup hst h0 hN hash hh (bytes id)
    (value := payload ++ [0x80] ++ List.replicate (db.info.blockSize - (payload.length + 1)) 0) (by simp; omega)
  refine ⟨mask, fun L hL hread e a hring hname harm W gob mk S hS mode servers hfit hnd net m hmem hnet hfirst => ?_⟩
  have hmem' : unauthenticated db ∈
      servers.map (fun a => if a = m then (unauthenticated db) else transmit (report db)) :=
    List.mem_map.mpr ⟨m, hmem, by simp⟩
  refine (programs_of_lookup L W gob mk hS hnet.dial (liar_infos hnet) (hfirst _ hmem') ?_ hid
    (r := ok a) (fun l hl => ?_)).1 a rfl
  · have hall : ∀ i ∈ S.infos (servers.map
        (fun a => if a = m then (unauthenticated db) else transmit (report db))),
        i.numRows = db.info.numRows ∧ i.numColumns = db.info.numColumns ∧ i.blockSize = db.info.blockSize := by
      intro i hi
      obtain ⟨x, -, rfl⟩ := List.mem_map.mp ((hS.infos _).mem_iff.mp hi)
      rw [transmit_report hdesc]
      split <;> exact ⟨rfl, rfl, rfl⟩
    generalize S.infos (servers.map
      (fun a => if a = m then (unauthenticated db) else transmit (report db))) = infos at hall
    cases infos with
    | nil => rfl
    | cons x l =>
      obtain ⟨x1, x2, x3⟩ := hall x (by simp)
      simp only [equalDBInfo, List.all_eq_true]
      intro i hi
      obtain ⟨i1, i2, i3⟩ := hall i hi
      simp [x1, x2, x3, i1, i2, i3]
  · have hnet' : OneLiar net L.dpf mode db l m (unauthenticated db) mask :=
      ⟨fun a ha => hnet.dial a (hl.mem_iff.mp ha), fun a ha => hnet.info a (hl.mem_iff.mp ha),
        fun a ha => hnet.answer a (hl.mem_iff.mp ha), hnet.said, hnet.masked⟩
    have := hm L hL hread hS (by rw [hl.length_eq]; exact hfit) hnet' (hl.nodup_iff.mpr hnd) (hl.mem_iff.mpr hmem)
      (i := (unauthenticated db)) rfl rfl rfl
    rw [hl.length_eq] at this
    rw [this]
    unfold opened
    rw [show (pointInfo (unauthenticated db)).pirType = "classical" from rfl, if_pos (Or.inl rfl), ok_bind, unPad_signal,
      ok_bind]
    unfold recoverKeyFromBlock
    rw [hring, ok_bind]
    simp [hname, harm]

/-- C62: in an authenticated database whose proofs are made, one server that tells the truth about the database, but adds a
mask to its answers, makes all programs say that there is no key for an e-mail, loaded or not. -/
theorem C62_false_absence (H : List Byte → List Byte) (hH : ∀ s, (H s).length = 32) (ck : List Byte → Merkle.U64)
    (hash : Str → List Byte) (hh : HashLong hash)
    (sort : List Key → List Key) (hs : SortsById sort) (order : Orders) (ho : OrdersFair order) (loaded : List Key)
    (rebalanced : Bool) (h10 : 10 ≤ loaded.length) (h32 : loaded.length ≤ 2 ^ 32) (R C : Nat)
    (hd : calculateNumRowsAndColumns (preSquareNumBlocks loaded.length) rebalanced = (R, C)) (hsize : R * C ≤ 2 ^ 31)
    (hck : ChecksumsFaithful ck (storedBlocks hash (R * C) (sort loaded)))
    (hdist : Nat.clog 2 (storedBlocks hash (R * C) (sort loaded)).dedup.length = Nat.clog 2 (R * C))
    (parse : Key → Entity)
    (k k' : Key) (hk' : k' ∈ loaded) (hne : position hash (R * C) k.id ≠ position hash (R * C) k'.id) :
    ∃ db, generateRealKeyMerkle H ck hash sort order loaded rebalanced = ok db ∧ (Describable db →
      ∃ mask : List Byte, ∀ (L : Lib), L.H = H → L.hash = hash → Delivers L.read → Parses L.readRing parse loaded →
      NamedBy L.lower parse loaded →
      ∀ (W : Predicate.World) (gob : Predicate.Msg → List Byte) (mk : Int → Time) (S : Schedule), Fair S →
      ∀ (mode : Nat) (servers : List String), ServersFit L.dpf mode servers.length → servers.Nodup →
      ∀ (net : Net) (m : String), m ∈ servers → OneLiar net L.dpf mode db servers m (report db) mask →
      ∀ id, id ≠ "" → bytes id = k.id → SayNoKey L W gob mk net S servers id) := by
  obtain ⟨db, h1, h2, h3, h4⟩ := serves_merkle hH hh hs ho loaded h10 h32 rebalanced hd hsize hck hdist
  have hl : (storedBlocks hash (R * C) (sort loaded)).length = R * C := by simp [storedBlocks]
  obtain ⟨-, t2, -⟩ := table_size h32 rebalanced
  have t2 := t2 h10
  rw [hd] at t2
  have h4 : Holds H db (storedBlocks hash (R * C) (sort loaded)) := by
    rcases h4 with ⟨hty, -⟩ | h4
    · rw [generateRealKeyMerkle_eq H ck hh hs ho loaded h10 h32 rebalanced hd] at h1
      unfold merkleOf at h1
      simp only [bind_eq_ok] at h1
      obtain ⟨t, -, ⟨lens, mx⟩, -, entries, -, r, -, h1⟩ := h1
      simp only [ok.injEq] at h1
      rw [← h1] at hty
      simp at hty
    · exact h4
  refine ⟨db, h1, fun hdesc => ?_⟩
  obtain ⟨stored, hst, hf⟩ := h4.stored
  obtain ⟨hlen, hget⟩ := forall₂_get hf
  have hj : position hash (R * C) k'.id < R * C := position_lt hash t2 _
  have hfits := hst.fits (stored[position hash (R * C) k'.id]'(by omega)) (List.getElem_mem _)
  obtain ⟨mask, hm⟩ := liar_lookup hst (by omega) (by omega) hash hh k.id
    (value := zeroExtend db.info.blockSize (stored[position hash (R * C) k'.id]'(by omega)))
    (by unfold zeroExtend; simp; omega)
  refine ⟨mask, fun L hLH hL hread hparse hnamed W gob mk S hS mode servers hfit hnd net m hmem hnet id hid hkid => ?_⟩
  have hinfos : ∀ l : List String, l.map (fun a => if a = m then report db else transmit (report db)) =
      List.replicate l.length (report db) := by
    intro l
    rw [transmit_report hdesc]
    simp
  have hg := liar_infos (S := S) hnet
  rw [hinfos, List.perm_replicate.mp (hS.infos _)] at hg
  refine (programs_of_lookup L W gob mk hS hnet.dial hg (i := report db) ?_ (equal_replicate _ _) hid
    (r := err "no key with the given email id is found") (fun l hpl => ?_)).2 rfl
  · have := List.length_pos_of_mem hmem
    obtain ⟨n, hn⟩ : ∃ n, servers.length = n + 1 := ⟨servers.length - 1, by omega⟩
    rw [hn]
    rfl
  · have hnet' : OneLiar net L.dpf mode db l m (report db) mask :=
      ⟨fun a ha => hnet.dial a (hpl.mem_iff.mp ha), fun a ha => hnet.info a (hpl.mem_iff.mp ha),
        fun a ha => hnet.answer a (hpl.mem_iff.mp ha), hnet.said, hnet.masked⟩
    have := hm L hL hread hS (by rw [hpl.length_eq]; exact hfit) hnet' (hpl.nodup_iff.mpr hnd) (hpl.mem_iff.mpr hmem)
      (i := report db) rfl rfl rfl
    rw [hpl.length_eq] at this
    rw [hkid, this]
    have hb := hget (position hash (R * C) k'.id) (by omega) (by omega)
    have hblock : (storedBlocks hash (R * C) (sort loaded))[position hash (R * C) k'.id]'(by omega) =
        packets (bucket hash (R * C) (sort loaded) (position hash (R * C) k'.id)) ++ [0x80] := by
      have hmemb : k' ∈ bucket hash (R * C) (sort loaded) (position hash (R * C) k'.id) :=
        List.mem_filter.mpr ⟨(hs loaded).1.mem_iff.mpr hk', by simp⟩
      simp only [storedBlocks, List.getElem_map, List.getElem_range, storedBlock]
      rw [if_neg (List.ne_nil_of_mem hmemb)]
    have hmemb : bucket hash (R * C) (sort loaded) (position hash (R * C) k'.id) ≠ [] :=
      List.ne_nil_of_mem (List.mem_filter.mpr ⟨(hs loaded).1.mem_iff.mpr hk', by simp⟩)
    have hbm : ∀ x ∈ bucket hash (R * C) (sort loaded) (position hash (R * C) k'.id), x ∈ loaded :=
      fun x hx => (hs loaded).1.mem_iff.mp (List.mem_filter.mp hx).1
    unfold opened
    have hty : (pointInfo (report db)).pirType = "merkle" := h4.type
    rw [hty, if_neg (by decide), if_pos rfl]
    have hcheck : checkBlock L.H (pointInfo (report db)) (zeroExtend db.info.blockSize
        (stored[position hash (R * C) k'.id]'(by omega))) =
        ok ((storedBlocks hash (R * C) (sort loaded))[position hash (R * C) k'.id]'(by omega)) := by
      rw [hLH]
      exact checkBlock_sealed hb _
    rw [hcheck, ok_bind, hblock]
    have hu := unPad_signal (packets (bucket hash (R * C) (sort loaded) (position hash (R * C) k'.id))) 0
    rw [List.replicate_zero, List.append_nil] at hu
    rw [hu, ok_bind]
    unfold recoverKeyFromBlock
    rw [hparse _ hmemb hbm, ok_bind]
    have hnone : ((bucket hash (R * C) (sort loaded) (position hash (R * C) k'.id)).map parse).find?
        (fun e => primaryEmail L.lower e = k.id) = none := by
      rw [List.find?_eq_none]
      intro e he
      obtain ⟨x, hx, rfl⟩ := List.mem_map.mp he
      have hxp := (List.mem_filter.mp hx).2
      have hxn := (filed_iff _ _ _).mp (hnamed x (hbm x hx))
      simp only [decide_eq_true_eq] at hxp ⊢
      rw [hxn]
      rintro h
      rw [h] at hxp
      exact hne hxp
    rw [hnone]
    rfl

/-! ### Witness -/

/-- The block of the twenty keys with its position, the empty block with its position, and the digests of the two. -/
def leaf0 : List Byte := storedBlock lengthHash 2 (sortDesc twenty) 0 ++ [0, 0, 0, 0]

/-- See `leaf0`. -/
def leaf1 : List Byte := [1, 0, 0, 0]

/-- See `leaf0`. -/
def inner : List Byte := List.replicate 32 1 ++ List.replicate 32 2

/-- A hash function that treats the strings of one tree specially. -/
def treeHash (s : List Byte) : List Byte :=
  if s = leaf0 then List.replicate 32 1 else if s = leaf1 then List.replicate 32 2
  else if s = inner then List.replicate 32 3 else List.replicate 32 9

theorem treeHash_length (s : List Byte) : (treeHash s).length = 32 := by
  unfold treeHash
  split_ifs <;> simp

theorem treeHash_blocks : storedBlocks lengthHash 2 (sortDesc twenty) =
    [storedBlock lengthHash 2 (sortDesc twenty) 0, []] := by
  decide

theorem treeHash_unforgeable : Unforgeable treeHash (storedBlocks lengthHash 2 (sortDesc twenty)) := by
  have hsp : ∀ a b, (b = leaf0 ∨ b = leaf1 ∨ b = inner) → treeHash a = treeHash b → a = b := by
    have e0 : treeHash leaf0 = List.replicate 32 1 := by decide
    have e1 : treeHash leaf1 = List.replicate 32 2 := by decide
    have e2 : treeHash inner = List.replicate 32 3 := by decide
    have hne : ∀ x y : Byte, x ≠ y → List.replicate 32 x ≠ List.replicate 32 y := by
      intro x y h h'
      exact h (by simpa using h')
    rintro a b (rfl | rfl | rfl) h
    · rw [e0] at h
      unfold treeHash at h
      split_ifs at h with h1 h2 h3
      · exact h1
      all_goals exact absurd h (hne _ _ (by decide))
    · rw [e1] at h
      unfold treeHash at h
      split_ifs at h with h1 h2 h3
      · exact absurd h (hne _ _ (by decide))
      · exact h2
      all_goals exact absurd h (hne _ _ (by decide))
    · rw [e2] at h
      unfold treeHash at h
      split_ifs at h with h1 h2 h3
      · exact absurd h (hne _ _ (by decide))
      · exact absurd h (hne _ _ (by decide))
      · exact h3
      all_goals exact absurd h (hne _ _ (by decide))
  have hd : depth (storedBlocks lengthHash 2 (sortDesc twenty)) = 1 := by
    unfold depth
    rw [treeHash_blocks]
    decide
  refine ⟨fun a b hb => hsp a b ?_, fun a => ?_⟩
  · cases hb with
    | leaf p h =>
      have h2 : p < 2 := by simpa [storedBlocks] using h
      interval_cases p
      · left
        rw [List.getElem_of_eq treeHash_blocks]
        rfl
      · right; left
        rw [List.getElem_of_eq treeHash_blocks]
        rfl
    | inner l p h hp =>
      rw [hd] at h hp
      obtain rfl : l = 0 := by omega
      obtain rfl : p = 0 := by simpa using hp
      right; right
      decide
  · unfold treeHash
    split_ifs <;> decide

/-- This info comes first if it comes at all. -/
def ahead (i : DbInfo) : Schedule := ⟨fun l => if i ∈ l then i :: l.erase i else l, fun l => l, fun l => l⟩

theorem ahead_fair (i : DbInfo) : Fair (ahead i) := by
  refine ⟨fun l => ?_, fun l => List.Perm.refl l, fun l => List.Perm.refl l⟩
  by_cases h : i ∈ l
  · simp only [ahead, if_pos h]
    exact (List.perm_cons_erase h).symm
  · simp only [ahead, if_neg h]
    exact List.Perm.refl l

/-- The library functions of the examples with that hash function. -/
def treeLib : Lib := { exLib plainDpf with H := treeHash }

theorem twenty_dims : calculateNumRowsAndColumns (preSquareNumBlocks twenty.length) false = (1, 2) := by decide

theorem twenty_faithful : ChecksumsFaithful fnv1a (storedBlocks lengthHash (1 * 2) (sortDesc twenty)) ∧
    Nat.clog 2 (storedBlocks lengthHash (1 * 2) (sortDesc twenty)).dedup.length = Nat.clog 2 (1 * 2) := by
  unfold ChecksumsFaithful
  decide

theorem twenty_merkle : ∃ db, generateRealKeyMerkle treeHash fnv1a lengthHash sortDesc reversed twenty false = ok db ∧
    Describable db ∧ db.info.numRows = 1 ∧ db.info.numColumns = 2 ∧ 10 < db.info.blockSize ∧
    ∃ blocks, Stores db blocks ∧ blocks.length = 2 := by
  obtain ⟨db, h1, h2, h3, h4⟩ := serves_merkle treeHash_length lengthHash_long sortDesc_sorts reversed_fair twenty
    (by decide) (by decide) false twenty_dims (by decide) twenty_faithful.1 twenty_faithful.2
  have he := h1
  rw [generateRealKeyMerkle_eq treeHash fnv1a lengthHash_long sortDesc_sorts reversed_fair twenty (by decide) (by decide)
    false twenty_dims] at he
  have hc : (match merkleOf treeHash fnv1a (storedBlocks lengthHash (1 * 2) (sortDesc twenty)) 1 2 with
    | ok db => decide (db.info.numRows < 2 ^ 32 ∧ db.info.numColumns < 2 ^ 32 ∧ db.info.blockSize < 2 ^ 32 ∧
        db.info.proofLen < 2 ^ 32 ∧ 10 < db.info.blockSize)
    | _ => false) = true := by decide
  rw [he] at hc
  simp only [decide_eq_true_eq] at hc
  refine ⟨db, h1, ⟨hc.1, hc.2.1, hc.2.2.1, hc.2.2.2.1⟩, h2, h3, hc.2.2.2.2, ?_⟩
  rcases h4 with ⟨-, h4⟩ | h4
  · exact ⟨_, h4, by simp [storedBlocks]⟩
  · obtain ⟨stored, hst, hf⟩ := h4.stored
    exact ⟨stored, hst, by rw [hst.count, h2, h3]⟩

/-- Server "b" says that the database is unauthenticated and adds the mask to its answers. -/
def liarNet (db : Database.Bytes) (said : DbInfo) (mask : List Byte) : Net :=
  ⟨fun _ => ok (), fun a => if a = "b" then ok said else ok (transmit (report db)),
    fun a q => if a = "b" then Point.answer plainDpf 0 db q >>= fun x => ok (x.zipWith (· ^^^ ·) mask)
      else Point.answer plainDpf 0 db q⟩

theorem liarNet_spec (db : Database.Bytes) (said : DbInfo) (mask : List Byte) (servers : List String) :
    OneLiar (liarNet db said mask) plainDpf 0 db servers "b" said mask :=
  ⟨fun _ _ => rfl, fun _ _ h => if_neg h, fun _ _ h _ => if_neg h, rfl, fun _ => rfl⟩

/-- C62 as claimed is false: the second of three servers has the key of an e-mail shown that was never loaded. -/
theorem C62_refuted : ¬ C62_Statement := by
  intro h
  obtain ⟨db, hdb, hdesc, hR, hC, hbs, blocks, hst, hbl⟩ := twenty_merkle
  obtain ⟨mask, hm⟩ := C62_downgrade lengthHash lengthHash_long db blocks hst hdesc (by omega) (by omega) "\x63\x01"
    (by decide) [0x63] (by simp; omega)
  have hshow := hm treeLib rfl sevens_delivers (entityOf [0x63, 1]) [0x63, 1] rfl (by decide) rfl exWorld (fun _ => [])
    dayTime (ahead (unauthenticated db)) (ahead_fair _) 0 ["a", "b", "c"] (servers_fit_three _) (by decide)
    (liarNet db (unauthenticated db) mask) "b" (by decide) (liarNet_spec _ _ _ _) ?_
  · obtain ⟨k, hk, hid, -⟩ := h treeLib treeHash_length fnv1a lengthHash_long sevens_delivers sortDesc sortDesc_sorts
      reversed reversed_fair twenty false (by decide) (by decide) _ twenty_parses twenty_named db hdb hdesc
      (by rw [hR, hC]; exact treeHash_unforgeable) (liarNet db (unauthenticated db) mask) (ahead (unauthenticated db))
      (ahead_fair _) 0 ["a", "b", "c"] (by decide) (servers_fit_three _) "b" (by decide)
      (fun s _ hs => ⟨if_neg hs, fun q => if_neg hs⟩) "\x63\x01" [0x63, 1] hshow.interactive
    revert hid
    have : ∀ k ∈ twenty, k.id ≠ bytes "\x63\x01" := by decide
    exact this k hk
  · intro l hl
    simp only [ahead, if_pos hl]
    rfl

/-- The hypotheses of `C62_authentic_partial` hold of three honest servers, and of the same servers when one adds a mask to
its answers. -/
example : ∃ db, generateRealKeyMerkle treeHash fnv1a lengthHash sortDesc reversed twenty false = ok db ∧
    FirstInfoHonest (honestNet plainDpf db) backwards ["a", "b", "c"] db.info.root ∧
    downloadKey treeLib (honestNet plainDpf db) backwards ["a", "b", "c"] "\x03\x01" = ok (.result [3, 1]) ∧
    ∀ mask, FirstInfoHonest (liarNet db (report db) mask) backwards ["a", "b", "c"] db.info.root := by
  obtain ⟨db, h1, h2⟩ := C60_lookup_merkle_partial treeLib treeHash_length fnv1a exWorld (fun _ => []) dayTime
    sevens_delivers lengthHash_long sortDesc sortDesc_sorts reversed reversed_fair twenty false (by decide) (by decide)
    (by decide) 1 2 twenty_dims (by decide) twenty_faithful.1 twenty_faithful.2 _ twenty_parses twenty_named
  obtain ⟨db', hdb, hdesc, -⟩ := twenty_merkle
  have : db = db' := by have := h1.symm.trans hdb; simpa using this
  subst this
  have hty : db.info.pirType = "merkle" := by
    have he := hdb
    rw [generateRealKeyMerkle_eq _ fnv1a lengthHash_long sortDesc_sorts reversed_fair twenty (by decide) (by decide)
      false twenty_dims] at he
    unfold merkleOf at he
    simp only [bind_eq_ok] at he
    obtain ⟨t, -, ⟨lens, mx⟩, -, entries, -, r, -, he⟩ := he
    simp only [ok.injEq] at he
    rw [← he]
  have hfirst : ∀ net : Net, (∀ a ∈ ["a", "b", "c"], net.info a = ok (report db)) →
      FirstInfoHonest net backwards ["a", "b", "c"] db.info.root := by
    intro net hnet infos hinf i hi
    rw [List.mapM_cons, List.mapM_cons, List.mapM_cons, hnet _ (by simp), hnet _ (by simp), hnet _ (by simp)] at hinf
    simp only [ok_bind, pure_eq, List.mapM_nil, ok.injEq] at hinf
    subst hinf
    simp only [backwards, List.reverse_cons, List.reverse_nil, List.nil_append, List.cons_append, List.head?_cons,
      Option.some.injEq] at hi
    subst hi
    exact ⟨hty, rfl⟩
  refine ⟨db, hdb, hfirst _ (fun a _ => ?_), ?_, fun mask => hfirst _ (fun a _ => ?_)⟩
  · rw [← transmit_report hdesc]; rfl
  · exact ((h2 hdesc (honestNet plainDpf db) backwards backwards_fair ["a", "b", "c"] 0 (servers_fit_three _)
      (honestNet_serves _ _ _)).1 ⟨[3, 1], [3]⟩ (by decide) "\x03\x01" [3, 1] (by decide) (by decide) rfl).interactive
  · simp only [liarNet, transmit_report hdesc]
    split <;> rfl

/-- Identifiers are distributed by their first byte. -/
def headHash (s : Str) : List Byte := [0, 0, 0, s.headD 0]

theorem headHash_long : HashLong headHash := fun _ => le_refl _

/-- C62: the key "\x03\x01" is loaded, and the interactive client says that there is none. -/
example : ∃ db, generateRealKeyMerkle toyHash fnv1a headHash sortDesc reversed twenty false = ok db ∧
    ∃ mask, downloadKey { exLib plainDpf with hash := headHash } (liarNet db (report db) mask) backwards ["a", "b", "c"]
      "\x03\x01" = ok .noKey := by
  obtain ⟨db, h1, h2⟩ := C62_false_absence toyHash toyHash_length fnv1a headHash headHash_long sortDesc sortDesc_sorts
    reversed reversed_fair twenty false (by decide) (by decide) 1 2 twenty_dims (by decide)
    (by unfold ChecksumsFaithful; decide) (by decide) _ ⟨[3, 1], [3]⟩ ⟨[2, 1], [2]⟩ (by decide) (by decide)
  have he := h1
  rw [generateRealKeyMerkle_eq toyHash fnv1a headHash_long sortDesc_sorts reversed_fair twenty (by decide) (by decide)
    false twenty_dims] at he
  have hc : (match merkleOf toyHash fnv1a (storedBlocks headHash (1 * 2) (sortDesc twenty)) 1 2 with
    | ok db => decide (db.info.numRows < 2 ^ 32 ∧ db.info.numColumns < 2 ^ 32 ∧ db.info.blockSize < 2 ^ 32 ∧
        db.info.proofLen < 2 ^ 32)
    | _ => false) = true := by decide
  rw [he] at hc
  simp only [decide_eq_true_eq] at hc
  obtain ⟨mask, hm⟩ := h2 ⟨hc.1, hc.2.1, hc.2.2.1, hc.2.2.2⟩
  refine ⟨db, h1, ?_⟩
  exact ⟨mask, (hm { exLib plainDpf with hash := headHash } rfl rfl sevens_delivers twenty_parses twenty_named exWorld
    (fun _ => []) dayTime backwards backwards_fair 0 ["a", "b", "c"] (servers_fit_three _) (by decide)
    (liarNet db (report db) mask) "b" (by decide) (liarNet_spec _ _ _ _) "\x03\x01" (by decide) (by decide)).interactive⟩

end Verif.Client
