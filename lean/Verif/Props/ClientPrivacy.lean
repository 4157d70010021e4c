import Verif.Props.Client
import Verif.Props.PointPrivacy

/-! # C61: what the servers see of a lookup -/

namespace Verif.Client
open Res Verif.Cmd Verif.Pgp Verif.Pgp.Spec Verif.Query Verif.Client.Spec Verif.Point Verif.Point.Spec

theorem connect_spec {dial : String → Res Unit} {l : List String} (h : ∀ a ∈ l, dial a = ok ()) :
    ∃ conns, connect dial l = ok conns ∧ conns.Nodup ∧ (∀ a, a ∈ conns ↔ a ∈ l) := by
  have key : ∀ (l acc : List String), (∀ a ∈ l, dial a = ok ()) → acc.Nodup →
      ∃ conns, l.foldlM (fun conns s => do
        let _ ← dial s
        ok (if s ∈ conns then conns else conns ++ [s])) acc = ok conns ∧ conns.Nodup ∧
        (∀ a, a ∈ conns ↔ a ∈ acc ∨ a ∈ l) := by
    intro l
    induction l with
    | nil => intro acc _ hn; exact ⟨acc, by simp [pure_eq], hn, by simp⟩
    | cons x l ih =>
      intro acc h hn
      rw [List.foldlM_cons, h x (by simp), ok_bind, ok_bind]
      by_cases hx : x ∈ acc
      · obtain ⟨conns, h1, h2, h3⟩ := ih acc (fun a ha => h a (by simp [ha])) hn
        rw [if_pos hx]
        refine ⟨conns, h1, h2, fun a => ?_⟩
        rw [h3, List.mem_cons]
        constructor
        · rintro (h | h)
          · exact Or.inl h
          · exact Or.inr (Or.inr h)
        · rintro (h | rfl | h)
          · exact Or.inl h
          · exact Or.inl hx
          · exact Or.inr h
      · obtain ⟨conns, h1, h2, h3⟩ := ih (acc ++ [x]) (fun a ha => h a (by simp [ha])) (by
          rw [List.nodup_append]
          exact ⟨hn, by simp, fun a ha b hb => by
            rw [List.mem_singleton] at hb
            rintro rfl
            exact hx (hb ▸ ha)⟩)
        rw [if_neg hx]
        refine ⟨conns, h1, h2, fun a => ?_⟩
        rw [h3, List.mem_append, List.mem_singleton, List.mem_cons, or_assoc]
  obtain ⟨conns, h1, h2, h3⟩ := key l [] h List.nodup_nil
  exact ⟨conns, h1, h2, fun a => by rw [h3]; simp⟩

theorem connectActor_spec {dial : String → Res Unit} {l : List String} (h : ∀ a ∈ l, dial a = ok ()) :
    connectActor dial l = ok l := by
  unfold connectActor
  induction l with
  | nil => rfl
  | cons x l ih =>
    rw [List.mapM_cons, h x (by simp), ok_bind, ok_bind, ih (fun a ha => h a (by simp [ha]))]
    rfl

/-- Lists of queries that differ in one place look the same to a coalition without the server at that place. -/
theorem view_eraseIdx {coalition : String → Bool} : ∀ (servers : List String) (qs qs' : List (List Byte)) (m : Nat)
    (hm : m < servers.length), coalition servers[m] = false → qs.length = servers.length →
    qs'.length = servers.length → qs.eraseIdx m = qs'.eraseIdx m →
    (servers.zip qs).filter (fun c => coalition c.1) = (servers.zip qs').filter (fun c => coalition c.1)
  | [], _, _, _, hm, _, _, _, _ => by simp at hm
  | s :: servers, [], _, _, _, _, h, _, _ => by simp at h
  | s :: servers, _ :: _, [], _, _, _, _, h, _ => by simp at h
  | s :: servers, q :: qs, q' :: qs', 0, _, hc, _, _, he => by
    simp only [List.eraseIdx_cons_zero] at he
    simp only [List.getElem_cons_zero] at hc
    rw [List.zip_cons_cons, List.zip_cons_cons, List.filter_cons_of_neg (by simp [hc]),
      List.filter_cons_of_neg (by simp [hc]), he]
  | s :: servers, q :: qs, q' :: qs', m + 1, hm, hc, h1, h2, he => by
    simp only [List.eraseIdx_cons_succ, List.cons.injEq] at he
    obtain ⟨rfl, he⟩ := he
    have := view_eraseIdx servers qs qs' m (by simpa using hm) (by simpa using hc) (by simpa using h1)
      (by simpa using h2) he
    rw [List.zip_cons_cons, List.zip_cons_cons, List.filter_cons, List.filter_cons, this]

theorem hashToIndex_total {hash : Str → List Byte} (hh : HashLong hash) {N : Nat} (hN : N % 2 ^ 32 ≠ 0) (id : Str) :
    ∃ i, hashToIndex hash id N = ok i := by
  have hl := hh id
  unfold hashToIndex
  rw [slice_of_le (by omega) (by omega), ok_bind]
  unfold getBE32
  rw [if_pos (by simp; omega), ok_bind, if_neg hN]
  exact ⟨_, rfl⟩

/-- The queries of a lookup, for a fixed outcome of the random source. -/
theorem lookupQueries_fixed (L : Lib) (hh : HashLong L.hash) {info : Database.Info}
    (hN : info.numRows * info.numColumns % 2 ^ 32 ≠ 0) {n : Nat} (hn : 0 < n) (hn2 : n ≠ 2) (id : Str) :
    ∃ i, ∀ r : List Byte, r.length = (n - 1) * (info.numColumns / 8 + 1) → ∃ st,
      lookupQueries (withRandom L r) n info id =
        ok (shares info.numColumns (i % info.numColumns) (n - 1) r, st) := by
  have hC : 0 < info.numColumns := by
    rcases Nat.eq_zero_or_pos info.numColumns with h | h
    · rw [h, Nat.mul_zero] at hN; simp at hN
    · exact h
  obtain ⟨i, hi⟩ := hashToIndex_total hh hN id
  refine ⟨(BitVec.ofNat 32 i).toNat, fun r hr => ?_⟩
  unfold lookupQueries
  have hi' : hashToIndex (withRandom L r).hash id (info.numRows * info.numColumns) = ok i := hi
  rw [hi', ok_bind]
  dsimp only
  unfold queryBytes
  have : getBE32 (putBE32 (BitVec.ofNat 32 i)) = ok (BitVec.ofNat 32 i) := by
    have := getBE32_put (BitVec.ofNat 32 i) []
    rwa [List.append_nil] at this
  rw [this, ok_bind]
  exact ⟨_, query_fixed L.dpf hC hn hn2 hr⟩

/-- Traffic over a list of connections is alike for two identifiers, to a coalition that misses one of them. -/
theorem alike_over (L : Lib) (hh : HashLong L.hash) {info : Database.Info}
    (hN : info.numRows * info.numColumns % 2 ^ 32 ≠ 0) {servers : List String} (hn2 : servers.length ≠ 2)
    {coalition : String → Bool} {b : String} (hb : b ∈ servers) (hcb : coalition b = false) (id id' : Str) :
    Alike (fun r id => do
      let (qs, _) ← lookupQueries (withRandom L r) servers.length info id
      sends servers qs) ((servers.length - 1) * (info.numColumns / 8 + 1)) coalition id id' := by
  intro v
  have hn : 0 < servers.length := List.length_pos_of_mem hb
  obtain ⟨m, hm, rfl⟩ := List.getElem_of_mem hb
  obtain ⟨i, hi⟩ := lookupQueries_fixed L hh hN hn hn2 id
  obtain ⟨i', hi'⟩ := lookupQueries_fixed L hh hN hn hn2 id'
  generalize hk : info.numColumns / 8 + 1 = k at *
  have hseen : ∀ {x : Str} {j : Nat} {r : List Byte}, r.length = (servers.length - 1) * k →
      (∃ st, lookupQueries (withRandom L r) servers.length info x =
        ok (shares info.numColumns (j % info.numColumns) (servers.length - 1) r, st)) →
      (Seen (do
        let (qs, _) ← lookupQueries (withRandom L r) servers.length info x
        sends servers qs) coalition v ↔
      (servers.zip (shares info.numColumns (j % info.numColumns) (servers.length - 1) r)).filter
        (fun c => coalition c.1) = v) := by
    intro x j r hr hst
    obtain ⟨st, hst⟩ := hst
    rw [hst, ok_bind]
    dsimp only
    unfold Seen
    rw [sends_eq _ _ (by rw [shares_length]; omega)]
    simp
  have hstep : ∀ {x x' : Str} {j j' : Nat}, (∀ r : List Byte, r.length = (servers.length - 1) * k → ∃ st,
      lookupQueries (withRandom L r) servers.length info x =
        ok (shares info.numColumns (j % info.numColumns) (servers.length - 1) r, st)) →
      (∀ r : List Byte, r.length = (servers.length - 1) * k → ∃ st,
      lookupQueries (withRandom L r) servers.length info x' =
        ok (shares info.numColumns (j' % info.numColumns) (servers.length - 1) r, st)) → ∀ r : List Byte,
      r.length = (servers.length - 1) * k ∧ Seen (do
        let (qs, _) ← lookupQueries (withRandom L r) servers.length info x
        sends servers qs) coalition v →
      (shift k m (unitDiff k (j % info.numColumns) (j' % info.numColumns)) r).length = (servers.length - 1) * k ∧
        Seen (do
        let (qs, _) ← lookupQueries (withRandom L
          (shift k m (unitDiff k (j % info.numColumns) (j' % info.numColumns)) r)) servers.length info x'
        sends servers qs) coalition v := by
    intro x x' j j' hx hx' r ⟨hr, hv⟩
    have hr' : (shift k m (unitDiff k (j % info.numColumns) (j' % info.numColumns)) r).length =
        (servers.length - 1) * k := by simpa using hr
    refine ⟨hr', ?_⟩
    rw [hseen hr (hx r hr)] at hv
    rw [hseen hr' (hx' _ hr'), ← hv]
    have hsh := shares_shift (C := info.numColumns) (y := j % info.numColumns) (y' := j' % info.numColumns)
      (N := servers.length - 1) (m := m) (r := r) (by rw [hk]; exact hr) (by omega)
    rw [hk] at hsh
    exact (view_eraseIdx servers _ _ m hm hcb (by rw [shares_length]; omega) (by rw [shares_length]; omega) hsh).symm
  apply Nat.card_congr
  refine ⟨fun r => ⟨_, hstep hi hi' r.1 r.2⟩, fun r => ⟨_, hstep hi' hi r.1 r.2⟩, ?_, ?_⟩
  · rintro ⟨r, hr⟩
    apply Subtype.ext
    simp only
    rw [unitDiff_comm _ (i' % info.numColumns), shift_shift]
  · rintro ⟨r, hr⟩
    apply Subtype.ext
    simp only
    rw [unitDiff_comm _ (i % info.numColumns), shift_shift]

theorem run_congr {net net' : Net} {S : Schedule} {servers : List String} {qs : List (List Byte)}
    (h : ∀ ms, sends servers qs = ok ms → ∀ m ∈ ms, net.answer m.1 m.2 = net'.answer m.1 m.2) :
    runQueriesActor net S servers qs = runQueriesActor net' S servers qs := by
  unfold runQueriesActor
  cases hs : sends servers qs with
  | err m => rfl
  | crash m => rfl
  | ok ms =>
    rw [ok_bind, ok_bind]
    have : ms.mapM (fun m => orFatal (net.answer m.1 m.2)) = ms.mapM (fun m => orFatal (net'.answer m.1 m.2)) := by
      have h := h ms hs
      clear hs
      induction ms with
      | nil => rfl
      | cons m ms ih => rw [List.mapM_cons, List.mapM_cons, h m (by simp), ih (fun x hx => h x (by simp [hx]))]
    rw [this]

theorem lookup_congr {L : Lib} {net net' : Net} {S : Schedule} {n : Nat} {servers : List String} {info : Database.Info}
    {id : Str} (h : ∀ ms, (do
      let (qs, _) ← lookupQueries L n info id
      sends servers qs) = ok ms → ∀ m ∈ ms, net.answer m.1 m.2 = net'.answer m.1 m.2) :
    lookup L n (runQueriesActor net S servers) info id = lookup L n (runQueriesActor net' S servers) info id := by
  unfold lookup
  cases hq : lookupQueries L n info id with
  | err m => rfl
  | crash m => rfl
  | ok q =>
    obtain ⟨qs, st⟩ := q
    rw [hq] at h
    rw [ok_bind, ok_bind]
    dsimp only
    rw [run_congr (net' := net') (fun ms hms => h ms hms)]

/-- C61: the messages considered are all that the outcome of a lookup depends on: servers that differ only in their
answers to other messages make no difference to any of the programs. -/
theorem C61_no_other_message (L : Lib) (W : Predicate.World) (gob : Predicate.Msg → List Byte) (mk : Int → Time)
    (net net' : Net) (hd : net.dial = net'.dial) (hi : net.info = net'.info) (S : Schedule) (addresses : List String)
    (f : Flags) (typed id : String) (hf : f.scheme = "pointPIR" ∨ f.scheme = "pointVPIR")
    (hid : id = if f.id = "" then typed else f.id)
    (hcl : ∀ info ms, commandLineTraffic L net S addresses info (bytes id) = ok ms →
      ∀ m ∈ ms, net.answer m.1 m.2 = net'.answer m.1 m.2) (servers : List String)
    (hconn : connectActor net.dial addresses = ok servers)
    (hact : ∀ info ms, actorTraffic L net addresses info (bytes id) = ok ms →
      ∀ m ∈ ms, net.answer m.1 m.2 = net'.answer m.1 m.2) :
    main L W gob mk net S addresses f typed = main L W gob mk net' S addresses f typed ∧
      actorLookup L net S servers (bytes id) = actorLookup L net' S servers (bytes id) := by
  have hg : ∀ l, gatherInfos net S l = gatherInfos net' S l := by
    intro l
    unfold gatherInfos
    rw [hi]
  constructor
  · unfold main
    rw [← hd]
    cases hc : connect net.dial addresses with
    | err m => rfl
    | crash m => rfl
    | ok conns =>
      rw [orFatal_ok, ok_bind, ok_bind]
      unfold exec
      rw [← hg]
      congr 1
      congr 1
      funext infos
      congr 1
      funext info
      dsimp only
      rw [if_pos hf, if_pos hf, ← hid]
      by_cases h0 : id = ""
      · rw [if_pos h0, if_pos h0]
      · rw [if_neg h0, if_neg h0]
        have : lookup L conns.length (runQueries net S conns) (pointInfo info) (bytes id) =
            lookup L conns.length (runQueries net' S conns) (pointInfo info) (bytes id) := by
          apply lookup_congr
          intro ms hms
          refine hcl (pointInfo info) ms ?_
          unfold commandLineTraffic
          rw [hc, ok_bind]
          exact hms
        rw [this]
  · unfold actorLookup
    rw [← hg]
    congr 1
    funext infos
    congr 1
    funext infos'
    congr 1
    funext info
    apply lookup_congr
    intro ms hms
    refine hact (pointInfo info) ms ?_
    unfold actorTraffic
    rw [hconn, ok_bind]
    exact hms

/-- C61 as claimed: with at least two servers configured, no single address can tell which e-mail is looked up,
whatever the servers say about the database. (Two connections use the distributed point function, which is not part of
the model.) -/
def C61_Statement : Prop :=
  ∀ (L : Lib), HashLong L.hash → ∀ (net : Net) (S : Schedule), Fair S → ∀ (addresses : List String),
    2 ≤ addresses.length → (∀ a ∈ addresses, net.dial a = ok ()) → ∀ conns, connect net.dial addresses = ok conns →
    conns.length ≠ 2 → ∀ (info : Database.Info), info.numRows * info.numColumns % 2 ^ 32 ≠ 0 →
    ∀ (a : String) (id id' : Str),
    Alike (fun r id => commandLineTraffic (withRandom L r) net S addresses info id)
      ((conns.length - 1) * (info.numColumns / 8 + 1)) (fun x => x = a) id id'

/-- C61 for the command line: a coalition that misses at least one configured address learns nothing about the e-mail,
whatever the servers say about the database and whatever the order in which the connections are enumerated. Missing from
the full claim: that there is another address, for which see `C61_refuted`; and exactly two different addresses, for
which the distributed point function is used (`C61_command_line_two`). -/
theorem C61_command_line_partial (L : Lib) (hh : HashLong L.hash) (net : Net) (S : Schedule) (hS : Fair S)
    (addresses : List String) (hdial : ∀ a ∈ addresses, net.dial a = ok ()) :
    ∃ conns, connect net.dial addresses = ok conns ∧ (∀ a, a ∈ conns ↔ a ∈ addresses) ∧ conns.Nodup ∧
      ∀ (info : Database.Info), info.numRows * info.numColumns % 2 ^ 32 ≠ 0 → conns.length ≠ 2 →
      ∀ (coalition : String → Bool) (b : String), b ∈ addresses → coalition b = false → ∀ id id' : Str,
        Alike (fun r id => commandLineTraffic (withRandom L r) net S addresses info id)
          ((conns.length - 1) * (info.numColumns / 8 + 1)) coalition id id' := by
  obtain ⟨conns, h1, h2, h3⟩ := connect_spec hdial
  refine ⟨conns, h1, h3, h2, fun info hN hn2 coalition b hb hcb id id' v => ?_⟩
  have hl := (hS.conns conns).length_eq
  have := alike_over L hh hN (servers := S.conns conns) (by rw [hl]; exact hn2)
    ((hS.conns conns).mem_iff.mpr ((h3 b).mpr hb)) hcb id id' v
  rw [hl] at this
  have ht : ∀ r x, commandLineTraffic (withRandom L r) net S addresses info x = (do
      let (qs, _) ← lookupQueries (withRandom L r) conns.length info x
      sends (S.conns conns) qs) := by
    intro r x
    unfold commandLineTraffic
    rw [h1, ok_bind]
  simp only [ht]
  exact this

/-- C61 for the interactive and the web client. Missing from the full claim: as above. -/
theorem C61_actor_partial (L : Lib) (hh : HashLong L.hash) (net : Net) (addresses : List String)
    (hdial : ∀ a ∈ addresses, net.dial a = ok ()) (hn2 : addresses.length ≠ 2) (info : Database.Info)
    (hN : info.numRows * info.numColumns % 2 ^ 32 ≠ 0) (coalition : String → Bool) (b : String) (hb : b ∈ addresses)
    (hcb : coalition b = false) (id id' : Str) :
    Alike (fun r id => actorTraffic (withRandom L r) net addresses info id)
      ((addresses.length - 1) * (info.numColumns / 8 + 1)) coalition id id' := by
  intro v
  have := alike_over L hh hN hn2 hb hcb id id' v
  have ht : ∀ r x, actorTraffic (withRandom L r) net addresses info x = (do
      let (qs, _) ← lookupQueries (withRandom L r) addresses.length info x
      sends addresses qs) := by
    intro r x
    unfold actorTraffic
    rw [connectActor_spec hdial, ok_bind]
  simp only [ht]
  exact this

/-- C61: if all configured addresses are the same, the command-line client sends that server the column of the e-mail in
the clear. -/
theorem C61_repeated_address (L : Lib) (hh : HashLong L.hash) (net : Net) (S : Schedule) (hS : Fair S)
    (hread : Delivers L.read) (addresses : List String) (a : String) (h0 : addresses ≠ [])
    (hall : ∀ x ∈ addresses, x = a) (hdial : net.dial a = ok ())
    (info : Database.Info) (hpos : 0 < info.numRows * info.numColumns) (hN : info.numRows * info.numColumns < 2 ^ 32)
    (id : Str) :
    ∃ v, commandLineTraffic L net S addresses info id = ok [(a, v)] ∧
      ∀ j, bitOf v j = decide (j = position L.hash (info.numRows * info.numColumns) id % info.numColumns) := by
  obtain ⟨conns, h1, h2, h3⟩ := connect_spec (dial := net.dial) (l := addresses)
    (fun x hx => by rw [hall x hx]; exact hdial)
  obtain rfl : conns = [a] := by
    obtain ⟨x, l, rfl⟩ := List.exists_cons_of_ne_nil h0
    have ha : a ∈ conns := (h3 a).mpr (by rw [hall x (by simp)]; simp)
    have : ∀ y ∈ conns, y = a := fun y hy => hall y ((h3 y).mp hy)
    have hr := List.eq_replicate_of_mem this
    rw [hr] at h2 ha ⊢
    have := List.nodup_replicate.mp h2
    have hl : 0 < conns.length := by
      rcases Nat.eq_zero_or_pos conns.length with h | h
      · rw [h] at ha; simp at ha
      · exact h
    rw [show conns.length = 1 by omega]
    rfl
  have hC : 0 < info.numColumns := by
    rcases Nat.eq_zero_or_pos info.numColumns with h | h
    · rw [h, Nat.mul_zero] at hpos; omega
    · exact h
  have hi := hashToIndex_spec hh hpos hN id
  have hlt := position_lt L.hash hpos id
  obtain ⟨v, st, hq, hv⟩ := C04_single_server_sends_the_index L.dpf L.read hread info
    (position L.hash (info.numRows * info.numColumns) id) hC
  refine ⟨v, ?_, hv⟩
  have hc : S.conns [a] = [a] := List.perm_singleton.mp (hS.conns [a])
  unfold commandLineTraffic lookupQueries
  rw [h1, ok_bind, hi, ok_bind]
  dsimp only
  unfold queryBytes
  have : getBE32 (putBE32 (BitVec.ofNat 32 (position L.hash (info.numRows * info.numColumns) id))) =
      ok (BitVec.ofNat 32 (position L.hash (info.numRows * info.numColumns) id)) := by
    have := getBE32_put (BitVec.ofNat 32 (position L.hash (info.numRows * info.numColumns) id)) []
    rwa [List.append_nil] at this
  rw [this, ok_bind, BitVec.toNat_ofNat, Nat.mod_eq_of_lt (by omega)]
  have hq' : query L.dpf L.read info (position L.hash (info.numRows * info.numColumns) id)
      (([a] : List String).length : Int) = ok ([v], st) := hq
  rw [hq', ok_bind]
  dsimp only
  rw [hc, sends_eq _ _ (by simp)]
  rfl

/-- A database of one row and two columns. -/
def twoColumns : Database.Info := ⟨1, 2, 1, [], "", [], 0⟩

/-- C61 as claimed is false: two entries with the same address. -/
theorem C61_refuted : ¬ C61_Statement := by
  intro h
  have hc : connect (honestNet plainDpf exDB).dial ["a", "a"] = ok ["a"] := rfl
  have t2 : commandLineTraffic (withRandom (exLib plainDpf) []) (honestNet plainDpf exDB) backwards ["a", "a"]
      twoColumns [9, 9] = ok [("a", [1])] := rfl
  have hA := h (exLib plainDpf) lengthHash_long (honestNet plainDpf exDB) backwards backwards_fair ["a", "a"] (by decide)
    (fun _ _ => rfl) ["a"] hc (by decide) twoColumns (by decide) "a" [9] [9, 9] [("a", [2])]
  have hne : Nonempty {r : List Byte // r.length = (([("a")] : List String).length - 1) * (twoColumns.numColumns / 8 + 1) ∧
      Seen (commandLineTraffic (withRandom (exLib plainDpf) r) (honestNet plainDpf exDB) backwards ["a", "a"]
        twoColumns [9]) (fun x => x = "a") [("a", [2])]} :=
    ⟨⟨[], rfl, [("a", [2])], rfl, by decide⟩⟩
  have hfin : Finite {r : List Byte // r.length = (([("a")] : List String).length - 1) * (twoColumns.numColumns / 8 + 1) ∧
      Seen (commandLineTraffic (withRandom (exLib plainDpf) r) (honestNet plainDpf exDB) backwards ["a", "a"]
        twoColumns [9]) (fun x => x = "a") [("a", [2])]} := by
    have : Subsingleton {r : List Byte // r.length = (([("a")] : List String).length - 1) *
        (twoColumns.numColumns / 8 + 1) ∧
      Seen (commandLineTraffic (withRandom (exLib plainDpf) r) (honestNet plainDpf exDB) backwards ["a", "a"]
        twoColumns [9]) (fun x => x = "a") [("a", [2])]} := ⟨fun x y => Subtype.ext (by
      have h1 := x.2.1
      have h2 := y.2.1
      simp only [List.length_cons, List.length_nil, Nat.zero_add, Nat.sub_self, Nat.zero_mul,
        List.length_eq_zero_iff] at h1 h2
      rw [h1, h2])⟩
    infer_instance
  have hpos := Nat.card_pos (α := {r : List Byte // r.length = (([("a")] : List String).length - 1) *
        (twoColumns.numColumns / 8 + 1) ∧
      Seen (commandLineTraffic (withRandom (exLib plainDpf) r) (honestNet plainDpf exDB) backwards ["a", "a"]
        twoColumns [9]) (fun x => x = "a") [("a", [2])]})
  dsimp only at hA
  rw [hA] at hpos
  obtain ⟨⟨r, hr, ms, hms, hv⟩⟩ := (Nat.card_pos_iff.mp hpos).1
  simp only [List.length_cons, List.length_nil, Nat.zero_add, Nat.sub_self, Nat.zero_mul,
    List.length_eq_zero_iff] at hr
  subst hr
  rw [t2] at hms
  simp only [ok.injEq] at hms
  subst hms
  revert hv
  decide

/-- The views counted in the positive theorems do occur: three servers, and a coalition of two of them. -/
example : Seen (commandLineTraffic (withRandom (exLib plainDpf) [7, 8]) (honestNet plainDpf exDB) backwards
    ["a", "b", "c"] twoColumns [9]) (fun x => x ≠ "b") [("c", [7]), ("a", [13])] :=
  ⟨_, rfl, by decide⟩

end Verif.Client
