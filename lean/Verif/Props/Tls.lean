import Verif.Lemmas.Tls
import Verif.Props.ClientPrivacy

/-! # C80: who receives the queries -/

namespace Verif.Tls
open Res Verif.Tls.Spec Verif.Client Verif.Client.Spec Verif.Point Verif.Point.Spec Verif.Pgp Verif.Pgp.Spec

/-- C80 as claimed: when a client has connected to its servers, the `i`-th address is answered by somebody who knows the
secret key of server `i`, whoever else intercepts connections. -/
def C80_Statement : Prop :=
  ∀ (world : String → Option Peer) (now : Int) (addresses : List String), addresses.Nodup → addresses.length ≤ 5 →
    connectActor (dial world now) addresses = ok addresses → Genuine world addresses

theorem dials_of_connectActor {d : String → Res Unit} {l : List String} {r : List String}
    (h : connectActor d l = ok r) : ∀ a ∈ l, d a = ok () := by
  unfold connectActor at h
  induction l generalizing r with
  | nil => simp
  | cons x l ih =>
    rw [List.mapM_cons, bind_eq_ok] at h
    obtain ⟨y, h1, h2⟩ := h
    rw [bind_eq_ok] at h1 h2
    obtain ⟨u, hu, -⟩ := h1
    obtain ⟨ys, hys, -⟩ := h2
    intro a ha
    rcases List.mem_cons.mp ha with rfl | ha
    · exact hu
    · exact ih hys a ha

/-- C80: exactly what a client accepts, at every address: a peer that shows one of the five certificates, while it is valid,
and knows its secret key. Missing from the full claim: that it is the key of the server of that address, for which see
`C80_refuted`. -/
theorem C80_accepted_partial (world : String → Option Peer) (now : Int) (addresses : List String) :
    connectActor (dial world now) addresses = ok addresses ↔
      ∀ a ∈ addresses, ∃ p, world a = some p ∧
        ∃ i, ∃ h : i < 5, p.leaf = serverPublicKeys[i]'h ∧ Valid i now ∧ i ∈ p.knows := by
  constructor
  · intro h a ha
    exact (dial_iff world now a).mp (dials_of_connectActor h a ha)
  · intro h
    exact connectActor_spec (fun a ha => (dial_iff world now a).mpr (h a ha))

/-- C80: somebody who knows none of the five secret keys is never accepted, whatever certificates it shows: its own, one of
the five, or one that it got signed by anybody. -/
theorem C80_outsider (world : String → Option Peer) (now : Int) (a : String) (p : Peer) (hp : world a = some p)
    (h : ∀ i, i < 5 → i ∉ p.knows) : dial world now a ≠ ok () := by
  intro hd
  obtain ⟨p', hp', i, hi, -, -, hk⟩ := (dial_iff world now a).mp hd
  rw [hp] at hp'
  cases hp'
  exact h i hi hk

/-- C80: the servers as deployed are accepted, while their certificates are valid: the server with number `i`, for any of
the five numbers, at any address. -/
theorem C80_honest (world : String → Option Peer) (now : Int) (addresses : List String) (id : String → Nat)
    (hid : ∀ a ∈ addresses, id a < 5 ∧ Valid (id a) now)
    (hw : ∀ a ∈ addresses, ∃ p, serverPeer (id a) = ok p ∧ world a = some p) :
    connectActor (dial world now) addresses = ok addresses ∧
    ∃ conns, connect (dial world now) addresses = ok conns ∧ conns.Nodup ∧ ∀ a, a ∈ conns ↔ a ∈ addresses := by
  have hd : ∀ a ∈ addresses, dial world now a = ok () := by
    intro a ha
    obtain ⟨p, hp, hwa⟩ := hw a ha
    obtain ⟨h5, hv⟩ := hid a ha
    rw [serverPeer_eq h5] at hp
    cases hp
    exact (dial_iff world now a).mpr ⟨_, hwa, id a, h5, rfl, hv, by simp⟩
  exact ⟨connectActor_spec hd, connect_spec hd⟩

/-- C80: there are no certificates for further servers. -/
theorem C80_five_servers (id : Int) : (∃ p, serverPeer id = ok p) ↔ 0 ≤ id ∧ id < 5 := by
  constructor
  · rintro ⟨p, hp⟩
    unfold serverPeer at hp
    rw [serverCertificates_eq, ok_bind, bind_eq_ok] at hp
    obtain ⟨c, hc, -⟩ := hp
    unfold Deploy.idxInt at hc
    split at hc
    · cases hc
    · rw [idx_eq_ok] at hc
      have := (List.getElem?_eq_some_iff.mp hc).1
      have hl : (serverPublicKeys.zip serverSecretKeys).length = 5 := rfl
      omega
  · rintro ⟨h0, h5⟩
    obtain ⟨k, rfl⟩ := Int.eq_ofNat_of_zero_le h0
    exact ⟨_, serverPeer_eq (by omega)⟩

/-- C80: the five servers have five different secret keys. -/
theorem C80_keys_distinct (i j : Nat) (p q : Peer) (hi : serverPeer i = ok p) (hj : serverPeer j = ok q)
    (h : ∃ k, k ∈ p.knows ∧ k ∈ q.knows) : i = j := by
  have hi5 : i < 5 := by have := ((C80_five_servers i).mp ⟨p, hi⟩).2; omega
  have hj5 : j < 5 := by have := ((C80_five_servers j).mp ⟨q, hj⟩).2; omega
  rw [serverPeer_eq hi5] at hi
  rw [serverPeer_eq hj5] at hj
  cases hi
  cases hj
  obtain ⟨k, h1, h2⟩ := h
  simp only [List.mem_singleton] at h1 h2
  omega

/-- C80: outside the time from 12 October 2024 to 12 January 2027 a client connects to nobody, whoever answers. -/
theorem C80_expired (world : String → Option Peer) (now : Int) (h : now < 1728729074 ∨ 1799753505 < now) (a : String) :
    dial world now a ≠ ok () := by
  intro hd
  obtain ⟨p, -, i, hi, -, ⟨h1, h2⟩, -⟩ := (dial_iff world now a).mp hd
  match i, hi with
  | 0, _ => simp at h1 h2; omega
  | 1, _ => simp at h1 h2; omega
  | 2, _ => simp at h1 h2; omega
  | 3, _ => simp at h1 h2; omega
  | 4, _ => simp at h1 h2; omega

/-- The queries of a lookup with other than two servers, put together, are the column asked for. -/
theorem lookup_parity (L : Lib) (hh : HashLong L.hash) (hread : Delivers L.read) (info : Database.Info)
    (hpos : 0 < info.numRows * info.numColumns) (hN : info.numRows * info.numColumns < 2 ^ 32) (id : Str)
    (servers : List String) (h0 : servers ≠ []) (h2 : servers.length ≠ 2) :
    ∃ qs st, lookupQueries L servers.length info id = ok (qs, st) ∧ ∃ ms, sends servers qs = ok ms ∧
      ms.map (·.1) = servers ∧
      ∀ j, parity ms j = decide (j = position L.hash (info.numRows * info.numColumns) id % info.numColumns) := by
  have hC : 0 < info.numColumns := by
    rcases Nat.eq_zero_or_pos info.numColumns with h | h
    · rw [h, Nat.mul_zero] at hpos; omega
    · exact h
  have hi := hashToIndex_spec hh hpos hN id
  have hlt := position_lt L.hash hpos id
  have hn : 0 < servers.length := List.length_pos_iff.mpr h0
  obtain ⟨rand, -, hrl, hq⟩ := query_shares L.dpf hread (info := info)
    (i := position L.hash (info.numRows * info.numColumns) id) hC hn h2
  generalize hsh : shares info.numColumns (position L.hash (info.numRows * info.numColumns) id % info.numColumns)
    (servers.length - 1) rand = qs at hq
  have hl : qs.length = servers.length := by rw [← hsh, shares_length]; omega
  refine ⟨qs, ⟨((position L.hash (info.numRows * info.numColumns) id / info.numColumns : Nat) : Int),
    ((position L.hash (info.numRows * info.numColumns) id % info.numColumns : Nat) : Int)⟩, ?_, servers.zip qs, sends_eq _ _ (by omega), List.map_fst_zip (by omega), ?_⟩
  · unfold lookupQueries
    rw [hi, ok_bind]
    dsimp only
    unfold queryBytes
    have : getBE32 (putBE32 (BitVec.ofNat 32 (position L.hash (info.numRows * info.numColumns) id))) =
        ok (BitVec.ofNat 32 (position L.hash (info.numRows * info.numColumns) id)) := by
      have := getBE32_put (BitVec.ofNat 32 (position L.hash (info.numRows * info.numColumns) id)) []
      rwa [List.append_nil] at this
    rw [this, ok_bind, BitVec.toNat_ofNat, Nat.mod_eq_of_lt (by omega)]
    exact hq
  · intro j
    apply sel_inj
    rw [parity_xsum j servers qs hl.symm, ← shares_sum hrl (Nat.mod_lt _ hC) 1 j, hsh, hl,
      show servers.length - 1 + 1 = servers.length by omega]

/-- C80: one secret key is enough to be taken for every server and to learn what is looked up. Whoever answers at all
addresses with certificate number `k` (any of the five, the one of a server that is configured or not) gets all the messages
of a lookup, and their sum is the column of the e-mail in the clear; by `C61_actor_partial` any of these messages missing,
the others say nothing. -/
theorem C80_one_key (k : Nat) (hk : k < 5) (now : Int) (hv : Valid k now) (p : Peer) (hp : serverPeer k = ok p)
    (L : Lib) (hh : HashLong L.hash) (hread : Delivers L.read) (beyond : Net) (addresses : List String)
    (h0 : addresses ≠ []) (info : Database.Info)
    (hpos : 0 < info.numRows * info.numColumns) (hN : info.numRows * info.numColumns < 2 ^ 32) (id : Str) :
    (addresses.length ≠ 2 → ∃ ms, actorTraffic L (secured (fun _ => some p) now beyond) addresses info id = ok ms ∧
      ms.map (·.1) = addresses ∧
      ∀ j, parity ms j = decide (j = position L.hash (info.numRows * info.numColumns) id % info.numColumns)) ∧
    (∀ S : Schedule, Fair S → ∀ conns, connect (dial (fun _ => some p) now) addresses = ok conns → conns.length ≠ 2 →
      ∃ ms, commandLineTraffic L (secured (fun _ => some p) now beyond) S addresses info id = ok ms ∧
      (ms.map (·.1)).Perm conns ∧
      ∀ j, parity ms j = decide (j = position L.hash (info.numRows * info.numColumns) id % info.numColumns)) := by
  have hd : ∀ a ∈ addresses, dial (fun _ => some p) now a = ok () := by
    intro a _
    rw [serverPeer_eq hk] at hp
    cases hp
    exact (dial_iff _ now a).mpr ⟨_, rfl, k, hk, rfl, hv, by simp⟩
  constructor
  · intro h2
    obtain ⟨qs, st, h1, ms, h3, h4, h5⟩ := lookup_parity L hh hread info hpos hN id addresses h0 h2
    refine ⟨ms, ?_, h4, h5⟩
    unfold actorTraffic
    rw [show (secured (fun _ => some p) now beyond).dial = dial (fun _ => some p) now from rfl, connectActor_spec hd, ok_bind,
      h1, ok_bind]
    exact h3
  · intro S hS conns hc h2
    obtain ⟨conns', hc', -, hm⟩ := connect_spec hd
    rw [hc] at hc'
    cases hc'
    have hl := (hS.conns conns).length_eq
    have hne : S.conns conns ≠ [] := by
      intro he
      rw [he] at hl
      obtain ⟨x, l, rfl⟩ := List.exists_cons_of_ne_nil h0
      have := (hm x).mpr (by simp)
      rw [List.eq_nil_of_length_eq_zero hl.symm] at this
      simp at this
    obtain ⟨qs, st, h1, ms, h3, h4, h5⟩ := lookup_parity L hh hread info hpos hN id (S.conns conns) hne (by rw [hl]; exact h2)
    refine ⟨ms, ?_, by rw [h4]; exact hS.conns conns, h5⟩
    unfold commandLineTraffic
    rw [show (secured (fun _ => some p) now beyond).dial = dial (fun _ => some p) now from rfl, hc, ok_bind, ← hl, h1, ok_bind]
    exact h3

/-- C80: likewise with two servers: the two keys, expanded, differ in the column of the e-mail and nowhere else. -/
theorem C80_one_key_two (k : Nat) (hk : k < 5) (now : Int) (hv : Valid k now) (p : Peer) (hp : serverPeer k = ok p)
    (L : Lib) (hh : HashLong L.hash) (hdpf : Correct L.dpf) (beyond : Net) (a b : String) (info : Database.Info)
    (hpos : 0 < info.numRows * info.numColumns) (hN : info.numRows * info.numColumns < 2 ^ 32)
    (id : Str) :
    ∃ k0 k1 x0 x1, actorTraffic L (secured (fun _ => some p) now beyond) [a, b] info id = ok [(a, k0), (b, k1)] ∧
      L.dpf.evalFull k0 (bitsLen info.numColumns) = ok x0 ∧ L.dpf.evalFull k1 (bitsLen info.numColumns) = ok x1 ∧
      ∀ j, j < info.numColumns → (bitOf x0 j ^^ bitOf x1 j) =
        decide (j = position L.hash (info.numRows * info.numColumns) id % info.numColumns) := by
  have hd : ∀ c ∈ [a, b], dial (fun _ => some p) now c = ok () := by
    intro c _
    rw [serverPeer_eq hk] at hp
    cases hp
    exact (dial_iff _ now c).mpr ⟨_, rfl, k, hk, rfl, hv, by simp⟩
  have hC : 0 < info.numColumns := by
    rcases Nat.eq_zero_or_pos info.numColumns with h | h
    · rw [h, Nat.mul_zero] at hpos; omega
    · exact h
  have hR : 0 < info.numRows := by
    rcases Nat.eq_zero_or_pos info.numRows with h | h
    · rw [h, Nat.zero_mul] at hpos; omega
    · exact h
  have hCN : info.numColumns < 2 ^ 32 := Nat.lt_of_le_of_lt (Nat.le_mul_of_pos_left _ hR) hN
  have hi := hashToIndex_spec hh hpos hN id
  have hlt := position_lt L.hash hpos id
  generalize hy : position L.hash (info.numRows * info.numColumns) id % info.numColumns = y
  have hyC : y < info.numColumns := by rw [← hy]; exact Nat.mod_lt _ hC
  obtain ⟨k0, k1, x0, x1, hg, h0, h1, -, -, hx⟩ := hdpf y (bitsLen info.numColumns) (bitsLen_le (by omega))
    (Nat.lt_trans hyC (lt_bitsLen _))
  refine ⟨k0, k1, x0, x1, ?_, h0, h1, fun j hj => hx j (Nat.lt_trans hj (lt_bitsLen _))⟩
  unfold actorTraffic
  rw [show (secured (fun _ => some p) now beyond).dial = dial (fun _ => some p) now from rfl, connectActor_spec hd, ok_bind]
  unfold lookupQueries
  rw [hi, ok_bind]
  dsimp only
  unfold queryBytes
  have : getBE32 (putBE32 (BitVec.ofNat 32 (position L.hash (info.numRows * info.numColumns) id))) =
      ok (BitVec.ofNat 32 (position L.hash (info.numRows * info.numColumns) id)) := by
    have := getBE32_put (BitVec.ofNat 32 (position L.hash (info.numRows * info.numColumns) id)) []
    rwa [List.append_nil] at this
  rw [this, ok_bind, BitVec.toNat_ofNat, Nat.mod_eq_of_lt (by omega)]
  unfold query
  have hinv : ∀ m : Int, invalidQueryInputsIT (position L.hash (info.numRows * info.numColumns) id : Nat) m = false := by
    intro m
    simp [invalidQueryInputsIT]
  rw [hinv]
  simp only [Bool.false_eq_true, if_false]
  rw [indices _ _ hC]
  simp only [ok_bind]
  rw [if_pos (by rfl), hy]
  have hu : toU64 (y : Int) = y := by
    unfold toU64
    omega
  rw [hu, hg]
  rfl

/-- The server with number 1, wherever it answers. -/
def second : Peer := ⟨serverPublicKeys[1], [], [1]⟩

/-- C80 as claimed is false: server 1 answers at the address of server 0. -/
theorem C80_refuted : ¬ C80_Statement := by
  intro h
  obtain ⟨p, hp, hk⟩ := h (fun _ => some second) 1735689600 ["a", "b"] (by decide) (by decide) (by decide) 0 "a" rfl
  cases hp
  revert hk
  decide

/-- C80: it is because the accepted certificates are those of the servers, and not that of the authority which made them, that nobody
else is accepted: with an authority among the accepted ones, a certificate made for this name is accepted exactly if it is one of
them or can be traced to one of them through certificates that the peer sends along. -/
theorem C80_authority (cr : Creds) (now : Int) (leaf : Cert) (more : List Cert) :
    (verify cr now leaf more = true → leaf ∈ cr.roots ∨ ∃ p ∈ cr.roots, p.isCA = true ∧ inTime now p = true ∧
      (leaf.signer = p.key ∨ ∃ q ∈ more, q.isCA = true ∧ q.signer = p.key)) ∧
    (inTime now leaf = true → cr.serverName ∈ leaf.names → ∀ p ∈ cr.roots, p.isCA = true → inTime now p = true →
      (leaf.signer = p.key ∨ ∃ q ∈ more, q.isCA = true ∧ inTime now q = true ∧ leaf.signer = q.key ∧ q.signer = p.key) →
      verify cr now leaf more = true) := by
  constructor
  · intro h
    unfold verify at h
    rw [Bool.and_eq_true, Bool.or_eq_true, decide_eq_true_iff] at h
    rcases h.2 with h | h
    · exact Or.inl h
    · refine Or.inr ?_
      suffices hs : ∀ n c, chains cr.roots more now n c = true → ∃ p ∈ cr.roots, p.isCA = true ∧ inTime now p = true ∧
          (c.signer = p.key ∨ ∃ q ∈ more, q.isCA = true ∧ q.signer = p.key) from hs _ _ h
      intro n
      induction n with
      | zero => intro c h; cases h
      | succ n ih =>
        intro c h
        rw [chains, Bool.or_eq_true, List.any_eq_true, List.any_eq_true] at h
        rcases h with ⟨p, hp, h⟩ | ⟨q, hq, h⟩
        · simp only [signedBy, Bool.and_eq_true, decide_eq_true_eq] at h
          exact ⟨p, hp, h.1.1, h.2, Or.inl h.1.2⟩
        · simp only [signedBy, Bool.and_eq_true, decide_eq_true_eq] at h
          obtain ⟨p, hp, hca, ht, hc⟩ := ih q h.2
          refine ⟨p, hp, hca, ht, Or.inr ?_⟩
          rcases hc with hc | hc
          · exact ⟨q, hq, h.1.1.1, hc⟩
          · exact hc
  · intro ht hn p hp hca htp hs
    unfold verify
    rw [ht, decide_eq_true hn, Bool.true_and, Bool.true_and, Bool.or_eq_true]
    refine Or.inr ?_
    have step : ∀ n c, c.signer = p.key → chains cr.roots more now (n + 1) c = true := by
      intro n c hc
      rw [chains, Bool.or_eq_true, List.any_eq_true]
      exact Or.inl ⟨p, hp, by simp [signedBy, hca, hc, htp]⟩
    rcases hs with hs | ⟨q, hq, hqca, hqt, h1, h2⟩
    · exact step _ _ hs
    · rw [chains, Bool.or_eq_true, List.any_eq_true, List.any_eq_true]
      refine Or.inr ⟨q, hq, ?_⟩
      cases more with
      | nil => cases hq
      | cons x more => simp [signedBy, hqca, h1, hqt, step _ q h2]

/-- C80: no server can make certificates for others: none of the five certificates is that of an authority, none is signed with the
secret key of a server, and all five are signed with one and the same key, which no server has. -/
theorem C80_issuer (i j : Nat) (hi : i < 5) (hj : j < 5) (p : Peer) (hp : serverPeer j = ok p) :
    (serverPublicKeys[i]'hi).isCA = false ∧ (serverPublicKeys[i]'hi).signer ∉ p.knows ∧
      (serverPublicKeys[i]'hi).signer = (serverPublicKeys[j]'hj).signer := by
  have key : ∀ i : Fin 5, ∀ j : Fin 5, serverPeer (j : Nat) = ok ⟨serverPublicKeys[j.1]'j.2, [], [j.1]⟩ ∧
      (serverPublicKeys[i.1]'i.2).isCA = false ∧ (serverPublicKeys[i.1]'i.2).signer ≠ j.1 ∧
      (serverPublicKeys[i.1]'i.2).signer = (serverPublicKeys[j.1]'j.2).signer := by decide
  obtain ⟨h0, h1, h2, h3⟩ := key ⟨i, hi⟩ ⟨j, hj⟩
  rw [h0] at hp
  cases hp
  exact ⟨h1, by simpa using h2, h3⟩

/-- Server 4 and the certificate of server 0. -/
example : (serverPublicKeys[0]).signer ∉ [4] := (C80_issuer 0 4 (by decide) (by decide) ⟨serverPublicKeys[4], [], [4]⟩ rfl).2.1

/-- An authority with key 100 that is accepted, and a certificate signed by it. -/
example : verify ⟨[⟨authority, authority, 1, [], 0, 100, true⟩], "127.0.0.1"⟩ 50 ⟨7, authority, 2, ["127.0.0.1"], 0, 60, false⟩ [] = true :=
  (C80_authority _ 50 _ []).2 (by decide) (by decide) ⟨authority, authority, 1, [], 0, 100, true⟩ (by decide) rfl (by decide) (Or.inl rfl)

/-- The hypotheses of the theorems above are met: on 1 January 2025 both servers are reached, on 1 February 2027 none. -/
example : connectActor (dial (fun a => if a = "a" then some ⟨serverPublicKeys[0], [], [0]⟩ else some second) 1735689600)
    ["a", "b"] = ok ["a", "b"] :=
  (C80_honest _ 1735689600 ["a", "b"] (fun a => if a = "a" then 0 else 1)
    (by unfold Valid; decide)
    (fun a _ => by
      by_cases h : a = "a"
      · simp only [h, if_true]; exact ⟨_, rfl, rfl⟩
      · simp only [h, if_false]; exact ⟨_, rfl, rfl⟩)).1

example : dial (fun _ => some second) 1801440000 "a" ≠ ok () := C80_expired _ _ (Or.inr (by decide)) _

/-- Somebody with a certificate signed by server 0, which is no authority. -/
example : dial (fun _ => some ⟨⟨7, 0, 1, ["127.0.0.1"], 0, 2000000000, false⟩, [serverPublicKeys[0]], [7]⟩) 1735689600 "a" ≠
    ok () := C80_outsider _ _ _ _ rfl (by decide)

/-- Server 1 answers for three servers and learns the column. -/
example : ∃ ms, actorTraffic (exLib plainDpf) (secured (fun _ => some second) 1735689600 (honestNet plainDpf exDB))
    ["a", "b", "c"] twoColumns [9] = ok ms ∧ parity ms 1 = true ∧ parity ms 0 = false := by
  refine ⟨_, rfl, ?_, ?_⟩ <;> decide

end Verif.Tls
