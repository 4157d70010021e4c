import Verif.Props.Simul
import Verif.Props.DeployStats
import Verif.Props.PredicateRobust

/-! # C67: the counting experiments -/

namespace Verif.Simul
open Res Verif.Cmd Verif.Client Verif.Client.Spec Verif.Deploy Verif.Deploy.Spec Verif.Query Verif.Simul.Spec
open Verif.Predicate (World Msg KeyDB KeyInfo numMatching textInfo)
open Verif.Predicate.Spec (AtEnd Ascii NoHits Loaded)

theorem letters_eq : bytes "abcdefghijklmnopqrstuvwxyz0123456789" = [97, 98, 99, 100, 101, 102, 103, 104, 105, 106, 107, 108,
    109, 110, 111, 112, 113, 114, 115, 116, 117, 118, 119, 120, 121, 122, 48, 49, 50, 51, 52, 53, 54, 55, 56, 57] := by
  decide

theorem letter_alnum {k : Nat} (hk : k < 36) :
    ∃ c, idx (bytes "abcdefghijklmnopqrstuvwxyz0123456789") k = ok c ∧ Alnum c := by
  rw [letters_eq]
  unfold Alnum
  interval_cases k <;> exact ⟨_, rfl, by decide⟩

/-- A random string has the wanted length and letters and digits only. -/
theorem ranstring_spec {R : MathRand} (hR : Bounded R) (n : Nat) (st : R.State) :
    ∃ s st', ranstring R n st = ok (s, st') ∧ s.length = n ∧ ∀ c ∈ s, Alnum c := by
  have hl : (bytes "abcdefghijklmnopqrstuvwxyz0123456789").length = 36 := by decide
  unfold ranstring
  dsimp only
  obtain ⟨t, ht, h⟩ := forLoop_inv (n := n) (s := (([] : List Byte), st))
    (body := fun _ (s : List Byte × R.State) => do
      let (k, st) := R.intn (bytes "abcdefghijklmnopqrstuvwxyz0123456789").length s.2
      let l ← idx (bytes "abcdefghijklmnopqrstuvwxyz0123456789") k
      ok (s.1 ++ [l], st))
    (P := fun i t => t.1.length = i ∧ ∀ c ∈ t.1, Alnum c) ⟨rfl, by simp⟩ (by
      intro i t hi ⟨h1, h2⟩
      obtain ⟨c, hc, ha⟩ := letter_alnum (hR 36 t.2 (by omega))
      refine ⟨(t.1 ++ [c], (R.intn 36 t.2).2), ?_, by simp [h1], ?_⟩
      · dsimp only
        rw [hl, hc]
        rfl
      · intro x hx
        simp only [List.mem_append, List.mem_singleton] at hx
        rcases hx with hx | rfl
        · exact h2 x hx
        · exact ha)
  exact ⟨t.1, t.2, ht, h⟩

theorem algorithm_idx : ∀ k, k < 5 → ∃ c : Byte, idx ([1, 16, 17, 18, 19] : List Byte) k = ok c ∧
    c.toNat ∈ [1, 16, 17, 18, 19] := by
  intro k hk
  interval_cases k <;> exact ⟨_, rfl, by decide⟩

/-- C67: the generated database has the number of keys asked for, each with an address of 32 letters and digits, a date
within the years and one of the five algorithms, whatever the generator draws. -/
theorem C67_keys (R : MathRand) (hR : Bounded R) (unix : Int → Time) (n : Nat) :
    ∃ db, createRandomKeysDB R unix n = ok db ∧ db.keys.length = n ∧ Loaded db ∧ ∀ k ∈ db.keys, Generated unix k := by
  unfold createRandomKeysDB
  obtain ⟨t, ht, h1, h2⟩ := forLoop_inv (n := n) (s := (([] : List KeyInfo), R.seed (2 * 2 ^ 32 - 7)))
    (body := fun _ (s : List KeyInfo × R.State) => do
      let (ct, st) := randate R s.2
      let algorithms : List Byte := [1, 16, 17, 18, 19]
      let (a, st) := R.intn algorithms.length st
      let pka ← idx algorithms a
      let (id, st) ← ranstring R 32 st
      ok (s.1 ++ [⟨id, unix ct, pka⟩], st))
    (P := fun i t => t.1.length = i ∧ ∀ k ∈ t.1, Generated unix k) ⟨rfl, by simp⟩ (by
      intro i t hi ⟨h1, h2⟩
      dsimp only [randate, List.length_cons, List.length_nil]
      obtain ⟨c, hc, ha⟩ := algorithm_idx _ (hR 5 (R.intn (1638230400 - 946598400) t.2).2 (by omega))
      obtain ⟨s, st', hs, hs1, hs2⟩ := ranstring_spec hR 32 (R.intn 5 (R.intn (1638230400 - 946598400) t.2).2).2
      have hd := hR (1638230400 - 946598400) t.2 (by omega)
      refine ⟨(t.1 ++ [⟨s, unix ((R.intn (1638230400 - 946598400) t.2).1 + 946598400), c⟩], st'), ?_, by simp [h1], ?_⟩
      · simp only [Nat.zero_add, Nat.reduceAdd]
        rw [hc, ok_bind, hs]
        rfl
      · intro x hx
        simp only [List.mem_append, List.mem_singleton] at hx
        rcases hx with hx | rfl
        · exact h2 x hx
        · exact ⟨hs1, hs2, ⟨_, by omega, by omega, rfl⟩, ha⟩)
  refine ⟨⟨n, t.1⟩, ?_, h1, h1.symm, h2⟩
  rw [ht]
  rfl

theorem alnum_ascii {l : List Byte} (h : ∀ c ∈ l, Alnum c) : Ascii l := by
  intro c hc
  rcases h c hc with h | h <;> omega

/-! ### The servers -/

theorem makeServer_fss {M : Host} {f : ServerFlags} {ex : Nat}
    (hs : f.scheme = "fss-classic" ∧ ex = 1 ∨ f.scheme = "fss-auth" ∧ ex = 5) (h0 : 0 < f.elemBitSize * f.blockLen)
    {db : KeyDB} (hd : createRandomKeysDB M.rand M.unix 100000 = ok db) (sid : Nat) :
    makeServer M sid f = ok (⟨0, db.keys.length, 0, "", [], 0⟩, predicateAnswer M (BitVec.ofNat 8 sid) ex db) := by
  have hrows : ∃ r, numRows f = ok r := by
    unfold numRows
    have h3 : first3 f.scheme = ok [102, 115, 115] := by
      rcases hs with ⟨h, -⟩ | ⟨h, -⟩ <;> rw [h]
      · exact first3_fss.1
      · exact first3_fss.2
    rw [h3, ok_bind, if_pos (by rw [first3_cmp]; decide), if_neg (by omega), ok_bind]
    dsimp only
    by_cases hn : f.nRows ≠ 1
    · rw [if_pos hn]; exact ⟨_, rfl⟩
    · rw [if_neg hn]; exact ⟨_, rfl⟩
  obtain ⟨r, hr⟩ := hrows
  unfold makeServer
  rw [hr, ok_bind]
  rcases hs with ⟨h, rfl⟩ | ⟨h, rfl⟩
  · rw [h, if_neg (by decide), if_neg (by decide), if_pos (by decide), hd]
    rfl
  · rw [h, if_neg (by decide), if_neg (by decide), if_pos (by decide), hd]
    rfl

/-- Two servers of the counting experiment are honest predicate servers numbers 0 and 1. -/
theorem launch_counting {gob : Msg → List Byte} {W : World} {db : KeyDB} {host : Nat → Host} (hM : Counting gob W db host)
    {s0 s1 : List Char × Server} (hc : Config [s0, s1]) {config : Nat → List (List Char × Server)}
    (hp : ∀ i, i < 2 → (config i).Perm [s0, s1]) {f : ServerFlags} {ex : Nat}
    (hs : f.scheme = "fss-classic" ∧ ex = 1 ∨ f.scheme = "fss-auth" ∧ ex = 5) (h0 : 0 < f.elemBitSize * f.blockLen) :
    ∃ running, launch host config 2 f = ok running ∧ PredicateServers (network running) W gob ex db
      (transmit ⟨0, db.keys.length, 0, "", [], 0⟩) (address s0.2) (address s1.2) := by
  have m0 := serverMain_run (hM.bind 0 (by omega)) hc (hp 0 (by omega)) (i := 0) (by simp) (by omega) f
    (makeServer_fss hs h0 (hM.keys 0 (by omega)) 0)
  have m1 := serverMain_run (hM.bind 1 (by omega)) hc (hp 1 (by omega)) (i := 1) (by simp) (by omega) f
    (makeServer_fss hs h0 (hM.keys 1 (by omega)) 1)
  have hne : address s0.2 ≠ address s1.2 := by
    have := hc.distinct
    simpa using this
  refine ⟨[⟨address s0.2, ⟨0, db.keys.length, 0, "", [], 0⟩, predicateAnswer (host 0) 0 ex db⟩,
    ⟨address s1.2, ⟨0, db.keys.length, 0, "", [], 0⟩, predicateAnswer (host 1) 1 ex db⟩], by
    unfold launch
    rw [show List.range 2 = [0, 1] by decide, List.mapM_cons, m0, ok_bind, List.mapM_cons, m1, ok_bind]
    rfl, ?_⟩
  have f0 : ∀ r0 r1 : Running, r0.addr = address s0.2 → [r0, r1].find? (fun s => s.addr = address s0.2) = some r0 := by
    intro r0 r1 h
    simp [h]
  have f1 : ∀ r0 r1 : Running, r0.addr = address s0.2 → r1.addr = address s1.2 →
      [r0, r1].find? (fun s => s.addr = address s1.2) = some r1 := by
    intro r0 r1 h h'
    simp [h, h', hne]
  refine ⟨?_, ?_, ?_, ?_, ?_, ?_⟩
  · simp [network]
  · simp [network]
  · unfold network
    dsimp only
    rw [f0 _ _ rfl]
  · unfold network
    dsimp only
    rw [f1 _ _ rfl rfl]
  · intro m
    unfold network
    dsimp only
    rw [f0 _ _ rfl]
    dsimp only
    unfold predicateAnswer
    rw [hM.gob 0 (by omega), ok_bind, hM.hash 0 (by omega), hM.env0.1, hM.env0.2.1, hM.env0.2.2]
    rfl
  · intro m
    unfold network
    dsimp only
    rw [f1 _ _ rfl rfl]
    dsimp only
    unfold predicateAnswer
    rw [hM.gob 1 (by omega), ok_bind, hM.hash 1 (by omega), hM.env1.1, hM.env1.2.1, hM.env1.2.2]
    rfl

/-! ### The client -/

theorem orFatal_bind_ok {α : Type _} {x : Res α} {a : α} (h : x = ok a) : orFatal x = ok a := by rw [h]; rfl

/-- A repetition finds what the query gives. -/
theorem complexRound_found {W : World} {gob : Msg → List Byte} {ex n : Nat}
    {run : List (List Byte) → Res (List (List Byte))} {q : ClientFSS} {v : U32} (h : complexResult W gob ex n run q = ok v) :
    ∃ sent, complexRound W gob ex n run q = ok ⟨sent, v⟩ := by
  unfold complexResult at h
  simp only [bind_eq_ok] at h
  obtain ⟨⟨ms, st, rnd, buf⟩, hq, answers, ha, hr⟩ := h
  unfold complexRound
  rw [hq, Client.orFatal_ok, ok_bind]
  dsimp only at ha hr ⊢
  rw [ha, ok_bind, hr]
  exact ⟨_, rfl⟩

theorem text_info (text : List Byte) (n : Nat) (h : text.length = n) :
    (⟨0, n, 0, false, false, false⟩ : Info) = textInfo true text := by
  unfold textInfo
  subst h
  rfl

/-- What a repetition finds when `n` keys match: their number, or its negation modulo p if the map with the connections is
enumerated backwards. -/
theorem round_counts {net : Net} {S : Schedule} (hS : Fair S) {W : World} {gob : Msg → List Byte} {ex : Nat} (hex : 0 < ex)
    (hex20 : ex < 20) {db : KeyDB} {info : DbInfo} {a0 a1 : String} (hnet : PredicateServers net W gob ex db info a0 a1)
    (hne : a0 ≠ a1) (hh : ∀ e, (W.hash e).length = 32) (hR : Predicate.Spec.Ready W ex) (hdb : Loaded db) (hp : db.keys.length < Field.Spec.p)
    {text : List Byte} (ht : text ≠ []) (ha : Ascii text) (hda : ∀ ki ∈ db.keys, Ascii ki.email)
    (hno : NoHits W ex db ⟨textInfo true text, text.flatMap Utils.bits8⟩) :
    ∃ r : Round U32, complexRound W gob ex 2 (runQueries net S [a0, a1]) ⟨textInfo true text, text.flatMap Utils.bits8⟩ = ok r ∧
      (S.conns [a0, a1] = [a0, a1] → r.found.toNat = numMatching db (fun ki => text <+: ki.email)) ∧
      (S.conns [a0, a1] = [a1, a0] →
        (r.found.toNat + numMatching db (fun ki => text <+: ki.email)) % Field.Spec.p = 0) := by
  obtain ⟨⟨r0, e0, v0⟩, r1, e1, v1⟩ := Predicate.text_count W ex hex hex20 db true text _ hh hR hdb ht
    (Predicate.text_query hh ht) hno (fun ki => text <+: ki.email)
    (fun ki hki => Predicate.text_ascii (b := true) (Or.inr ⟨ha, hda ki hki⟩))
  have hle : numMatching db (fun ki => text <+: ki.email) ≤ db.keys.length := List.countP_le_length
  rw [Nat.mod_eq_of_lt (by omega)] at v0
  have hrun : ∀ inOrder : Bool, S.conns [a0, a1] = (if inOrder then [a0, a1] else [a1, a0]) → ∀ v,
      W.run ex db ⟨textInfo true text, text.flatMap Utils.bits8⟩ inOrder = ok v →
      complexResult W gob ex 2 (runQueries net S [a0, a1]) ⟨textInfo true text, text.flatMap Utils.bits8⟩ = ok v := by
    intro b hb v hv
    have : runQueries net S [a0, a1] = runQueriesActor net S (if b then [a0, a1] else [a1, a0]) := by
      funext qs
      unfold runQueries
      rw [hb]
    rw [this]
    exact complex_run hS hnet hv
  rcases perm_pair (hS.conns [a0, a1]) with e | e
  · obtain ⟨sent, hr⟩ := complexRound_found (hrun true e r0 e0)
    refine ⟨_, hr, fun _ => v0, fun e' => ?_⟩
    rw [e] at e'
    simp [hne] at e'
  · obtain ⟨sent, hr⟩ := complexRound_found (hrun false e r1 e1)
    refine ⟨_, hr, fun e' => ?_, fun _ => v1⟩
    rw [e] at e'
    simp [hne.symm] at e'

/-- The state of the client and the randomness suit the experiment: SHA-256 gives 32 bytes and the parties are set up. -/
def Prepared (W : World) (ex : Nat) : Prop := (∀ e, (W.hash e).length = 32) ∧ Predicate.Spec.Ready W ex

/-- No derived value of the exchanges about the text equals the modulus. -/
def Quiet (C : ClientHost) (ex : Nat) (db : KeyDB) (text : List Byte) : Prop :=
  ∀ j, NoHits (C.worlds j) ex db ⟨textInfo true text, text.flatMap Utils.bits8⟩

/-- The client of the counting experiment. -/
theorem clientMain_counts {C : ClientHost} (hR : Bounded C.rand) {s0 s1 : List Char × Server} (hc : Config [s0, s1])
    {net : Nat → Net} {ex : Nat} {db : KeyDB} {info : DbInfo}
    (hnet : ∀ j, PredicateServers (net j) (C.worlds j) C.gob ex db info (address s0.2) (address s1.2))
    (hW : ∀ j, Prepared (C.worlds j) ex) (hdb : Loaded db) (hp : db.keys.length < Field.Spec.p)
    (hda : ∀ ki ∈ db.keys, Ascii ki.email)
    {cfg : List (List Char × Server)} (hcfg : cfg.Perm [s0, s1]) {S : Nat → Schedule} (hS : ∀ c, Fair (S c))
    {f : ClientFlags} (hs : f.scheme = "fss-classic" ∧ ex = 1 ∨ f.scheme = "fss-auth" ∧ ex = 5) (hn : f.numServers = 2)
    (h0 : 0 < f.inputSize) :
    ∃ text : List Byte, text.length = f.inputSize ∧ (∀ c ∈ text, Alnum c) ∧
      (∃ st, ranstring C.rand f.inputSize C.randState = ok (text, st)) ∧ (Quiet C ex db text →
      ∃ rounds, clientMain C cfg net S f = ok (.counts rounds) ∧ rounds.length = f.repetitions ∧
        ∀ j (hj : j < rounds.length),
          ((S j).conns [address s0.2, address s1.2] = [address s0.2, address s1.2] →
            rounds[j].found.toNat = numMatching db (fun ki => text <+: ki.email)) ∧
          ((S j).conns [address s0.2, address s1.2] = [address s1.2, address s0.2] →
            (rounds[j].found.toNat + numMatching db (fun ki => text <+: ki.email)) % Field.Spec.p = 0)) := by
  obtain ⟨text, st, ht, htl, hta⟩ := ranstring_spec hR f.inputSize C.randState
  refine ⟨text, htl, hta, ⟨st, ht⟩, fun hquiet => ?_⟩
  have hne : address s0.2 ≠ address s1.2 := by
    have := hc.distinct
    simpa using this
  have hex : 0 < ex ∧ ex < 20 := by rcases hs with ⟨-, rfl⟩ | ⟨-, rfl⟩ <;> omega
  have hrun : ∃ rounds, retrieveComplexPIR C.rand C.randState C.worlds C.gob ex net S [address s0.2, address s1.2] f =
        ok rounds ∧ rounds.length = f.repetitions ∧ ∀ j (hj : j < rounds.length),
          ((S j).conns [address s0.2, address s1.2] = [address s0.2, address s1.2] →
            rounds[j].found.toNat = numMatching db (fun ki => text <+: ki.email)) ∧
          ((S j).conns [address s0.2, address s1.2] = [address s1.2, address s0.2] →
            (rounds[j].found.toNat + numMatching db (fun ki => text <+: ki.email)) % Field.Spec.p = 0) := by
    unfold retrieveComplexPIR
    rw [ht, ok_bind]
    dsimp only
    rw [Utils.byteToBits_eq, ok_bind, text_info text f.inputSize htl]
    apply forLoop_inv (P := fun i (rounds : List (Round U32)) => rounds.length = i ∧ ∀ j (hj : j < rounds.length),
          ((S j).conns [address s0.2, address s1.2] = [address s0.2, address s1.2] →
            rounds[j].found.toNat = numMatching db (fun ki => text <+: ki.email)) ∧
          ((S j).conns [address s0.2, address s1.2] = [address s1.2, address s0.2] →
            (rounds[j].found.toNat + numMatching db (fun ki => text <+: ki.email)) % Field.Spec.p = 0))
    · exact ⟨rfl, by simp⟩
    · intro i rounds hi ⟨hl, hr⟩
      obtain ⟨r, hr1, hr2⟩ := round_counts (hS i) hex.1 hex.2 (hnet i) hne (hW i).1 (hW i).2 hdb hp
        (by rintro rfl; simp at htl; omega) (alnum_ascii hta) hda (hquiet i)
      refine ⟨rounds ++ [r], ?_, by simp [hl], ?_⟩
      · simp only [List.length_cons, List.length_nil, Nat.zero_add, Nat.reduceAdd]
        rw [hr1]
        rfl
      · intro j hj
        by_cases hlt : j < rounds.length
        · rw [List.getElem_append_left hlt]
          exact hr j hlt
        · have : j = i := by simp at hj; omega
          subst this
          simp only [List.getElem_append_right (by omega : rounds.length ≤ j), hl, Nat.sub_self, List.getElem_singleton]
          exact hr2
  obtain ⟨rounds, hr, hrest⟩ := hrun
  refine ⟨rounds, ?_, hrest⟩
  unfold clientMain
  rw [C49_sorted_partial [s0, s1] cfg hcfg hc.numbered, Client.orFatal_ok, ok_bind, hn]
  show (do
    let used ← slice [address s0.2, address s1.2] 0 2
    let conns ← orFatal (connect (net 0).dial used)
    orFatal (exec C net S conns f)) = _
  rw [slice_of_le (by omega) (by simp), ok_bind]
  show (do
    let conns ← orFatal (connect (net 0).dial [address s0.2, address s1.2])
    orFatal (exec C net S conns f)) = _
  rw [connect_nodup (l := [address s0.2, address s1.2]) (by
    intro a ha
    simp only [List.mem_cons, List.not_mem_nil, or_false] at ha
    rcases ha with rfl | rfl
    · exact (hnet 0).dial0
    · exact (hnet 0).dial1) (by simp [hne]), Client.orFatal_ok, ok_bind]
  unfold exec
  rw [gather_eq (hS 0) (i := info) (servers := [address s0.2, address s1.2]) (by
      intro a ha
      simp only [List.mem_cons, List.not_mem_nil, or_false] at ha
      rcases ha with rfl | rfl
      · exact (hnet 0).info0
      · exact (hnet 0).info1), ok_bind, retrieve_replicate (by simp), Client.orFatal_ok, ok_bind]
  rcases hs with ⟨h, rfl⟩ | ⟨h, rfl⟩
  · rw [h, if_neg (by decide), if_pos rfl, hr]
    rfl
  · rw [h, if_neg (by decide), if_neg (by decide), if_pos rfl]
    rw [show Field.concurrentExecutions + 1 = 5 from rfl, hr]
    rfl

/-- C67, full statement: two servers with the same generated keys; the client asks repeatedly for the number of addresses
beginning with a random string of letters and digits: each repetition finds the number of keys whose address begins so.
`host j` are the servers as the `j`-th repetition finds them. -/
def C67_Statement : Prop :=
  ∀ (C : ClientHost) (s0 s1 : List Char × Server) (host : Nat → Nat → Host) (config : Nat → List (List Char × Server))
    (sf : ServerFlags) (ex : Nat) (db : KeyDB),
    Bounded C.rand → Config [s0, s1] → (∀ j, Counting C.gob (C.worlds j) db (host j)) → (∀ j, Prepared (C.worlds j) ex) →
    (∀ i, i < 2 → (config i).Perm [s0, s1]) → (sf.scheme = "fss-classic" ∧ ex = 1 ∨ sf.scheme = "fss-auth" ∧ ex = 5) →
    0 < sf.elemBitSize * sf.blockLen →
    ∃ running : Nat → List Running, (∀ j, launch (host j) config 2 sf = ok (running j)) ∧
      ∀ (cfg : List (List Char × Server)) (S : Nat → Schedule) (f : ClientFlags), cfg.Perm [s0, s1] → (∀ c, Fair (S c)) →
        f.scheme = sf.scheme → f.numServers = 2 → 0 < f.inputSize →
        ∃ text : List Byte, text.length = f.inputSize ∧ (∀ c ∈ text, Alnum c) ∧ (Quiet C ex db text →
          ∃ rounds, clientMain C cfg (fun j => network (running j)) S f = ok (.counts rounds) ∧
            rounds.length = f.repetitions ∧
            ∀ j (hj : j < rounds.length), rounds[j].found.toNat = numMatching db (fun ki => text <+: ki.email))

/-- The servers of the counting experiment, and what the client finds in either order of the connections. -/
theorem counts_either (C : ClientHost) (s0 s1 : List Char × Server) (host : Nat → Nat → Host)
    (config : Nat → List (List Char × Server)) (sf : ServerFlags) (ex : Nat) (db : KeyDB)
    (hR : Bounded C.rand) (hc : Config [s0, s1]) (hM : ∀ j, Counting C.gob (C.worlds j) db (host j))
    (hW : ∀ j, Prepared (C.worlds j) ex) (hp : ∀ i, i < 2 → (config i).Perm [s0, s1])
    (hs : sf.scheme = "fss-classic" ∧ ex = 1 ∨ sf.scheme = "fss-auth" ∧ ex = 5) (h0 : 0 < sf.elemBitSize * sf.blockLen) :
    ∃ running : Nat → List Running, (∀ j, launch (host j) config 2 sf = ok (running j)) ∧
      ∀ (cfg : List (List Char × Server)) (S : Nat → Schedule) (f : ClientFlags), cfg.Perm [s0, s1] → (∀ c, Fair (S c)) →
        f.scheme = sf.scheme → f.numServers = 2 → 0 < f.inputSize →
        ∃ text : List Byte, text.length = f.inputSize ∧ (∀ c ∈ text, Alnum c) ∧
          (∃ st, ranstring C.rand f.inputSize C.randState = ok (text, st)) ∧ (Quiet C ex db text →
          ∃ rounds, clientMain C cfg (fun j => network (running j)) S f = ok (.counts rounds) ∧
            rounds.length = f.repetitions ∧ ∀ j (hj : j < rounds.length),
              ((S j).conns [address s0.2, address s1.2] = [address s0.2, address s1.2] →
                rounds[j].found.toNat = numMatching db (fun ki => text <+: ki.email)) ∧
              ((S j).conns [address s0.2, address s1.2] = [address s1.2, address s0.2] →
                (rounds[j].found.toNat + numMatching db (fun ki => text <+: ki.email)) % Field.Spec.p = 0)) := by
  choose running hr hserv using fun j => launch_counting (hM j) hc hp hs h0
  refine ⟨running, hr, ?_⟩
  intro cfg S f hcfg hS hsch hn hin
  obtain ⟨db', hdb', hlen, hload, hgen⟩ := C67_keys (host 0 0).rand ((hM 0).bounded 0 (by omega)) (host 0 0).unix 100000
  rw [(hM 0).keys 0 (by omega), ok.injEq] at hdb'
  subst hdb'
  exact clientMain_counts hR hc hserv hW hload (by rw [hlen, Field.p_val]; decide)
    (fun ki hki => alnum_ascii (hgen ki hki).2.1) hcfg hS (by rw [hsch]; exact hs) hn hin

/-- C67 (positive part): each repetition that enumerates its connections in the order of the servers finds the number of
keys whose address begins with the string. Missing: the other order, and derived values equal to the modulus. -/
theorem C67_counts_partial (C : ClientHost) (s0 s1 : List Char × Server) (host : Nat → Nat → Host)
    (config : Nat → List (List Char × Server)) (sf : ServerFlags) (ex : Nat) (db : KeyDB)
    (hR : Bounded C.rand) (hc : Config [s0, s1]) (hM : ∀ j, Counting C.gob (C.worlds j) db (host j))
    (hW : ∀ j, Prepared (C.worlds j) ex) (hp : ∀ i, i < 2 → (config i).Perm [s0, s1])
    (hs : sf.scheme = "fss-classic" ∧ ex = 1 ∨ sf.scheme = "fss-auth" ∧ ex = 5) (h0 : 0 < sf.elemBitSize * sf.blockLen) :
    ∃ running : Nat → List Running, (∀ j, launch (host j) config 2 sf = ok (running j)) ∧
      ∀ (cfg : List (List Char × Server)) (S : Nat → Schedule) (f : ClientFlags), cfg.Perm [s0, s1] → (∀ c, Fair (S c)) →
        f.scheme = sf.scheme → f.numServers = 2 → 0 < f.inputSize →
        (∀ c, (S c).conns [address s0.2, address s1.2] = [address s0.2, address s1.2]) →
        ∃ text : List Byte, text.length = f.inputSize ∧ (∀ c ∈ text, Alnum c) ∧ (Quiet C ex db text →
          ∃ rounds, clientMain C cfg (fun j => network (running j)) S f = ok (.counts rounds) ∧
            rounds.length = f.repetitions ∧
            ∀ j (hj : j < rounds.length), rounds[j].found.toNat = numMatching db (fun ki => text <+: ki.email)) := by
  obtain ⟨running, hr, h⟩ := counts_either C s0 s1 host config sf ex db hR hc hM hW hp hs h0
  refine ⟨running, hr, ?_⟩
  intro cfg S f hcfg hS hsch hn hin hord
  obtain ⟨text, h1, h2, -, h3⟩ := h cfg S f hcfg hS hsch hn hin
  refine ⟨text, h1, h2, fun hq => ?_⟩
  obtain ⟨rounds, e, hl, hv⟩ := h3 hq
  exact ⟨rounds, e, hl, fun j hj => (hv j hj).1 (hord j)⟩

/-- C67: a repetition that enumerates its connections backwards finds the negated number modulo p: unless no key matches, a
wrong number. -/
theorem C67_backwards (C : ClientHost) (s0 s1 : List Char × Server) (host : Nat → Nat → Host)
    (config : Nat → List (List Char × Server)) (sf : ServerFlags) (ex : Nat) (db : KeyDB)
    (hR : Bounded C.rand) (hc : Config [s0, s1]) (hM : ∀ j, Counting C.gob (C.worlds j) db (host j))
    (hW : ∀ j, Prepared (C.worlds j) ex) (hp : ∀ i, i < 2 → (config i).Perm [s0, s1])
    (hs : sf.scheme = "fss-classic" ∧ ex = 1 ∨ sf.scheme = "fss-auth" ∧ ex = 5) (h0 : 0 < sf.elemBitSize * sf.blockLen) :
    ∃ running : Nat → List Running, (∀ j, launch (host j) config 2 sf = ok (running j)) ∧
      ∀ (cfg : List (List Char × Server)) (S : Nat → Schedule) (f : ClientFlags), cfg.Perm [s0, s1] → (∀ c, Fair (S c)) →
        f.scheme = sf.scheme → f.numServers = 2 → 0 < f.inputSize →
        (∀ c, (S c).conns [address s0.2, address s1.2] = [address s1.2, address s0.2]) →
        ∃ text : List Byte, text.length = f.inputSize ∧ (∀ c ∈ text, Alnum c) ∧ (Quiet C ex db text →
          ∃ rounds, clientMain C cfg (fun j => network (running j)) S f = ok (.counts rounds) ∧
            rounds.length = f.repetitions ∧ ∀ j (hj : j < rounds.length),
              (rounds[j].found.toNat + numMatching db (fun ki => text <+: ki.email)) % Field.Spec.p = 0 ∧
              (0 < numMatching db (fun ki => text <+: ki.email) →
                rounds[j].found.toNat ≠ numMatching db (fun ki => text <+: ki.email))) := by
  obtain ⟨running, hr, h⟩ := counts_either C s0 s1 host config sf ex db hR hc hM hW hp hs h0
  refine ⟨running, hr, ?_⟩
  intro cfg S f hcfg hS hsch hn hin hord
  obtain ⟨text, h1, h2, -, h3⟩ := h cfg S f hcfg hS hsch hn hin
  refine ⟨text, h1, h2, fun hq => ?_⟩
  obtain ⟨rounds, e, hl, hv⟩ := h3 hq
  refine ⟨rounds, e, hl, fun j hj => ⟨(hv j hj).2 (hord j), fun hpos he => ?_⟩⟩
  have hm := (hv j hj).2 (hord j)
  rw [he] at hm
  obtain ⟨db', hdb', hlen, -⟩ := C67_keys (host 0 0).rand ((hM 0).bounded 0 (by omega)) (host 0 0).unix 100000
  rw [(hM 0).keys 0 (by omega), ok.injEq] at hdb'
  subst hdb'
  have hle : numMatching db (fun ki => text <+: ki.email) ≤ 100000 := by
    rw [← hlen]; exact List.countP_le_length
  rw [Nat.mod_eq_of_lt (by rw [Field.p_val]; omega)] at hm
  omega

/-! ### Length 0 -/

/-- C67: a server with keys panics at the query for the empty text, although every address begins with it: for length 0 it
compares hashes of addresses. -/
theorem C67_empty_text_crashes_servers (W : World) (ex : Nat) (db : KeyDB) (hh : ∀ e, (W.hash e).length = 32)
    (hdb : Loaded db) (hne : db.keys ≠ []) {ms : List Msg} {st : Predicate.State} {rnd' : Rand.Prg} {buf' : List Byte}
    (hms : Predicate.query W.env W.fuel ex W.rnd W.buf W.r1 W.r2 ⟨⟨0, 0, 0, false, false, false⟩, []⟩ 2 =
      ok (ms, st, rnd', buf')) (sn : Byte) (m : Msg) (hm : m ∈ ms) : (W.serve sn ex db m).isCrash := by
  have hmk : m.info = ⟨0, 0, 0, false, false, false⟩ ∧ m.key.cw = [] := by
    unfold Predicate.query at hms
    rw [if_neg (by simp)] at hms
    simp only [bind_eq_ok] at hms
    obtain ⟨⟨st', rnd2⟩, hd, ⟨k0, k1, b2⟩, hg, he⟩ := hms
    simp only [ok.injEq, Prod.mk.injEq] at he hg
    obtain ⟨rfl, -⟩ := he
    unfold Fss.generateTreePF Fss.genLoop at hg
    simp only [List.length_nil, forLoop, bind_eq_ok] at hg
    obtain ⟨_, _, _, _, _, _, _, _, g, hg', hg⟩ := hg
    simp only [ok.injEq] at hg'
    subst hg'
    simp only at hg
    obtain ⟨_, _, _, _, _, _, hg⟩ := hg
    simp only [ok.injEq, Prod.mk.injEq] at hg
    obtain ⟨rfl, rfl, -⟩ := hg
    simp only [List.mem_cons, List.not_mem_nil, or_false] at hm
    rcases hm with rfl | rfl <;> exact ⟨rfl, rfl⟩
  obtain ⟨hmi, hcw⟩ := hmk
  have hpos : 0 < db.keys.length := List.length_pos_of_ne_nil hne
  have hans : ∀ (env : Nat → Fss.Env) (now : Nat → Int) (sn : Byte) (buf : List Byte),
      (Predicate.answer W.hash env now sn db ex buf m).isCrash := by
    intro env now sn buf
    rw [Predicate.answer_count (by rw [hmi]) (by rw [hmi]) (Or.inr (by rw [hmi]; simp)), hmi]
    have hc : (Predicate.countLoop env sn db m.key (Predicate.Spec.keyId W.hash ⟨0, 0, 0, false, false, false⟩)
        ⟨List.replicate ex 0, List.replicate ex 0, buf⟩).isCrash := by
      unfold Predicate.countLoop
      refine Predicate.forLoop_crash (i := 0) (t := ⟨List.replicate ex 0, List.replicate ex 0, buf⟩)
        (by unfold Loaded at hdb; omega) rfl ?_
      have hid : Predicate.Spec.keyId W.hash ⟨0, 0, 0, false, false, false⟩ db.keys[0] =
          ok (some (((W.hash db.keys[0].email).take 16).flatMap Utils.bits8)) := by
        simp only [Predicate.Spec.keyId, Bool.false_and, Bool.false_eq_true, if_false, if_true]
        exact idForEmail_exact rfl rfl _ (by rw [hh]; omega)
      rw [idx_of_lt hpos, ok_bind, hid, ok_bind]
      dsimp only
      have hcr := Predicate.evaluate_nil_crash (env 0) buf sn m.key (((W.hash db.keys[0].email).take 16).flatMap Utils.bits8)
        (List.replicate ex 0) hcw (by
          intro h0
          have := congrArg List.length h0
          rw [bits_length, List.length_take, hh] at this
          simp at this)
      revert hcr
      cases Fss.evaluatePF (env 0) buf sn m.key (((W.hash db.keys[0].email).take 16).flatMap Utils.bits8)
        (List.replicate ex 0) <;> simp
    revert hc
    cases Predicate.countLoop env sn db m.key (Predicate.Spec.keyId W.hash ⟨0, 0, 0, false, false, false⟩)
      ⟨List.replicate ex 0, List.replicate ex 0, buf⟩ <;> simp
  unfold World.serve
  split
  · have := hans W.env0 W.now0 0 W.buf0
    revert this
    cases Predicate.answer W.hash W.env0 W.now0 0 db ex W.buf0 m <;> simp
  · have := hans W.env1 W.now1 sn W.buf1
    revert this
    cases Predicate.answer W.hash W.env1 W.now1 sn db ex W.buf1 m <;> simp

theorem forLoop_first_crash {σ : Type _} {n : Nat} {body : Nat → σ → Res σ} {s : σ} (hn : 0 < n) (h : (body 0 s).isCrash) :
    (forLoop n body s).isCrash := Predicate.forLoop_crash (i := 0) (t := s) hn rfl h

/-- C67: asked for texts of length 0, the experiment ends in its first repetition. -/
theorem C67_empty_text (C : ClientHost) (s0 s1 : List Char × Server) (host : Nat → Nat → Host)
    (config : Nat → List (List Char × Server)) (sf : ServerFlags) (ex : Nat) (db : KeyDB)
    (hc : Config [s0, s1]) (hM : ∀ j, Counting C.gob (C.worlds j) db (host j))
    (hh : ∀ j e, ((C.worlds j).hash e).length = 32) (hp : ∀ i, i < 2 → (config i).Perm [s0, s1])
    (hs : sf.scheme = "fss-classic" ∧ ex = 1 ∨ sf.scheme = "fss-auth" ∧ ex = 5) (h0 : 0 < sf.elemBitSize * sf.blockLen) :
    ∃ running : Nat → List Running, (∀ j, launch (host j) config 2 sf = ok (running j)) ∧
      ∀ (cfg : List (List Char × Server)) (S : Nat → Schedule) (f : ClientFlags), cfg.Perm [s0, s1] → (∀ c, Fair (S c)) →
        f.scheme = sf.scheme → f.numServers = 2 → f.inputSize = 0 → 0 < f.repetitions →
          (clientMain C cfg (fun j => network (running j)) S f).isCrash := by
  choose running hr hserv using fun j => launch_counting (hM j) hc hp hs h0
  refine ⟨running, hr, ?_⟩
  intro cfg S f hcfg hS hsch hn hin hrep
  obtain ⟨db', hdb', hlen, hload, -⟩ := C67_keys (host 0 0).rand ((hM 0).bounded 0 (by omega)) (host 0 0).unix 100000
  rw [(hM 0).keys 0 (by omega), ok.injEq] at hdb'
  subst hdb'
  have hdne : db.keys ≠ [] := by
    intro h
    rw [h] at hlen
    simp at hlen
  have hne : address s0.2 ≠ address s1.2 := by
    have := hc.distinct
    simpa using this
  have hround : (retrieveComplexPIR C.rand C.randState C.worlds C.gob ex (fun j => network (running j)) S
      [address s0.2, address s1.2] f).isCrash := by
    unfold retrieveComplexPIR
    rw [hin]
    show (forLoop f.repetitions _ _).isCrash
    refine forLoop_first_crash hrep ?_
    show (complexRound (C.worlds 0) C.gob ex 2 (runQueries (network (running 0)) (S 0) [address s0.2, address s1.2])
      ⟨⟨0, 0, 0, false, false, false⟩, []⟩ >>= _).isCrash
    unfold complexRound
    cases hq : Predicate.query (C.worlds 0).env (C.worlds 0).fuel ex (C.worlds 0).rnd (C.worlds 0).buf (C.worlds 0).r1
        (C.worlds 0).r2 ⟨⟨0, 0, 0, false, false, false⟩, []⟩ ((2 : Nat) : Int) with
    | err m => simp [orFatal]
    | crash m => simp [orFatal]
    | ok r =>
      obtain ⟨ms, st, rnd, buf⟩ := r
      obtain ⟨x, y, rfl, -⟩ := query_two hq
      have hx := C67_empty_text_crashes_servers (C.worlds 0) ex db (hh 0) hload hdne hq
      have hrun : (runQueries (network (running 0)) (S 0) [address s0.2, address s1.2] ([x, y].map C.gob)).isCrash := by
        unfold runQueries runQueriesActor
        rcases perm_pair ((hS 0).conns [address s0.2, address s1.2]) with e | e
        · rw [e, sends_eq _ _ (by simp), ok_bind]
          have h0 := hx 0 x (by simp)
          simp only [List.map_cons, List.map_nil, List.zip_cons_cons, List.zip_nil_right, List.mapM_cons, List.mapM_nil,
            (hserv 0).answer0]
          revert h0
          cases (C.worlds 0).serve 0 ex db x <;> simp [orFatal]
        · rw [e, sends_eq _ _ (by simp), ok_bind]
          have h0 := hx 1 x (by simp)
          simp only [List.map_cons, List.map_nil, List.zip_cons_cons, List.zip_nil_right, List.mapM_cons, List.mapM_nil,
            (hserv 0).answer1]
          revert h0
          cases (C.worlds 0).serve 1 ex db x <;> simp [orFatal]
      rw [Client.orFatal_ok, ok_bind]
      dsimp only
      revert hrun
      cases runQueries (network (running 0)) (S 0) [address s0.2, address s1.2] ([x, y].map C.gob) <;> simp
  unfold clientMain
  rw [C49_sorted_partial [s0, s1] cfg hcfg hc.numbered, Client.orFatal_ok, ok_bind, hn]
  show (do
    let used ← slice [address s0.2, address s1.2] 0 2
    let conns ← orFatal (connect (network (running 0)).dial used)
    orFatal (exec C (fun j => network (running j)) S conns f)).isCrash
  rw [slice_of_le (by omega) (by simp), ok_bind]
  show (do
    let conns ← orFatal (connect (network (running 0)).dial [address s0.2, address s1.2])
    orFatal (exec C (fun j => network (running j)) S conns f)).isCrash
  rw [connect_nodup (l := [address s0.2, address s1.2]) (by
    intro a ha
    simp only [List.mem_cons, List.not_mem_nil, or_false] at ha
    rcases ha with rfl | rfl
    · exact (hserv 0).dial0
    · exact (hserv 0).dial1) (by simp [hne]), Client.orFatal_ok, ok_bind]
  unfold exec
  rw [gather_eq (hS 0) (i := transmit ⟨0, db.keys.length, 0, "", [], 0⟩) (servers := [address s0.2, address s1.2]) (by
      intro a ha
      simp only [List.mem_cons, List.not_mem_nil, or_false] at ha
      rcases ha with rfl | rfl
      · exact (hserv 0).info0
      · exact (hserv 0).info1), ok_bind, retrieve_replicate (by simp), Client.orFatal_ok, ok_bind]
  rw [hsch]
  rcases hs with ⟨h, rfl⟩ | ⟨h, rfl⟩
  · rw [h, if_neg (by decide), if_pos rfl]
    revert hround
    cases retrieveComplexPIR C.rand C.randState C.worlds C.gob 1 (fun j => network (running j)) S
      [address s0.2, address s1.2] f <;> simp [orFatal]
  · rw [h, if_neg (by decide), if_neg (by decide), if_pos rfl, show Field.concurrentExecutions + 1 = 5 from rfl]
    revert hround
    cases retrieveComplexPIR C.rand C.randState C.worlds C.gob 5 (fun j => network (running j)) S
      [address s0.2, address s1.2] f <;> simp [orFatal]

/-! ### Concrete experiments -/

/-- A generator that always draws 0. -/
def zeroRand : MathRand := ⟨Unit, fun _ => (), fun _ _ => (0, ())⟩

theorem zeroRand_bounded : Bounded zeroRand := fun _ _ h => h

theorem zeroRand_string (n : Nat) : ranstring zeroRand n () = ok (List.replicate n 97, ()) := by
  unfold ranstring
  dsimp only
  rw [letters_eq]
  refine forLoop_eq (n := n) (fun i => (List.replicate i (97 : Byte), ())) (fun i hi => ?_)
  rw [List.replicate_succ']
  rfl

/-- The key with the address of 32 letters a. -/
def aKey (unix : Int → Time) : KeyInfo := ⟨List.replicate 32 97, unix 946598400, 1⟩

theorem zeroRand_keys (unix : Int → Time) (n : Nat) :
    createRandomKeysDB zeroRand unix n = ok ⟨n, List.replicate n (aKey unix)⟩ := by
  unfold createRandomKeysDB
  have h := forLoop_eq (n := n) (body := fun _ (s : List KeyInfo × zeroRand.State) => do
      let (ct, st) := randate zeroRand s.2
      let algorithms : List Byte := [1, 16, 17, 18, 19]
      let (a, st) := zeroRand.intn algorithms.length st
      let pka ← idx algorithms a
      let (id, st) ← ranstring zeroRand 32 st
      ok (s.1 ++ [⟨id, unix ct, pka⟩], st)) (fun i => (List.replicate i (aKey unix), ())) (fun i hi => by
    rw [List.replicate_succ']
    dsimp only [randate]
    rw [show idx ([1, 16, 17, 18, 19] : List Byte) _ = ok 1 from rfl, ok_bind,
      show (zeroRand.intn _ _).2 = () from rfl, zeroRand_string]
    rfl)
  exact congrArg (fun r => r >>= fun x => ok (⟨n, x.1⟩ : KeyDB)) h

/-- A server machine for the counting experiment. -/
noncomputable def countHost (i : Nat) : Host where
  H := Merkle.toyHash
  ck := Merkle.fnv1a
  dpf := Point.plainDpf
  rand := zeroRand
  prg := upward
  unix := dayTime
  queryHash := Predicate.exHash
  ungob := fun bs =>
    haveI := Classical.propDecidable
    if h : ∃ m, exGob m = bs then ok h.choose else err "gob"
  bind _ := ok ()
  env := if i = 0 then letterWorld.env0 else letterWorld.env1
  now := if i = 0 then letterWorld.now0 else letterWorld.now1
  buf := if i = 0 then letterWorld.buf0 else letterWorld.buf1

/-- A client machine for the counting experiment. -/
noncomputable def countClient : ClientHost where
  H := Merkle.toyHash
  dpf := Point.plainDpf
  rand := zeroRand
  randState := ()
  read _ := Point.sevens
  worlds _ := letterWorld
  gob := exGob

/-- The keys of the counting experiment. -/
def aKeys : KeyDB := ⟨100000, List.replicate 100000 (aKey dayTime)⟩

theorem countHost_counting : Counting countClient.gob letterWorld aKeys countHost := by
  refine ⟨fun _ _ _ => rfl, fun _ _ => rfl, fun i _ m => ?_, fun _ _ => zeroRand_bounded, fun _ _ => zeroRand_keys _ _,
    ⟨rfl, rfl, rfl⟩, ⟨rfl, rfl, rfl⟩⟩
  have h : ∃ m', exGob m' = exGob m := ⟨m, rfl⟩
  show (countHost i).ungob (exGob m) = ok m
  unfold countHost
  dsimp only
  rw [dif_pos h, exGob_injective h.choose_spec]

theorem countWorld_prepared : Prepared letterWorld 5 :=
  ⟨Predicate.exHash_length, Predicate.world_ready5 _ Fss.parityCipher_block _ _⟩

theorem countClient_quiet (db : KeyDB) (text : List Byte) : Quiet countClient 5 db text :=
  fun _ => Predicate.world_noHits 0 0 5 db _

/-- The options of the servers. -/
def countServer : ServerFlags := ⟨"fss-auth", 1, 1, 1, 1, 2⟩

/-- The options of the client: two repetitions, strings of three characters. -/
def countFlags : ClientFlags := ⟨2, 2, 1, 1, "fss-auth", 3⟩

theorem exServers_two : ∃ s0 s1, exServers 2 = [s0, s1] := ⟨_, _, rfl⟩

theorem aKeys_length : aKeys.keys.length = 100000 := List.length_replicate

theorem all_match (n : Nat) (hn : n ≤ 32) : numMatching aKeys (fun ki => List.replicate n (97 : Byte) <+: ki.email) = 100000 := by
  unfold numMatching
  rw [← aKeys_length]
  apply List.countP_eq_length.mpr
  intro ki hki
  simp only [decide_eq_true_eq]
  rw [List.eq_of_mem_replicate hki]
  exact ⟨List.replicate (32 - n) 97, by rw [← List.replicate_add, Nat.add_sub_cancel' hn]; rfl⟩

/-- C67 as claimed is false: with all addresses equal and the connections enumerated backwards, the client finds
2147383647 matching keys among 100000. -/
theorem C67_refuted : ¬ C67_Statement := by
  intro hst
  obtain ⟨s0, s1, hs⟩ := exServers_two
  have hc : Config [s0, s1] := by rw [← hs]; exact exServers_config.2.2
  obtain ⟨running, hr, h⟩ := hst countClient s0 s1 (fun _ => countHost) (fun _ => [s0, s1]) countServer 5 aKeys
    zeroRand_bounded hc (fun _ => countHost_counting) (fun _ => countWorld_prepared) (fun _ _ => List.Perm.refl _)
    (Or.inr ⟨rfl, rfl⟩) (by decide)
  obtain ⟨running', hr', h'⟩ := counts_either countClient s0 s1 (fun _ => countHost) (fun _ => [s0, s1]) countServer 5 aKeys
    zeroRand_bounded hc (fun _ => countHost_counting) (fun _ => countWorld_prepared) (fun _ _ => List.Perm.refl _)
    (Or.inr ⟨rfl, rfl⟩) (by decide)
  have hrr : running' = running := by
    funext j
    have := hr' j
    rw [hr j, ok.injEq] at this
    exact this.symm
  subst hrr
  obtain ⟨text, -, -, h⟩ := h [s0, s1] (fun _ => order true) countFlags (List.Perm.refl _) (fun _ => order_fair true) rfl rfl
    (by decide)
  obtain ⟨rounds, e, hl, hv⟩ := h (countClient_quiet _ _)
  obtain ⟨text', -, -, ⟨st, ht⟩, h'⟩ := h' [s0, s1] (fun _ => order true) countFlags (List.Perm.refl _)
    (fun _ => order_fair true) rfl rfl (by decide)
  obtain ⟨rounds', e', hl', hv'⟩ := h' (countClient_quiet _ _)
  rw [e, ok.injEq, Outcome.counts.injEq] at e'
  subst e'
  have h0 : 0 < rounds.length := by rw [hl]; decide
  have h1 := hv 0 h0
  have h2 := (hv' 0 h0).2 rfl
  have ht' : text' = List.replicate 3 97 := by
    have : ok (List.replicate 3 97, ()) = ok (text', st) := (zeroRand_string 3).symm.trans ht
    injection this with this
    exact (congrArg Prod.fst this).symm
  rw [ht', all_match 3 (by omega), h1] at h2
  have hle : numMatching aKeys (fun ki => text <+: ki.email) ≤ 100000 := by
    rw [← aKeys_length]
    exact List.countP_le_length
  rw [Nat.mod_eq_of_lt (by rw [Field.p_val]; omega)] at h2
  omega

/-- Two servers with 100000 keys, two repetitions: the client finds all of them. -/
example : ∃ s0 s1, exServers 2 = [s0, s1] ∧ ∃ running : Nat → List Running,
    (∀ j : Nat, launch countHost (fun _ => [s1, s0]) 2 countServer = ok (running j)) ∧
      ∃ text : List Byte, text.length = 3 ∧ ∃ rounds, clientMain countClient [s1, s0] (fun j => network (running j))
        (fun _ => order false) countFlags = ok (.counts rounds) ∧ rounds.length = 2 ∧
        ∀ j (hj : j < rounds.length), rounds[j].found.toNat = numMatching aKeys (fun ki => text <+: ki.email) := by
  obtain ⟨s0, s1, hs⟩ := exServers_two
  have hc : Config [s0, s1] := by rw [← hs]; exact exServers_config.2.2
  refine ⟨s0, s1, hs, ?_⟩
  obtain ⟨running, hr, h⟩ := C67_counts_partial countClient s0 s1 (fun _ => countHost) (fun _ => [s1, s0]) countServer 5 aKeys
    zeroRand_bounded hc (fun _ => countHost_counting) (fun _ => countWorld_prepared) (fun _ _ => List.Perm.swap _ _ _)
    (Or.inr ⟨rfl, rfl⟩) (by decide)
  obtain ⟨text, h1, -, h⟩ := h [s1, s0] (fun _ => order false) countFlags (List.Perm.swap _ _ _) (fun _ => order_fair false)
    rfl rfl (by decide) (fun _ => rfl)
  obtain ⟨rounds, e, hl, hv⟩ := h (countClient_quiet _ _)
  exact ⟨running, hr, text, h1, rounds, e, hl, hv⟩

/-- Backwards. -/
example : ∃ s0 s1, exServers 2 = [s0, s1] ∧ ∃ running : Nat → List Running,
    (∀ j : Nat, launch countHost (fun _ => [s1, s0]) 2 countServer = ok (running j)) ∧
      ∃ text : List Byte, text.length = 3 ∧ ∃ rounds, clientMain countClient [s1, s0] (fun j => network (running j))
        (fun _ => order true) countFlags = ok (.counts rounds) ∧ rounds.length = 2 ∧
        ∀ j (hj : j < rounds.length),
          (rounds[j].found.toNat + numMatching aKeys (fun ki => text <+: ki.email)) % Field.Spec.p = 0 := by
  obtain ⟨s0, s1, hs⟩ := exServers_two
  have hc : Config [s0, s1] := by rw [← hs]; exact exServers_config.2.2
  refine ⟨s0, s1, hs, ?_⟩
  obtain ⟨running, hr, h⟩ := C67_backwards countClient s0 s1 (fun _ => countHost) (fun _ => [s1, s0]) countServer 5 aKeys
    zeroRand_bounded hc (fun _ => countHost_counting) (fun _ => countWorld_prepared) (fun _ _ => List.Perm.swap _ _ _)
    (Or.inr ⟨rfl, rfl⟩) (by decide)
  obtain ⟨text, h1, -, h⟩ := h [s1, s0] (fun _ => order true) countFlags (List.Perm.swap _ _ _) (fun _ => order_fair true)
    rfl rfl (by decide) (fun _ => rfl)
  obtain ⟨rounds, e, hl, hv⟩ := h (countClient_quiet _ _)
  exact ⟨running, hr, text, h1, rounds, e, hl, fun j hj => (hv j hj).1⟩

/-- The hypothesis of `C67_keys`. -/
example : Bounded countRand ∧ Bounded zeroRand := ⟨countRand_bounded, zeroRand_bounded⟩

/-- Length 0. -/
example : ∃ s0 s1, exServers 2 = [s0, s1] ∧ ∃ running : Nat → List Running,
    (∀ j : Nat, launch countHost (fun _ => [s1, s0]) 2 countServer = ok (running j)) ∧
      (clientMain countClient [s1, s0] (fun j => network (running j)) (fun _ => order true)
        { countFlags with inputSize := 0 }).isCrash := by
  obtain ⟨s0, s1, hs⟩ := exServers_two
  have hc : Config [s0, s1] := by rw [← hs]; exact exServers_config.2.2
  refine ⟨s0, s1, hs, ?_⟩
  obtain ⟨running, hr, h⟩ := C67_empty_text countClient s0 s1 (fun _ => countHost) (fun _ => [s1, s0]) countServer 5 aKeys
    hc (fun _ => countHost_counting) (fun _ => countWorld_prepared.1) (fun _ _ => List.Perm.swap _ _ _)
    (Or.inr ⟨rfl, rfl⟩) (by decide)
  exact ⟨running, hr, h [s1, s0] (fun _ => order true) _ (List.Perm.swap _ _ _) (fun _ => order_fair true)
    rfl rfl rfl (by decide)⟩

end Verif.Simul
