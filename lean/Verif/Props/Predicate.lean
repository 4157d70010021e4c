import Verif.Lemmas.PredicateRun
import Verif.Props.Query

/-! # C21, C25: counting queries -/

namespace Verif.Predicate
open Res Verif.Field Verif.Field.Spec Verif.Fss Verif.Fss.Spec Verif.Query Verif.Rand Verif.Predicate.Spec
open Classical in
/-- The number of keys satisfying a predicate. -/
noncomputable def numMatching (db : KeyDB) (P : KeyInfo → Prop) : Nat := db.keys.countP (fun ki => decide (P ki))

/-- The selectors of the keys decide the predicate asked for. -/
theorem asks_selectors {hash : List Byte → List Byte} (hh : ∀ e, (hash e).length = 32) {mk : Int → Time}
    {db : KeyDB} {q : ClientFSS} {P : KeyInfo → Prop} (h : Asks hash mk db q P) :
    q.info.avg = false ∧ q.info.sum = false ∧ (q.info.and = true ∨ q.info.target ≤ 2) ∧ q.input.length ≤ 256 ∧
    ∃ f : KeyInfo → Option (List Bool), (∀ ki ∈ db.keys, keyId hash q.info ki = ok (f ki)) ∧
      (∀ ki ∈ db.keys, ∀ id, f ki = some id → id.length = q.input.length) ∧
      ∀ ki ∈ db.keys, (f ki = some q.input ↔ P ki) := by
  cases h with
  | email i text q ht h1 h2 h3 hv hb hq =>
    unfold toEmailClientFSS at hq
    rw [idForEmail_sel hh hv] at hq
    obtain ⟨id, hid⟩ := emailSel_valid (hash := hash) hv
    simp only [ok_bind, hid, ok.injEq, orNil, Option.getD_some] at hq
    subst hq
    have hl := emailSel_length hh hv hid
    refine ⟨h2, h3, Or.inr (by simp [ht]), by simpa using hl ▸ hb, fun ki => emailSel hash i ki.email, ?_, ?_, ?_⟩
    · intro ki _
      simp only [keyId, h1, ht]
      simp only [Bool.false_and, Bool.false_eq_true, if_false, if_true]
      exact idForEmail_sel hh hv ki.email
    · intro ki _ id' hid'
      rw [emailSel_length hh hv hid', hl]
    · intro ki _
      rw [← hid]
      exact emailSel_eq hv ki.email
  | algo i name n q ht h1 h2 h3 hn hq =>
    have hpka : ∃ pka : Byte, pka.toNat = n ∧ q = ⟨i, [pka].flatMap Utils.bits8⟩ := by
      unfold toPKAClientFSS at hq
      simp only [idForPubKeyAlgo_eq, ok_bind, ok.injEq] at hq
      refine ⟨_, ?_, hq.symm⟩
      unfold algoNumber at hn
      split at hn <;> simp only [Option.some.injEq, reduceCtorEq] at hn <;> subst hn <;> decide
    obtain ⟨pka, hpn, rfl⟩ := hpka
    refine ⟨h2, h3, Or.inr (by simp [ht]), by rw [bits_length]; simp,
      fun ki => some ([ki.algo].flatMap Utils.bits8), ?_, ?_, ?_⟩
    · intro ki _
      simp only [keyId, h1, ht, Bool.false_and, Bool.false_eq_true, if_false, if_true]
      rw [if_neg (by omega)]
      unfold selAlgo
      rw [idForPubKeyAlgo_eq]
      rfl
    · intro ki _ id hid
      simp only [Option.some.injEq] at hid
      rw [← hid, bits_length, bits_length]
      rfl
    · intro ki _
      constructor
      · intro h
        simp only [Option.some.injEq] at h
        have := Utils.flatMap_bits8_inj h
        simp only [List.cons.injEq, and_true] at this
        show ki.algo.toNat = n
        rw [this, hpn]
      · intro h
        have : ki.algo = pka := BitVec.eq_of_toNat_eq (by simp only at h; omega)
        show some ([ki.algo].flatMap Utils.bits8) = _
        rw [this]
  | creation i year b q ht h1 h2 h3 hb hl hdb hq =>
    unfold toCreationTimeClientFSS idForCreationTime at hq
    simp only [hb, ok_bind, Utils.byteToBits_eq, ok.injEq] at hq
    subst hq
    refine ⟨h2, h3, Or.inr (by simp [ht]), by rw [bits_length]; omega,
      fun ki => some ((match ki.creation.bin with | ok b => b | _ => []).flatMap Utils.bits8), ?_, ?_, ?_⟩
    · intro ki hki
      simp only [keyId, h1, ht, Bool.false_and, Bool.false_eq_true, if_false]
      rw [if_neg (by omega), if_neg (by omega)]
      unfold selCreation idForCreationTime
      obtain ⟨b', hb', -⟩ := hdb ki hki
      rw [hb']
      simp [Utils.byteToBits_eq]
    · intro ki hki id hid
      obtain ⟨b', hb', hbl⟩ := hdb ki hki
      beta_reduce at hid
      rw [hb'] at hid
      simp only [Option.some.injEq] at hid
      rw [← hid, bits_length, bits_length, hbl]
    · intro ki hki
      obtain ⟨b', hb', hbl⟩ := hdb ki hki
      beta_reduce
      rw [hb']
      constructor
      · intro h
        simp only [Option.some.injEq] at h
        rw [Utils.flatMap_bits8_inj h]
      · intro h
        simp only [ok.injEq] at h
        rw [h]
  | and i text q h1 h2 h3 hv hb hmk hdb hq =>
    have hy : (mk (dateDay 2019 0 0)).year = 2018 := by
      unfold Time.year
      rw [hmk, year_dateDay_zero]
      norm_num
    unfold toAndClientFSS at hq
    rw [idForYear_eq, hy, idForEmail_sel hh hv] at hq
    obtain ⟨id, hid⟩ := emailSel_valid (hash := hash) hv
    simp only [ok_bind, hid, ok.injEq, orNil, Option.getD_some] at hq
    subst hq
    have hl := emailSel_length hh hv hid
    have hyl : ∀ y : U32, ((putBE32 y).flatMap Utils.bits8).length = 32 := by
      intro y; rw [bits_length]; simp
    refine ⟨h2, h3, Or.inl h1, by simp only [List.length_append, hyl]; omega,
      fun ki => (emailSel hash i ki.email).map
        (fun id => (putBE32 (BitVec.ofInt 32 ki.creation.year)).flatMap Utils.bits8 ++ id), ?_, ?_, ?_⟩
    · intro ki _
      simp only [keyId, h1, h2, Bool.not_false, Bool.and_self, if_true]
      unfold selAnd
      rw [idForYear_eq, idForEmail_sel hh hv]
      simp only [ok_bind]
      cases emailSel hash i ki.email <;> rfl
    · intro ki _ id' hid'
      rw [Option.map_eq_some_iff] at hid'
      obtain ⟨id2, h4, rfl⟩ := hid'
      simp only [List.length_append, hyl]
      rw [emailSel_length hh hv h4, hl]
    · intro ki hki
      rw [Option.map_eq_some_iff]
      beta_reduce
      rw [← emailSel_eq hv]
      have hyear := C26_year ki.creation (mk (dateDay 2019 0 0)) (hdb ki hki) (by rw [hy]; norm_num)
      rw [idForYear_eq, idForYear_eq, hy] at hyear
      constructor
      · rintro ⟨id2, h4, h5⟩
        obtain ⟨h6, h7⟩ := List.append_inj h5 (by rw [hyl, hyl])
        exact ⟨hyear.2.mp (by rw [h6]), by rw [h4, h7, hid]⟩
      · rintro ⟨h4, h5⟩
        refine ⟨id, by rw [h5, hid], ?_⟩
        rw [h4]

/-- C21, full statement: for the unauthenticated (one component) and the authenticated (five components) scheme,
a counting query with two honest servers returns the number of matching keys modulo 2^31 - 1. -/
def C21_Statement : Prop :=
  ∀ (W : World) (ex : Nat) (mk : Int → Time) (db : KeyDB) (q : ClientFSS) (P : KeyInfo → Prop),
    (ex = 1 ∨ ex = 5) → (∀ e, (W.hash e).length = 32) → Ready W ex → Loaded db → Asks W.hash mk db q P →
    ∃ r, W.run ex db q true = ok r ∧ r.toNat = numMatching db P % p

theorem numMatching_eq {db : KeyDB} {P : KeyInfo → Prop} {f : KeyInfo → Option (List Bool)} {a : List Bool}
    (h : ∀ ki ∈ db.keys, (f ki = some a ↔ P ki)) :
    db.keys.countP (fun ki => decide (f ki = some a)) = numMatching db P := by
  unfold numMatching
  apply List.countP_congr
  intro ki hki
  simp only [decide_eq_true_eq]
  exact h ki hki

/-- C21 (positive part): the result is the number of matching keys, and the client does not reject, for every
number of components below 20, every database, every query and every randomness, provided no 31-bit value
derived from the seeds reached equals the modulus. Missing: exactly those runs (see `C21_refuted`). -/
theorem C21_count_partial (W : World) (ex : Nat) (hex : 0 < ex) (hex20 : ex < 20) (mk : Int → Time) (db : KeyDB)
    (q : ClientFSS) (P : KeyInfo → Prop) (hh : ∀ e, (W.hash e).length = 32) (hR : Ready W ex) (hdb : Loaded db)
    (hq : Asks W.hash mk db q P) (hno : NoHits W ex db q) :
    ∃ r, W.run ex db q true = ok r ∧ r.toNat = numMatching db P % p := by
  obtain ⟨h1, h2, h3, h4, f, hsel, hlen, hP⟩ := asks_selectors hh hq
  obtain ⟨r, hr, hv⟩ := (count_run hex hex20 hR hdb h1 h2 h3 hno hsel hlen h4).1
  exact ⟨r, hr, by rw [hv, numMatching_eq hP]⟩

/-- C21 for the unauthenticated scheme, without any proviso: one component uses no derived value, so the result is
always the number of matching keys. -/
theorem C21_count_unauthenticated (W : World) (mk : Int → Time) (db : KeyDB)
    (q : ClientFSS) (P : KeyInfo → Prop) (hh : ∀ e, (W.hash e).length = 32) (hR : Ready W 1) (hdb : Loaded db)
    (hq : Asks W.hash mk db q P) :
    ∃ r, W.run 1 db q true = ok r ∧ r.toNat = numMatching db P % p :=
  C21_count_partial W 1 (by omega) (by omega) mk db q P hh hR hdb hq (noHits_small W 1 (by omega) db q)

/-! ### Concrete worlds -/

/-- A hash for the examples. -/
def exHash (e : List Byte) : List Byte := (e ++ List.replicate 32 0).take 32

theorem exHash_length (e : List Byte) : (exHash e).length = 32 := by simp [exHash]

/-- A world built from a cipher; the servers' fresh randomness differs. -/
def world (E : Cipher) (ex : Nat) (n0 n1 : Int) : World where
  hash := exHash
  env := ⟨E, fun _ => 0, 1⟩
  env0 := fun _ => ⟨E, fun _ => 1, 1⟩
  env1 := fun _ => ⟨E, fun _ => 2, 1⟩
  now0 := fun _ => n0
  now1 := fun _ => n1
  fuel := 2
  rnd := ⟨fun i => BitVec.ofNat 8 i, 0⟩
  buf := initFss ex
  buf0 := initFss ex
  buf1 := initFss ex
  r1 := List.replicate 17 3
  r2 := List.replicate 16 4

theorem world_ready5 (E : Cipher) (hE : BlockCipher E) (n0 n1 : Int) : Ready (world E 5 n0 n1) 5 :=
  ⟨hE, fun _ => rfl, fun _ => rfl, initFss_ok 5, initFss_ok 5, initFss_ok 5, by simp [world], by simp [world],
    by
      have h : (match drawKeys 2 5 ⟨fun i => BitVec.ofNat 8 i, 0⟩ with | ok _ => true | _ => false) = true := by
        decide +kernel
      revert h
      change _ → ∃ k, drawKeys 2 5 ⟨fun i => BitVec.ofNat 8 i, 0⟩ = ok k
      cases drawKeys 2 5 ⟨fun i => BitVec.ofNat 8 i, 0⟩ with
      | ok k => intro _; exact ⟨k, rfl⟩
      | err m => intro h; simp at h
      | crash m => intro h; simp at h⟩

theorem world_ready1 (E : Cipher) (hE : BlockCipher E) (n0 n1 : Int) : Ready (world E 1 n0 n1) 1 :=
  ⟨hE, fun _ => rfl, fun _ => rfl, initFss_ok 1, initFss_ok 1, initFss_ok 1, by simp [world], by simp [world],
    ⟨_, rfl⟩⟩

theorem world_noHits (n0 n1 : Int) (ex : Nat) (db : KeyDB) (q : ClientFSS) :
    NoHits (world parityCipher ex n0 n1) ex db q :=
  ⟨fun _ _ => ⟨parityCipher_noHit _ _, parityCipher_noHit _ _⟩,
    fun _ _ _ _ _ _ _ _ _ _ _ _ _ _ => parityCipher_noHit _ _⟩

/-- A key of an algorithm. -/
def exKey (algo : Byte) : KeyInfo := ⟨[1, 2, 3], dayTime 0, algo⟩

/-- Three keys, two of them RSA. -/
def exDB : KeyDB := ⟨3, [exKey 1, exKey 17, exKey 1]⟩

/-- The query for RSA keys. -/
def exQuery : ClientFSS := ⟨⟨2, 0, 0, false, false, false⟩, [1].flatMap Utils.bits8⟩

theorem exQuery_asks (hash : List Byte → List Byte) (db : KeyDB) :
    Asks hash dayTime db exQuery (fun ki => ki.algo.toNat = 1) :=
  .algo ⟨2, 0, 0, false, false, false⟩ "RSA" 1 exQuery rfl rfl rfl rfl rfl (by
    unfold toPKAClientFSS
    simp only [idForPubKeyAlgo_eq, ok_bind]
    rfl)

theorem exDB_count : numMatching exDB (fun ki => ki.algo.toNat = 1) = 2 := by
  unfold numMatching
  rw [show exDB.keys = [exKey 1, exKey 17, exKey 1] from rfl]
  rw [List.countP_cons_of_pos (by simp [exKey]), List.countP_cons_of_neg (by simp [exKey]),
    List.countP_cons_of_pos (by simp [exKey])]
  rfl

/-- A run of the authenticated scheme that meets the hypotheses: two of three keys match. -/
example : ∃ r, (world parityCipher 5 0 0).run 5 exDB exQuery true = ok r ∧ r.toNat = 2 := by
  have := C21_count_partial (world parityCipher 5 0 0) 5 (by omega) (by omega) dayTime exDB exQuery _ exHash_length
    (world_ready5 _ parityCipher_block _ _) rfl (exQuery_asks _ _) (world_noHits _ _ _ _ _)
  rwa [exDB_count, p_val] at this

/-- A prefix query and a conjunction can be asked, too. -/
example : Asks exHash dayTime exDB ⟨⟨0, 2, 0, false, false, false⟩, [1, 2].flatMap Utils.bits8⟩
    (fun ki => EmailMatches exHash ⟨0, 2, 0, false, false, false⟩ [1, 2, 9] ki.email) :=
  .email _ [1, 2, 9] _ rfl rfl rfl rfl (by simp [EmailValid]) (by simp [emailBits]) (by
    unfold toEmailClientFSS
    rw [idForEmail_prefix (n := 2) (by omega) rfl]
    rfl)

/-- One run in which every derived value equals the modulus: does the client reject? -/
def hitRejects : Bool :=
  match (world hitCipher 5 0 0).run 5 ⟨1, [exKey 17]⟩ exQuery true with
  | err _ => true
  | _ => false

/-- C21 is false: with honest servers the client can reject. When a derived value equals the modulus, the two
servers replace it by independent randomness. -/
theorem C21_refuted : ¬ C21_Statement := by
  intro H
  obtain ⟨r, hr, -⟩ := H (world hitCipher 5 0 0) 5 dayTime ⟨1, [exKey 17]⟩ exQuery _ (Or.inr rfl) exHash_length
    (world_ready5 _ (by intro i s hs; simp [hitCipher, hs]) _ _) rfl (exQuery_asks _ _)
  have : hitRejects = true := by decide +kernel
  unfold hitRejects at this
  rw [hr] at this
  simp at this

/-! ### C25: connection order -/

/-- C25, full statement: the result does not depend on the order in which the connections are enumerated. -/
def C25_Statement : Prop :=
  ∀ (W : World) (ex : Nat) (mk : Int → Time) (db : KeyDB) (q : ClientFSS) (P : KeyInfo → Prop),
    (ex = 1 ∨ ex = 5) → (∀ e, (W.hash e).length = 32) → Ready W ex → Loaded db → Asks W.hash mk db q P →
    NoHits W ex db q → W.run ex db q false = W.run ex db q true

/-- C25: when the connections are enumerated in the other order, the result is accepted and is minus the number of
matching keys, so it is right only if that number is a multiple of the modulus. -/
theorem C25_exchanged_partial (W : World) (ex : Nat) (hex : 0 < ex) (hex20 : ex < 20) (mk : Int → Time) (db : KeyDB)
    (q : ClientFSS) (P : KeyInfo → Prop) (hh : ∀ e, (W.hash e).length = 32) (hR : Ready W ex) (hdb : Loaded db)
    (hq : Asks W.hash mk db q P) (hno : NoHits W ex db q) :
    ∃ r, W.run ex db q false = ok r ∧ (r.toNat + numMatching db P) % p = 0 := by
  obtain ⟨h1, h2, h3, h4, f, hsel, hlen, hP⟩ := asks_selectors hh hq
  obtain ⟨r, hr, hv⟩ := (count_run hex hex20 hR hdb h1 h2 h3 hno hsel hlen h4).2
  exact ⟨r, hr, by rw [← numMatching_eq hP]; exact hv⟩

theorem C25_refuted : ¬ C25_Statement := by
  intro H
  have h := H (world parityCipher 5 0 0) 5 dayTime exDB exQuery _ (Or.inr rfl) exHash_length
    (world_ready5 _ parityCipher_block _ _) rfl (exQuery_asks _ _) (world_noHits _ _ _ _ _)
  obtain ⟨r, hr, hv⟩ := C21_count_partial (world parityCipher 5 0 0) 5 (by omega) (by omega) dayTime exDB exQuery _
    exHash_length (world_ready5 _ parityCipher_block _ _) rfl (exQuery_asks _ _) (world_noHits _ _ _ _ _)
  obtain ⟨r', hr', hv'⟩ := C25_exchanged_partial (world parityCipher 5 0 0) 5 (by omega) (by omega) dayTime exDB
    exQuery _ exHash_length (world_ready5 _ parityCipher_block _ _) rfl (exQuery_asks _ _) (world_noHits _ _ _ _ _)
  rw [hr, hr'] at h
  simp only [ok.injEq] at h
  subst h
  rw [exDB_count] at hv hv'
  rw [p_val] at hv hv'
  omega

end Verif.Predicate
