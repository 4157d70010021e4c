import Verif.Lemmas.Zone
import Verif.Props.ClientStats

/-! # C101: the zones in which the servers run -/

namespace Verif.Zone
open Res Verif.Query Verif.Predicate Verif.Predicate.Spec Verif.Zone.Spec Verif.Fss Verif.Fss.Spec
open Verif.Field.Spec (p)
set_option linter.unusedSimpArgs false

/-- C101: whatever the zones of the servers, a counting query gives the number of keys asked for. -/
def C101_Statement : Prop := ∀ (W : World) (ex : Nat) (z0 z1 : Tz) (ks : List RawKey) (q : ClientFSS) (P : RawKey → Prop),
  ex = 1 ∨ ex = 5 → (∀ e, (W.hash e).length = 32) → Ready W ex → Asked W.hash q P →
  NoHits W ex (load z0 ks) q → NoHits W ex (load z1 ks) q →
  ∃ r, Zone.run W ex (load z0 ks) (load z1 ks) q = ok r ∧ r.toNat = number ks P % p

/-- What the queries ask of the keys as loaded by one server. -/
theorem asked_asks {hash : List Byte → List Byte} {q : ClientFSS} {P : RawKey → Prop} (h : Asked hash q P) (hi : ¬ ByInstant q)
    (z : Tz) (ks : List RawKey) (hy : ByYear q → ∀ k ∈ ks, SameYear z k) :
    ∃ Q, Asks hash midnight (load z ks) q Q ∧ ∀ k ∈ ks, (P k ↔ Q (keyInfo z k)) := by
  cases h with
  | email i text q ht h1 h2 h3 hv hb hq =>
    exact ⟨_, .email i text _ ht h1 h2 h3 hv hb hq, fun k _ => Iff.rfl⟩
  | algo i name n q ht h1 h2 h3 hn hq =>
    exact ⟨_, .algo i name n _ ht h1 h2 h3 hn hq, fun k _ => Iff.rfl⟩
  | creation i year q ht h1 h2 h3 hq =>
    exfalso
    apply hi
    have : q.info = i := by
      unfold toCreationTimeClientFSS at hq
      dsimp only at hq
      split at hq <;> simp at hq
      rw [← hq]
    exact ⟨by rw [this]; exact h1, by rw [this]; exact ht⟩
  | and i text q h1 h2 h3 hv hb hq =>
    have hinfo : q.info = i := by
      unfold toAndClientFSS at hq
      split at hq
      · rw [bind_eq_ok] at hq
        obtain ⟨id, -, hq⟩ := hq
        rw [ok.injEq] at hq
        rw [← hq]
      · simp at hq
      · simp at hq
    refine ⟨_, .and i text _ h1 h2 h3 hv hb (fun _ => rfl) ?_ hq, ?_⟩
    · intro ki hki
      obtain ⟨k, -, rfl⟩ := keyInfo_mem.1 hki
      exact local_year_range z k
    · intro k hk
      have := local_year_same (hy (by unfold ByYear; rw [hinfo]; exact h1) k hk) 2018
      exact and_congr this.symm Iff.rfl

/-- The kinds of queries. -/
theorem asked_info {hash : List Byte → List Byte} {q : ClientFSS} {P : RawKey → Prop} (h : Asked hash q P) :
    q.info.avg = false ∧ q.info.sum = false ∧ (q.info.and = true ∨ q.info.target ≤ 2) := by
  cases h with
  | email i text q ht h1 h2 h3 hv hb hq =>
    unfold toEmailClientFSS at hq
    rw [bind_eq_ok] at hq
    obtain ⟨id, -, hq⟩ := hq
    rw [ok.injEq] at hq
    rw [← hq]
    exact ⟨h2, h3, Or.inr (by simp [ht])⟩
  | algo i name n q ht h1 h2 h3 hn hq =>
    unfold toPKAClientFSS at hq
    dsimp only at hq
    rw [bind_eq_ok] at hq
    obtain ⟨id, -, hq⟩ := hq
    rw [ok.injEq] at hq
    rw [← hq]
    exact ⟨h2, h3, Or.inr (by simp [ht])⟩
  | creation i year q ht h1 h2 h3 hq =>
    unfold toCreationTimeClientFSS at hq
    dsimp only at hq
    split at hq <;> simp at hq
    rw [← hq]
    exact ⟨h2, h3, Or.inr (by simp [ht])⟩
  | and i text q h1 h2 h3 hv hb hq =>
    unfold toAndClientFSS at hq
    split at hq
    · rw [bind_eq_ok] at hq
      obtain ⟨id, -, hq⟩ := hq
      rw [ok.injEq] at hq
      rw [← hq]
      exact ⟨h2, h3, Or.inl h1⟩
    · simp at hq
    · simp at hq

/-- C101 (positive part): queries by e-mail and by algorithm give the right number whatever the zones of the two servers;
conjunctions with a year do if no new year separates the clocks of either server from UTC at the creation of a key. Missing:
queries by creation time (`C101_creation`, `C101_no_answer`), and keys created around New Year (`C101_local_year`,
`C101_two_zones`). -/
theorem C101_count_partial (W : World) (ex : Nat) (hex : 0 < ex) (hex20 : ex < 20) (z0 z1 : Tz) (ks : List RawKey)
    (q : ClientFSS) (P : RawKey → Prop) (hh : ∀ e, (W.hash e).length = 32) (hR : Ready W ex) (hq : Asked W.hash q P)
    (hno : NoHits W ex (load z0 ks) q) (hi : ¬ ByInstant q)
    (hy : ByYear q → ∀ k ∈ ks, SameYear z0 k ∧ SameYear z1 k) :
    ∃ r, Zone.run W ex (load z0 ks) (load z1 ks) q = ok r ∧ r.toNat = number ks P % p := by
  obtain ⟨ha, hs, ht⟩ := asked_info hq
  obtain ⟨Q, hQ, hPQ⟩ := asked_asks hq hi z0 ks (fun h k hk => (hy h k hk).1)
  obtain ⟨r, hr, hv⟩ := C21_count_partial W ex hex hex20 midnight (load z0 ks) q Q hh hR (by simp [Loaded, load]) hQ hno
  refine ⟨r, ?_, by rw [hv, number_load, number_congr hPQ]⟩
  rw [← hr]
  apply run_congr W ex z0 z1 ks q ha hs ht
  intro k hk
  by_cases h : q.info.and = true
  · refine keyId_year _ _ _ _ _ h ha ?_
    obtain ⟨y, hc⟩ := createdIn_exists k
    rw [(local_year_same (hy h k hk).1 y).2 hc, (local_year_same (hy h k hk).2 y).2 hc]
  · have h' : q.info.and = false := by simpa using h
    refine keyId_email _ _ _ _ _ h' ?_ (ht.resolve_left h)
    intro e
    exact hi ⟨h', e⟩

/-- C101: no new year separates a zone from UTC at the creation of a key that is further from New Year than the clocks of the
zone are from UTC. -/
theorem C101_margin (z : Tz) (k : RawKey) (y m : Int) (hm : -m ≤ z.offset k.created.toNat ∧ z.offset k.created.toNat ≤ m)
    (h1 : instant (startOfYear y) + m ≤ k.created.toNat) (h2 : k.created.toNat + m < instant (startOfYear (y + 1))) :
    SameYear z k := by
  intro y' hy'
  have e : y' = y := by
    have c : (local_ (fixed 0 (by decide)) k.created.toNat).year = y := by
      rw [local_year]; unfold fixed; simp only; omega
    have c' : (local_ (fixed 0 (by decide)) k.created.toNat).year = y' := by
      rw [local_year]; unfold fixed; simp only; unfold CreatedIn at hy'; omega
    rw [← c, ← c']
  subst e
  omega

/-- C101: servers in the same zone count by the clocks of that zone: a conjunction gives the number of matching keys that
were created in 2018 as their clocks showed it. -/
theorem C101_local_year (W : World) (ex : Nat) (hex : 0 < ex) (hex20 : ex < 20) (z : Tz) (ks : List RawKey)
    (i : Info) (text : List Byte) (q : ClientFSS) (h1 : i.and = true) (h2 : i.avg = false)
    (h3 : i.sum = false) (hv : EmailValid i text) (hb : emailBits i ≤ 224) (hq : toAndClientFSS W.hash midnight i text = ok q)
    (hh : ∀ e, (W.hash e).length = 32) (hR : Ready W ex) (hno : NoHits W ex (load z ks) q) :
    ∃ r, Zone.run W ex (load z ks) (load z ks) q = ok r ∧
      r.toNat = number ks (fun k => (instant (startOfYear 2018) ≤ k.created.toNat + z.offset k.created.toNat ∧
        k.created.toNat + z.offset k.created.toNat < instant (startOfYear 2019)) ∧ EmailMatches W.hash i text k.email) % p := by
  have ha : Asks W.hash midnight (load z ks) q _ := .and i text _ h1 h2 h3 hv hb (fun _ => rfl) (by
    intro ki hki
    obtain ⟨k, -, rfl⟩ := keyInfo_mem.1 hki
    exact local_year_range z k) hq
  obtain ⟨r, hr, hv⟩ := C21_count_partial W ex hex hex20 midnight (load z ks) q _ hh hR (by simp [Loaded, load]) ha hno
  refine ⟨r, hr, ?_⟩
  rw [hv, number_load]
  congr 1
  apply number_congr
  intro k _
  exact and_congr (local_year z _ 2018) Iff.rfl

/-- C101: the bytes of midnight UTC of any day: version 1, the seconds since 1 January of year 1, no nanoseconds, and -1
minutes for the location. -/
theorem C101_midnight (d : Int) (hd : startOfYear 1 ≤ d) (hd' : d < startOfYear 10000) :
    (midnight d).bin = ok ([1] ++ beBytes 8 ((d - startOfYear 1) * 86400).toNat ++ [0, 0, 0, 0] ++ [255, 255]) := by
  unfold midnight marshal epoch
  have e1 : startOfYear 1 = 366 := by decide
  have e2 : startOfYear 1970 = 719528 := by decide
  have e3 : startOfYear 10000 = 3652425 := by decide
  have e : (BitVec.ofInt 64 ((d - startOfYear 1970) * 86400 + 62135596800)).toNat = ((d - startOfYear 1) * 86400).toNat := by
    rw [BitVec.toNat_ofInt, e1, e2, show (d - 719528) * 86400 + 62135596800 = (d - 366) * 86400 by ring]
    rw [e1] at hd
    rw [e3] at hd'
    congr 1
    exact Int.emod_eq_of_lt (by linarith) (by
      have : ((2 ^ 64 : Nat) : Int) = 18446744073709551616 := by norm_num
      rw [this]
      linarith)
  rw [e]
  have e4 : beBytes 4 0 = [0, 0, 0, 0] := by decide
  have e5 : beBytes 2 (BitVec.ofInt 16 (-1)).toNat = [255, 255] := by decide
  rw [e4, e5]

/-- The hypotheses of `C101_midnight`: 1 January 2020. -/
example : (midnight (startOfYear 2020)).bin = ok [1, 0, 0, 0, 0x0e, 0xd5, 0x9d, 0xd8, 0, 0, 0, 0, 0, 255, 255] := by
  rw [C101_midnight _ (by decide) (by decide)]
  decide

/-- The encoding of the client's time. -/
theorem creation_query {i : Info} {year : Int} {q : ClientFSS} (hq : toCreationTimeClientFSS midnight i year = ok q) :
    q = ⟨i, (marshal ((dateDay year 0 0 - epoch) * 86400) (-1)).flatMap Utils.bits8⟩ := by
  unfold toCreationTimeClientFSS at hq
  dsimp only at hq
  have e : idForCreationTime (midnight (dateDay year 0 0)) =
      ok ((marshal ((dateDay year 0 0 - epoch) * 86400) (-1)).flatMap Utils.bits8) := by
    unfold idForCreationTime midnight
    simp only [ok_bind, Utils.byteToBits_eq]
  rw [e] at hq
  simp only [ok.injEq] at hq
  exact hq.symm

/-- C101: no key, whenever it was created and whatever the zone of the server, is encoded as the client encodes a time: a
query by creation time matches no key. -/
theorem C101_never (z : Tz) (k : RawKey) (i : Info) (year : Int) (q : ClientFSS)
    (hq : toCreationTimeClientFSS midnight i year = ok q) : idForCreationTime (keyInfo z k).creation ≠ ok q.input := by
  intro h
  rw [creation_query hq] at h
  unfold idForCreationTime at h
  rw [bind_eq_ok] at h
  obtain ⟨b, hb, h⟩ := h
  rw [Utils.byteToBits_eq, ok.injEq] at h
  exact local_ne_midnight z _ (dateDay year 0 0) b hb (by rw [Utils.flatMap_bits8_inj h]; rfl)

/-- C101: a query by creation time to servers whose clocks agree, whole minutes from UTC, gives 0, whatever the keys. -/
theorem C101_creation (W : World) (ex : Nat) (hex : 0 < ex) (hex20 : ex < 20) (z0 z1 : Tz) (ks : List RawKey)
    (i : Info) (year : Int) (q : ClientFSS) (ht : i.target = 1) (h1 : i.and = false) (h2 : i.avg = false) (h3 : i.sum = false)
    (hq : toCreationTimeClientFSS midnight i year = ok q) (hh : ∀ e, (W.hash e).length = 32) (hR : Ready W ex)
    (hno : NoHits W ex (load z0 ks) q)
    (hz : ∀ k ∈ ks, z0.offset k.created.toNat = z1.offset k.created.toNat ∧ z0.offset k.created.toNat % 60 = 0 ∧
      z0.offset k.created.toNat ≠ -60) :
    Zone.run W ex (load z0 ks) (load z1 ks) q = ok 0 := by
  have hq' := creation_query hq
  have hinfo : q.info = i := by rw [hq']
  have ha : Asks W.hash midnight (load z0 ks) q _ := .creation i year _ _ ht h1 h2 h3 rfl (by simp) (by
    intro ki hki
    obtain ⟨k, hk, rfl⟩ := keyInfo_mem.1 hki
    obtain ⟨-, hz1, hz2⟩ := hz k hk
    refine ⟨marshal k.created.toNat (z0.offset k.created.toNat / 60), ?_, by simp⟩
    unfold keyInfo local_
    dsimp only
    rw [if_neg (by simpa using hz1), if_neg (by omega)]) hq
  obtain ⟨r, hr, hv⟩ := C21_count_partial W ex hex hex20 midnight (load z0 ks) q _ hh hR (by simp [Loaded, load]) ha hno
  rw [run_congr W ex z0 z1 ks q (by rw [hinfo]; exact h2) (by rw [hinfo]; exact h3) (by rw [hinfo]; right; omega)
    (fun k hk => keyId_instant _ _ _ _ _ (hz k hk).1), hr]
  congr 1
  apply BitVec.eq_of_toNat_eq
  rw [hv, number_load]
  have : number ks (fun k => (keyInfo z0 k).creation.bin = (midnight (dateDay year 0 0)).bin) = 0 := by
    unfold number
    rw [List.countP_eq_zero]
    intro k _ hk
    simp only [decide_eq_true_eq] at hk
    exact local_ne_midnight z0 _ _ _ (show (local_ z0 _).bin = ok _ from hk) rfl
  erw [this]
  rfl

/-- C101: a server in a zone that was no whole number of minutes from UTC when some key was created cannot answer a query by
creation time. -/
theorem C101_no_answer (W : World) (ex : Nat) (sn : Byte) (z : Tz) (ks : List RawKey) (m : Msg) (ht : m.info.target = 1)
    (h1 : m.info.and = false) (h2 : m.info.avg = false) (h3 : m.info.sum = false) (k : RawKey) (hk : k ∈ ks)
    (hz : z.offset k.created.toNat % 60 ≠ 0) (a : List Byte) : W.serve sn ex (load z ks) m ≠ ok a := by
  intro h
  obtain ⟨i, hi, rfl⟩ := List.getElem_of_mem hk
  have hsel : keyId W.hash m.info (keyInfo z ks[i]) = crash "impossible to marshal creation date" := by
    unfold keyId selCreation idForCreationTime keyInfo local_
    simp only [h1, ht, Bool.false_and, Bool.false_eq_true, if_false]
    rw [if_pos hz]
    rfl
  have key : ∀ env sn s t, countLoop env sn (load z ks) m.key (keyId W.hash m.info) s ≠ ok t := by
    intro env sn s t hc
    unfold countLoop at hc
    obtain ⟨s', t', hb⟩ := forLoop_each hc i hi
    rw [idx_of_lt (by simpa [load] using hi)] at hb
    have e : (load z ks).keys[i]'(by simpa [load] using hi) = keyInfo z ks[i] := by simp [load]
    rw [e, ok_bind, hsel] at hb
    simp at hb
  unfold World.serve at h
  simp only [answer_count h2 h3 (Or.inr (by omega))] at h
  split at h <;> simp only [bind_eq_ok] at h <;> obtain ⟨x, ⟨s, hs, -⟩, -⟩ := h <;> exact key _ _ _ _ hs

/-- C101: what the interactive client shows for the keys created before a year is 0, whatever the keys and the year, if the
servers' zone was whole minutes from UTC at all times. -/
theorem C101_shown_zero {net : Client.Net} {S : Client.Schedule} (hS : Client.Spec.Fair S) {W : World} {gob : Msg → List Byte}
    {z : Tz} {ks : List RawKey} {info : Cmd.DbInfo} {a0 a1 : String}
    (hnet : Client.Spec.PredicateServers net W gob 5 (load z ks) info a0 a1) (hW : Client.Spec.StatsReady W 5 (load z ks))
    (hz : ∀ t, z.offset t % 60 = 0 ∧ z.offset t ≠ -60) (year : String) (y : Int) (hy : Cmd.Spec.Numeral year y)
    (hpos : 0 ≤ y)
    (hno : Client.Spec.Undisturbed W 5 (load z ks) (Client.interactiveQuery W.hash midnight (.countCreation year))) :
    Client.showStats W gob midnight net S [a0, a1] (.countCreation year) =
      ok ("Result of all emails created before year '" ++ year ++ "': 0.\n Type enter to continue.") := by
  have hbin : ∀ k : RawKey, (keyInfo z k).creation.bin = ok (marshal k.created.toNat (z.offset k.created.toNat / 60)) := by
    intro k
    have := hz k.created.toNat
    unfold keyInfo local_
    dsimp only
    rw [if_neg (by omega), if_neg (by omega)]
  rw [Client.C63_created_before hS hnet hW midnight year y hy hpos _ rfl (by simp) (by
    intro ki hki
    obtain ⟨k, hk, rfl⟩ := keyInfo_mem.1 hki
    exact ⟨_, hbin k, by simp⟩) hno, number_load]
  have : number ks (fun k => (keyInfo z k).creation.bin = ok (marshal ((dateDay (y - 1) 11 30 - epoch) * 86400) (-1))) = 0 := by
    unfold number
    rw [List.countP_eq_zero]
    intro k _ hk
    simp only [decide_eq_true_eq] at hk
    exact local_ne_midnight z _ _ _ (show (local_ z _).bin = ok _ from hk) rfl
  erw [this]
  rw [String.append_assoc, String.append_assoc, String.append_assoc, String.append_assoc,
    show "': " ++ (toString 0 ++ ".\n Type enter to continue.") = "': 0.\n Type enter to continue." by decide]

/-! ### Concrete zones -/

/-- Clocks that show UTC. -/
def utc : Tz := fixed 0 (by decide)

/-- Clocks one hour east. -/
def cet : Tz := fixed 3600 (by decide)

/-- Clocks 44 minutes and 30 seconds west, as in Liberia until 1972. -/
def monrovia : Tz := fixed (-2670) (by decide)

/-- A key created on 31 December 2018 at 23:30 UTC. -/
def lateKey : RawKey := ⟨[97], BitVec.ofNat 32 1546299000, 1⟩

/-- A key created on 30 November 2018 at midnight UTC. -/
def novemberKey : RawKey := ⟨[97], BitVec.ofNat 32 1543536000, 1⟩

/-- A key created in the summer of 2018. -/
def summerKey : RawKey := ⟨[97], BitVec.ofNat 32 1530000000, 1⟩

/-- A cipher that mixes the bits of each byte of the seed. -/
def mixCipher : Cipher := fun i s => s.map (fun b => b * b + 3 * b + 1 + BitVec.ofNat 8 i)

theorem mixCipher_block : BlockCipher mixCipher := by
  intro i s hs; simpa [mixCipher] using hs

/-- Keys created in 2018 whose e-mail begins with `a`. -/
def andQuery : ClientFSS := ⟨⟨0, 1, 0, true, false, false⟩, (putBE32 2018 ++ [97]).flatMap Utils.bits8⟩

theorem andQuery_eq : toAndClientFSS exHash midnight ⟨0, 1, 0, true, false, false⟩ [97] = ok andQuery := by
  unfold toAndClientFSS
  rw [idForEmail_prefix (n := 1) (by omega) rfl]
  unfold idForYearCreationTime
  have : (midnight (dateDay 2019 0 0)).year = 2018 := by decide
  rw [this, Utils.byteToBits_eq]
  rfl

theorem andQuery_asked : Asked exHash andQuery
    (fun k => CreatedIn k 2018 ∧ EmailMatches exHash ⟨0, 1, 0, true, false, false⟩ [97] k.email) :=
  .and _ [97] _ rfl rfl rfl (by simp [EmailValid]) (by simp [emailBits]) andQuery_eq

/-- The query for 2019 by creation time. -/
def novemberQuery : ClientFSS :=
  ⟨⟨1, 0, 0, false, false, false⟩, (marshal ((dateDay 2019 0 0 - epoch) * 86400) (-1)).flatMap Utils.bits8⟩

theorem novemberQuery_asked : Asked exHash novemberQuery (fun k => (k.created.toNat : Int) = instant (dateDay 2019 0 0)) :=
  .creation _ 2019 _ rfl rfl rfl rfl (by
    unfold toCreationTimeClientFSS idForCreationTime midnight
    simp only [ok_bind, Utils.byteToBits_eq]
    rfl)

/-- What a run returns, or its error. -/
def outcome : Res U32 → Option U32 × String
  | ok v => (some v, "")
  | err m => (none, m)
  | crash m => (none, "panic: " ++ m)

/-- C101: two honest servers in different zones make the client reject. -/
theorem C101_two_zones :
    outcome (Zone.run (world mixCipher 5 0 0) 5 (load utc [lateKey]) (load cet [lateKey]) andQuery) = (none, "REJECT") := by
  decide +kernel

/-- C101: a server with clocks 44 minutes and 30 seconds off cannot answer. -/
example (m : Msg) (h : m.info = novemberQuery.info) (W : World) (a : List Byte) :
    W.serve 0 5 (load monrovia [summerKey]) m ≠ ok a :=
  C101_no_answer W 5 0 monrovia [summerKey] m (by rw [h]; rfl) (by rw [h]; rfl) (by rw [h]; rfl) (by rw [h]; rfl) summerKey
    (by simp) (by simp [monrovia, fixed]) a

/-- C101 is false: a key created at the very instant the client asks for is not counted, with all parties in UTC. -/
theorem C101_refuted : ¬ C101_Statement := by
  intro H
  obtain ⟨r, hr, hv⟩ := H (world mixCipher 1 0 0) 1 utc utc [novemberKey] novemberQuery _ (Or.inl rfl) exHash_length
    (world_ready1 _ mixCipher_block _ _) novemberQuery_asked (noHits_small _ _ (by omega) _ _) (noHits_small _ _ (by omega) _ _)
  rw [C101_creation (world mixCipher 1 0 0) 1 (by omega) (by omega) utc utc [novemberKey] ⟨1, 0, 0, false, false, false⟩ 2019
    novemberQuery rfl rfl rfl rfl (by
      unfold toCreationTimeClientFSS idForCreationTime midnight
      simp only [ok_bind, Utils.byteToBits_eq]
      rfl) exHash_length (world_ready1 _ mixCipher_block _ _) (noHits_small _ _ (by omega) _ _)
    (by intro k _; simp [utc, fixed])] at hr
  have e : number [novemberKey] (fun k => (k.created.toNat : Int) = instant (dateDay 2019 0 0)) = 1 := by
    have : (novemberKey.created.toNat : Int) = instant (dateDay 2019 0 0) := by decide
    simp [number, this]
  rw [e] at hv
  simp only [ok.injEq] at hr
  rw [← hr] at hv
  simp [p] at hv

/-- C101 would be false without queries by creation time, too. -/
theorem C101_year_refuted : ¬ ∀ (W : World) (z0 z1 : Tz) (ks : List RawKey) (q : ClientFSS) (P : RawKey → Prop),
    (∀ e, (W.hash e).length = 32) → Ready W 1 → Asked W.hash q P → ByYear q →
    ∃ r, Zone.run W 1 (load z0 ks) (load z1 ks) q = ok r ∧ r.toNat = number ks P % p := by
  intro H
  obtain ⟨r, hr, hv⟩ := H (world mixCipher 1 0 0) cet cet [lateKey] andQuery _ exHash_length
    (world_ready1 _ mixCipher_block _ _) andQuery_asked rfl
  obtain ⟨r', hr', hv'⟩ := C101_local_year (world mixCipher 1 0 0) 1 (by omega) (by omega) cet [lateKey]
    ⟨0, 1, 0, true, false, false⟩ [97] andQuery rfl rfl rfl (by simp [EmailValid]) (by simp [emailBits]) andQuery_eq
    exHash_length (world_ready1 _ mixCipher_block _ _) (noHits_small _ _ (by omega) _ _)
  have e' : number [lateKey] (fun k => (instant (startOfYear 2018) ≤ k.created.toNat + cet.offset k.created.toNat ∧
        k.created.toNat + cet.offset k.created.toNat < instant (startOfYear 2019)) ∧
          EmailMatches exHash ⟨0, 1, 0, true, false, false⟩ [97] k.email) = 0 := by
    have : ¬ ((lateKey.created.toNat : Int) + cet.offset lateKey.created.toNat < instant (startOfYear 2019)) := by
      unfold cet fixed; decide
    simp [number, this]
  rw [hr] at hr'
  simp only [ok.injEq] at hr'
  rw [← hr', hv] at hv'
  have hv'' := hv'.trans (congrArg (· % p) e')
  have e : number [lateKey] (fun k => CreatedIn k 2018 ∧
      EmailMatches exHash ⟨0, 1, 0, true, false, false⟩ [97] k.email) = 1 := by
    have h1 : CreatedIn lateKey 2018 := by unfold CreatedIn; decide
    have h2 : EmailMatches exHash ⟨0, 1, 0, true, false, false⟩ [97] lateKey.email := by decide
    unfold number
    rw [List.countP_singleton, if_pos (by simp only [decide_eq_true_eq]; exact ⟨h1, h2⟩)]
  rw [e] at hv''
  simp [p] at hv''

/-- The hypotheses of `C101_count_partial` are met: a key created in summer, servers in two zones, both kinds of clients. -/
example : ∃ r, Zone.run (world mixCipher 1 0 0) 1 (load utc [summerKey]) (load cet [summerKey]) andQuery = ok r ∧
    r.toNat = number [summerKey] (fun k => CreatedIn k 2018 ∧
      EmailMatches exHash ⟨0, 1, 0, true, false, false⟩ [97] k.email) % p :=
  C101_count_partial _ 1 (by omega) (by omega) utc cet [summerKey] andQuery _ exHash_length
    (world_ready1 _ mixCipher_block _ _) andQuery_asked (noHits_small _ _ (by omega) _ _) (by simp [ByInstant, andQuery])
    (fun _ k hk => by
      rw [List.mem_singleton] at hk
      subst hk
      exact ⟨C101_margin utc _ 2018 3600 (by decide) (by decide) (by decide),
        C101_margin cet _ 2018 3600 (by decide) (by decide) (by decide)⟩)

example : ∃ r, Zone.run (world parityCipher 5 0 0) 5 (load utc [summerKey]) (load cet [summerKey]) andQuery = ok r ∧
    r.toNat = number [summerKey] (fun k => CreatedIn k 2018 ∧
      EmailMatches exHash ⟨0, 1, 0, true, false, false⟩ [97] k.email) % p :=
  C101_count_partial _ 5 (by omega) (by omega) utc cet [summerKey] andQuery _ exHash_length
    (world_ready5 _ parityCipher_block _ _) andQuery_asked (world_noHits _ _ _ _ _) (by simp [ByInstant, andQuery])
    (fun _ k hk => by
      rw [List.mem_singleton] at hk
      subst hk
      exact ⟨C101_margin utc _ 2018 3600 (by decide) (by decide) (by decide),
        C101_margin cet _ 2018 3600 (by decide) (by decide) (by decide)⟩)

/-- The interactive client shows 0 although a key was created at the instant it asks for. -/
example : Client.showStats (world parityCipher 5 0 0) Client.exGob midnight
    (Client.statsNet (world parityCipher 5 0 0) 5 (load utc [novemberKey])) (Client.order false) ["a", "b"]
    (.countCreation "2019") =
      ok ("Result of all emails created before year '" ++ "2019" ++ "': 0.\n Type enter to continue.") ∧
    (novemberKey.created.toNat : Int) = instant (dateDay 2019 0 0) :=
  ⟨C101_shown_zero (Client.order_fair false) (Client.statsNet_spec _ 5 _)
    ⟨exHash_length, world_ready5 _ parityCipher_block _ _, by simp [Loaded, load], by simp [load, p]⟩
    (by intro t; simp [utc, fixed]) "2019" 2019 ((Cmd.atoi_iff _ _).1 rfl) (by decide) (fun q _ => world_noHits _ _ _ _ q), by decide⟩

end Verif.Zone
