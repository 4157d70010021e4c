import Verif.Props.Predicate

/-! # C22: average queries -/

namespace Verif.Predicate
open Res Verif.Field Verif.Field.Spec Verif.Fss Verif.Fss.Spec Verif.Query Verif.Rand Verif.Predicate.Spec
/-! ### C22: averages -/

/-- The keys an average query is about, at year `now`: those whose e-mail matches, except keys from the future. -/
def averaged (hash : List Byte → List Byte) (i : Info) (text : List Byte) (now : Int) (db : KeyDB) :
    List KeyInfo :=
  db.keys.filter (fun ki => decide (EmailMatches hash i text ki.email ∧ ki.creation.year ≤ now))

/-- The sum of the ages in years. -/
def totalAge (now : Int) (l : List KeyInfo) : Nat := (l.map (fun ki => (now - ki.creation.year).toNat)).sum

/-- A usable average query, asked of a database at year `now` by both servers. -/
structure AsksAvg (W : World) (i : Info) (text : List Byte) (now : Int) (db : KeyDB) (q : ClientFSS) : Prop where
  and : i.and = true
  avg : i.avg = true
  sum : i.sum = false
  valid : EmailValid i text
  bits : emailBits i ≤ 256
  built : toEmailClientFSS W.hash i text = ok q
  clock0 : ∀ j, W.now0 j = now
  clock1 : ∀ j, W.now1 j = now
  ages : ∀ ki ∈ db.keys, now - ki.creation.year < 2 ^ 32

/-- C22, full statement: with honest servers whose clocks agree on the year, the result is the integer average of
the ages of the matching keys; when no key matches, an error is reported. -/
def C22_Statement : Prop :=
  ∀ (W : World) (ex : Nat) (i : Info) (text : List Byte) (now : Int) (db : KeyDB) (q : ClientFSS),
    (ex = 1 ∨ ex = 5) → (∀ e, (W.hash e).length = 32) → Ready W ex → Loaded db → AsksAvg W i text now db q →
    NoHits W ex db q →
    (averaged W.hash i text now db).length < p → totalAge now (averaged W.hash i text now db) < p →
    (averaged W.hash i text now db = [] → (W.run ex db q true).isErr) ∧
    (averaged W.hash i text now db ≠ [] → ∃ r, W.run ex db q true = ok r ∧
      r.toNat = totalAge now (averaged W.hash i text now db) / (averaged W.hash i text now db).length)

theorem avg_value (W : World) (ex : Nat) (hex : 0 < ex) (hex20 : ex < 20) (i : Info) (text : List Byte) (now : Int)
    (db : KeyDB) (q : ClientFSS) (hh : ∀ e, (W.hash e).length = 32) (hR : Ready W ex) (hdb : Loaded db)
    (hq : AsksAvg W i text now db q) (hno : NoHits W ex db q) :
    W.run ex db q true = divU32 (BitVec.ofNat 32 (totalAge now (averaged W.hash i text now db) % p))
      (BitVec.ofNat 32 ((averaged W.hash i text now db).length % p)) := by
  have hbuilt := hq.built
  unfold toEmailClientFSS at hbuilt
  rw [idForEmail_sel hh hq.valid] at hbuilt
  obtain ⟨id, hid⟩ := emailSel_valid (hash := W.hash) hq.valid
  simp only [ok_bind, hid, ok.injEq, orNil, Option.getD_some] at hbuilt
  subst hbuilt
  have hl := emailSel_length hh hq.valid hid
  rw [avg_run hex hex20 hR hdb hq.avg hq.sum hq.and hno (f := fun ki => emailSel W.hash i ki.email)
    (by
      intro ki _
      simp only [keyId, hq.and, hq.avg, Bool.not_true, Bool.and_false, Bool.false_eq_true, if_false, if_true]
      exact idForEmail_sel hh hq.valid ki.email)
    (by
      intro ki _ id' hid'
      rw [emailSel_length hh hq.valid hid', hl])
    (by rw [hl]; exact hq.bits) hq.clock0 hq.clock1 hq.ages]
  have hf : db.keys.filter (fun ki => decide (emailSel W.hash i ki.email = some id ∧ ki.creation.year ≤ now)) =
      averaged W.hash i text now db := by
    unfold averaged
    apply List.filter_congr
    intro ki _
    rw [← hid]
    simp only [emailSel_eq hq.valid]
  simp only at hf ⊢
  rw [hf]
  rfl

/-- C22 (positive part): when at least one key matches and the totals are below the modulus, the result is the
integer average. Missing: databases without a matching key (see `C22_no_match_crashes`) and runs in which a derived
value equals the modulus. -/
theorem C22_average_partial (W : World) (ex : Nat) (hex : 0 < ex) (hex20 : ex < 20) (i : Info) (text : List Byte)
    (now : Int) (db : KeyDB) (q : ClientFSS) (hh : ∀ e, (W.hash e).length = 32) (hR : Ready W ex) (hdb : Loaded db)
    (hq : AsksAvg W i text now db q) (hno : NoHits W ex db q)
    (hne : averaged W.hash i text now db ≠ []) (hlen : (averaged W.hash i text now db).length < p)
    (hsum : totalAge now (averaged W.hash i text now db) < p) :
    ∃ r, W.run ex db q true = ok r ∧
      r.toNat = totalAge now (averaged W.hash i text now db) / (averaged W.hash i text now db).length := by
  rw [avg_value W ex hex hex20 i text now db q hh hR hdb hq hno, Nat.mod_eq_of_lt hlen, Nat.mod_eq_of_lt hsum]
  have hpos := List.length_pos_iff.mpr hne
  generalize (averaged W.hash i text now db).length = c at *
  generalize totalAge now (averaged W.hash i text now db) = s at *
  rw [p_val] at *
  have hc : (BitVec.ofNat 32 c).toNat = c := by rw [BitVec.toNat_ofNat]; omega
  have hs : (BitVec.ofNat 32 s).toNat = s := by rw [BitVec.toNat_ofNat]; omega
  unfold divU32
  rw [if_neg]
  · exact ⟨_, rfl, by rw [BitVec.toNat_udiv, hc, hs]⟩
  · intro h
    have := congrArg BitVec.toNat h
    rw [hc] at this
    simp at this
    omega

/-- C22: when no key matches (or their number is a multiple of the modulus) the client panics with a division by
zero. -/
theorem C22_no_match_crashes (W : World) (ex : Nat) (hex : 0 < ex) (hex20 : ex < 20) (i : Info) (text : List Byte)
    (now : Int) (db : KeyDB) (q : ClientFSS) (hh : ∀ e, (W.hash e).length = 32) (hR : Ready W ex) (hdb : Loaded db)
    (hq : AsksAvg W i text now db q) (hno : NoHits W ex db q)
    (hlen : (averaged W.hash i text now db).length % p = 0) :
    (W.run ex db q true).isCrash := by
  rw [avg_value W ex hex hex20 i text now db q hh hR hdb hq hno, hlen]
  simp [divU32]

/-- A database with one key, created in year 0. -/
def avgDB : KeyDB := ⟨2, [⟨[1, 2, 3], dayTime 0, 1⟩, ⟨[9, 2, 4], dayTime 0, 1⟩]⟩

/-- A suffix query for an average. -/
def avgInfo : Info := ⟨0, 0, 2, true, true, false⟩

theorem avgAsks (ex : Nat) (text : List Byte) (h : 2 ≤ text.length) :
    AsksAvg (world parityCipher ex 10 10) avgInfo text 10 avgDB
      ⟨avgInfo, (text.drop (text.length - 2)).flatMap Utils.bits8⟩ :=
  ⟨rfl, rfl, rfl, by simp [EmailValid, avgInfo]; omega, by simp [emailBits, avgInfo], by
    unfold toEmailClientFSS
    rw [idForEmail_suffix (n := 2) (by omega) rfl rfl, if_pos (by omega)]
    rfl, fun _ => rfl, fun _ => rfl, by
    intro ki hki
    have : ki.creation.year = 0 := by
      simp only [avgDB, List.mem_cons, List.not_mem_nil, or_false] at hki
      rcases hki with rfl | rfl <;> decide
    rw [this]
    norm_num⟩

/-- A run that meets the hypotheses: one of two keys matches. -/
example : averaged exHash avgInfo [2, 3] 10 avgDB ≠ [] := by decide

theorem C22_refuted : ¬ C22_Statement := by
  intro H
  have hemp : averaged exHash avgInfo [7, 7] 10 avgDB = [] := by decide
  have hash_eq : (world parityCipher 5 10 10).hash = exHash := rfl
  have hq := avgAsks 5 [7, 7] (by simp)
  have hR := world_ready5 parityCipher parityCipher_block 10 10
  have hno := world_noHits 10 10 5 avgDB ⟨avgInfo, (([7, 7] : List Byte).drop (([7, 7] : List Byte).length - 2)).flatMap Utils.bits8⟩
  have hl : Loaded avgDB := rfl
  have hh : ∀ e, ((world parityCipher 5 10 10).hash e).length = 32 := exHash_length
  generalize world parityCipher 5 10 10 = W at *
  have h := (H W 5 avgInfo [7, 7] 10 avgDB _ (Or.inr rfl) hh hR hl hq hno
    (by rw [hash_eq, hemp]; norm_num [p]) (by rw [hash_eq, hemp]; norm_num [p, totalAge])).1
    (by rw [hash_eq, hemp])
  have hc := C22_no_match_crashes W 5 (by omega) (by omega) avgInfo [7, 7] 10 avgDB _
    hh hR hl hq hno (by rw [hash_eq, hemp]; norm_num)
  generalize W.run 5 avgDB _ true = R at h hc
  cases R <;> simp at h hc

/-- A cipher that changes the bytes of the seed. -/
def stepCipher : Cipher := fun i s => s.map (fun b => b + 1 + BitVec.ofNat 8 i)

/-- One key, created in year 0. -/
def skewDB : KeyDB := ⟨1, [⟨[3], dayTime 0, 1⟩]⟩

/-- The average age of the keys whose e-mail ends in byte 3. -/
def skewQuery : ClientFSS := ⟨⟨0, 0, 1, true, true, false⟩, [3].flatMap Utils.bits8⟩

/-- Honest servers whose clocks read the years `n0` and `n1`. -/
def skewRun (n0 n1 : Int) : Option U32 :=
  match (world stepCipher 5 n0 n1).run 5 skewDB skewQuery true with
  | ok v => some v
  | _ => none

/-- C22: the hypothesis that the servers agree on the year is needed: around New Year honest servers can make the
client reject a query that otherwise gives the average. -/
theorem C22_clock_skew_no_result : skewRun 10 11 = none ∧ skewRun 10 10 = some 10 := by
  constructor <;> decide +kernel

end Verif.Predicate
