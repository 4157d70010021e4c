import Verif.Lemmas.ClientStats
import Verif.Lemmas.Numeral
import Verif.Props.PredicateText
import Verif.Props.Client
import Mathlib.Logic.Equiv.List

/-! # C63: the numbers shown by the client programs -/

set_option linter.unusedSimpArgs false

namespace Verif.Client
open Res Verif.Cmd Verif.Query Verif.Client.Spec Verif.Predicate Verif.Predicate.Spec
open Verif.Field.Spec (p)

theorem bytes_ne_nil {s : String} (h : s ≠ "") : bytes s ≠ [] := by
  intro hb
  apply h
  unfold bytes at hb
  rw [List.map_eq_nil_iff, Array.toList_eq_nil_iff] at hb
  apply String.toByteArray_inj.mp
  apply ByteArray.ext
  rw [show s.toByteArray.data = #[] from hb]
  rfl

theorem count_small {db : KeyDB} (h : db.keys.length < p) (P : KeyInfo → Prop) :
    numMatching db P % p = numMatching db P :=
  Nat.mod_eq_of_lt (lt_of_le_of_lt List.countP_le_length h)

/-- The number of executions of the authenticated scheme. -/
theorem executions : Field.concurrentExecutions + 1 = 5 := rfl

section
variable {net : Net} {S : Schedule} (hS : Fair S) {W : World} {gob : Msg → List Byte} {db : KeyDB} {info : DbInfo}
  {a0 a1 : String} (hnet : PredicateServers net W gob 5 db info a0 a1) (hW : StatsReady W 5 db)
include hS hnet hW

theorem text_shown {b : Bool} {text : List Byte} (ht : text ≠ []) (hpl : Plain db text)
    (hno : Undisturbed W 5 db (toEmailClientFSS W.hash (textInfo b text) text)) :
    ∃ q r, toEmailClientFSS W.hash (textInfo b text) text = ok q ∧ executeStatsQuery W gob net S [a0, a1] q = ok r ∧
      r.toNat = numMatching db (fun ki => AtEnd b text ki.email) := by
  have hq := text_query (hash := W.hash) hW.hash (b := b) ht
  obtain ⟨r, hr, hv⟩ := C21_ascii_partial W 5 (by decide) (by decide) db b text _ hW.hash hW.ready hW.loaded ht hq
    (hno _ hq) hpl
  exact ⟨_, r, hq, stats_run hS hnet hr, by rw [hv, count_small hW.small]⟩

theorem asked_shown {mk : Int → Time} {q : ClientFSS} {P : KeyInfo → Prop} (hq : Asks W.hash mk db q P)
    (hno : NoHits W 5 db q) :
    ∃ r, executeStatsQuery W gob net S [a0, a1] q = ok r ∧ r.toNat = numMatching db P := by
  obtain ⟨r, hr, hv⟩ := C21_count_partial W 5 (by decide) (by decide) mk db q P hW.hash hW.ready hW.loaded hq hno
  exact ⟨r, stats_run hS hnet hr, by rw [hv, count_small hW.small]⟩

/-- C63 (positive part), web page: counting e-mails that begin or end with a text. Missing: runs in which a derived value
equals the modulus, and long texts that are not ASCII. -/
theorem C63_web_email_partial (req : Request) (hparse : req.parse = ok ()) (begins : Bool)
    (hpos : req.value "position" = if begins then "begin" else "end") (ht : req.value "text" ≠ "")
    (hpl : Plain db (bytes (req.value "text")))
    (hno : Undisturbed W 5 db (toEmailClientFSS W.hash (textInfo begins (bytes (req.value "text")))
      (bytes (req.value "text")))) :
    ∃ r, handleCountEmail W.hash (executeStatsQuery W gob net S [a0, a1]) req = ok [.count r] ∧
      r.toNat = numMatching db (fun ki => AtEnd begins (bytes (req.value "text")) ki.email) := by
  obtain ⟨q, r, hq, hr, hv⟩ := text_shown hS hnet hW (bytes_ne_nil ht) hpl hno
  refine ⟨r, ?_, hv⟩
  unfold handleCountEmail
  rw [hparse]
  dsimp only
  rw [hpos, if_neg (by cases begins <;> decide), if_neg ht, if_neg (by cases begins <;> decide)]
  have hi : (⟨0, if (if begins then "begin" else "end") = "begin" then ((bytes (req.value "text")).length : Int) else 0,
      if (if begins then "begin" else "end") = "begin" then 0 else ((bytes (req.value "text")).length : Int), false, false,
      false⟩ : Info) = textInfo begins (bytes (req.value "text")) := by
    cases begins <;> simp [textInfo]
  rw [hi, hq, ok_bind, hr]

/-- C63 (positive part), web page: counting the keys of an algorithm. Missing: as above. -/
theorem C63_web_algo_partial (req : Request) (hparse : req.parse = ok ()) (n : Nat)
    (hn : algoNumber (req.value "algo") = some n)
    (hno : Undisturbed W 5 db (toPKAClientFSS ⟨2, 0, 0, false, false, false⟩ (req.value "algo"))) :
    ∃ r, handleCountAlgo (executeStatsQuery W gob net S [a0, a1]) req = ok [.count r] ∧
      r.toNat = numMatching db (fun ki => ki.algo.toNat = n) := by
  obtain ⟨q, hq⟩ : ∃ q, toPKAClientFSS ⟨2, 0, 0, false, false, false⟩ (req.value "algo") = ok q := by
    unfold toPKAClientFSS
    simp only [idForPubKeyAlgo_eq, ok_bind]
    exact ⟨_, rfl⟩
  obtain ⟨r, hr, hv⟩ := asked_shown hS hnet hW (mk := dayTime) (.algo _ _ n q rfl rfl rfl rfl hn hq) (hno q hq)
  refine ⟨r, ?_, hv⟩
  unfold handleCountAlgo
  rw [hparse]
  dsimp only
  rw [if_neg (by intro h; rw [h] at hn; simp [algoNumber] at hn), hq, ok_bind, hr]

/-- C63, web page: counting by year shows the number of keys created at one instant, which is not in that year (C27). -/
theorem C63_web_timestamp (mk : Int → Time) (req : Request) (hparse : req.parse = ok ()) (y : Int)
    (hy : Cmd.Spec.Numeral (req.value "year") y) (b : List Byte) (hb : (mk (dateDay y 0 0)).bin = ok b)
    (hl : b.length ≤ 32) (hdb : ∀ ki ∈ db.keys, ∃ b', ki.creation.bin = ok b' ∧ b'.length = b.length)
    (hno : Undisturbed W 5 db (toCreationTimeClientFSS mk ⟨1, 0, 0, false, false, false⟩ y)) :
    ∃ r, handleCountTimestamp mk (executeStatsQuery W gob net S [a0, a1]) req = ok [.count r] ∧
      r.toNat = numMatching db (fun ki => ki.creation.bin = ok b) := by
  rw [← Cmd.atoi_iff] at hy
  obtain ⟨q, hq⟩ : ∃ q, toCreationTimeClientFSS mk ⟨1, 0, 0, false, false, false⟩ y = ok q := by
    unfold toCreationTimeClientFSS idForCreationTime
    simp only [hb, ok_bind, Utils.byteToBits_eq]
    exact ⟨_, rfl⟩
  obtain ⟨r, hr, hv⟩ := asked_shown hS hnet hW (mk := mk) (.creation _ y b q rfl rfl rfl rfl hb hl hdb hq) (hno q hq)
  refine ⟨r, ?_, hv⟩
  unfold handleCountTimestamp
  rw [hparse]
  dsimp only
  rw [if_neg (by intro h; rw [h] at hy; simp [atoi] at hy)]
  unfold toCreationTime
  rw [hy]
  dsimp only
  rw [hq, ok_bind, hr]

/-! ### The interactive client -/

/-- C63 (positive part), interactive client: the line printed is true when it is about e-mails that begin or end with some
text, or about an algorithm. Missing: the empty text (`C63_empty_text`), long texts that are not ASCII, and runs in which
a derived value equals the modulus; the counts by year (`C63_created_before`) are wrong. -/
theorem C63_interactive_partial (mk : Int → Time) (c : Choice)
    (hc : match c with
      | .countEmail _ text => text ≠ "" ∧ Plain db (bytes text)
      | .countAlgo name => name ∈ ["RSA", "ElGamal", "DSA", "ECDH", "ECDSA"]
      | _ => False)
    (hno : Undisturbed W 5 db (interactiveQuery W.hash mk c)) :
    showStats W gob mk net S [a0, a1] c = ok ("Result of " ++ caption c ++ ": " ++ toString (numMatching db (Said c)) ++
      ".\n Type enter to continue.") := by
  have key : ∀ q r, interactiveQuery W.hash mk c = ok q → executeStatsQuery W gob net S [a0, a1] q = ok r →
      r.toNat = numMatching db (Said c) → showStats W gob mk net S [a0, a1] c =
        ok ("Result of " ++ caption c ++ ": " ++ toString (numMatching db (Said c)) ++ ".\n Type enter to continue.") := by
    intro q r hq hr hv
    unfold showStats getStats
    rw [hq, ok_bind, hr, ok_bind, hv]
  cases c with
  | countEmail b text =>
    obtain ⟨ht, hpl⟩ := hc
    have hi : interactiveQuery W.hash mk (.countEmail b text) =
        toEmailClientFSS W.hash (textInfo b (bytes text)) (bytes text) := by
      unfold interactiveQuery textInfo
      cases b <;> rfl
    rw [hi] at hno
    obtain ⟨q, r, hq, hr, hv⟩ := text_shown hS hnet hW (bytes_ne_nil ht) hpl hno
    exact key q r (by rw [hi, hq]) hr hv
  | countAlgo name =>
    obtain ⟨n, hn⟩ : ∃ n, algoNumber name = some n := by
      simp only [List.mem_cons, List.not_mem_nil, or_false] at hc
      rcases hc with rfl | rfl | rfl | rfl | rfl <;> exact ⟨_, rfl⟩
    obtain ⟨q, hq⟩ : ∃ q, toPKAClientFSS ⟨2, 0, 0, false, false, false⟩ name = ok q := by
      unfold toPKAClientFSS
      simp only [idForPubKeyAlgo_eq, ok_bind]
      exact ⟨_, rfl⟩
    obtain ⟨r, hr, hv⟩ := asked_shown hS hnet hW (mk := mk) (.algo _ _ n q rfl rfl rfl rfl hn hq) (hno q hq)
    refine key q r hq hr ?_
    rw [hv]
    congr 1
    funext ki
    simp only [Said, hn, Option.some.injEq, eq_iff_iff]
    exact eq_comm
  | countCreation year => exact hc.elim
  | avgEmail b text => exact hc.elim

/-- C63: with the empty text the interactive client counts the keys whose address has the digest of the empty string,
although every address begins and ends with the empty text. -/
theorem C63_empty_text (mk : Int → Time) (begins : Bool)
    (hno : Undisturbed W 5 db (interactiveQuery W.hash mk (.countEmail begins ""))) :
    ∃ r, getStats W gob mk net S [a0, a1] (.countEmail begins "") = ok r ∧
      r.toNat = numMatching db (fun ki => digest16 W.hash [] = digest16 W.hash ki.email) := by
  obtain ⟨q, hq⟩ : ∃ q, toEmailClientFSS W.hash ⟨0, 0, 0, false, false, false⟩ [] = ok q := by
    unfold toEmailClientFSS
    rw [idForEmail_sel (t := []) hW.hash (by simp [EmailValid]), ok_bind]
    exact ⟨_, rfl⟩
  have hi : interactiveQuery W.hash mk (.countEmail begins "") =
      toEmailClientFSS W.hash ⟨0, 0, 0, false, false, false⟩ [] := by
    unfold interactiveQuery
    cases begins <;> rfl
  obtain ⟨r, hr, hv⟩ := asked_shown hS hnet hW (mk := mk) (.email ⟨0, 0, 0, false, false, false⟩ [] q rfl rfl rfl rfl
    (by simp [EmailValid]) (by simp [emailBits]) hq) (hno q (by rw [hi, hq]))
  refine ⟨r, ?_, ?_⟩
  · unfold getStats
    rw [hi, hq, ok_bind, hr]
  · rw [hv]
    congr 1

/-- C63: the number that the interactive client calls, in the line printed, the keys created before a year is the number of
keys created at one instant, midnight on 30 November of the previous year (C27). -/
theorem C63_created_before (mk : Int → Time) (year : String) (y : Int) (hy : Cmd.Spec.Numeral year y) (hpos : 0 ≤ y)
    (b : List Byte) (hb : (mk (dateDay (y - 1) 11 30)).bin = ok b) (hl : b.length ≤ 32)
    (hdb : ∀ ki ∈ db.keys, ∃ b', ki.creation.bin = ok b' ∧ b'.length = b.length)
    (hno : Undisturbed W 5 db (interactiveQuery W.hash mk (.countCreation year))) :
    showStats W gob mk net S [a0, a1] (.countCreation year) = ok ("Result of all emails created before year '" ++ year ++
      "': " ++ toString (numMatching db (fun ki => ki.creation.bin = ok b)) ++ ".\n Type enter to continue.") := by
  rw [← Cmd.atoi_iff] at hy
  rw [← (C27_query_day y).1] at hb
  obtain ⟨q, hq⟩ : ∃ q, toCreationTimeClientFSS mk ⟨1, 0, 0, false, false, false⟩ y = ok q := by
    unfold toCreationTimeClientFSS idForCreationTime
    simp only [hb, ok_bind, Utils.byteToBits_eq]
    exact ⟨_, rfl⟩
  have hi : interactiveQuery W.hash mk (.countCreation year) = ok q := by
    unfold interactiveQuery toCreationTime
    simp only [hy]
    rw [if_neg (by omega), hq]
  obtain ⟨r, hr, hv⟩ := asked_shown hS hnet hW (mk := mk) (.creation _ y b q rfl rfl rfl rfl hb hl hdb hq) (hno q hi)
  unfold showStats getStats
  rw [hi, ok_bind, hr, ok_bind, hv]
  unfold caption
  rw [show "Result of all emails created before year '" = "Result of " ++ "all emails created before year '" by decide,
    show "': " = "'" ++ ": " by decide]
  simp only [String.append_assoc]

/-- The keys that an average over addresses with this text is about, at year `now`. -/
noncomputable def averagedText (b : Bool) (text : List Byte) (now : Int) (db : KeyDB) : List KeyInfo :=
  haveI := Classical.propDecidable
  db.keys.filter (fun ki => decide (AtEnd b text ki.email ∧ ki.creation.year ≤ now))

omit hS hnet in
theorem avg_asks {mk : Int → Time} {b : Bool} {text : String} (ht : text ≠ "") (hl : (bytes text).length ≤ 32)
    {now : Int} (hc0 : ∀ j, W.now0 j = now) (hc1 : ∀ j, W.now1 j = now)
    (hage : ∀ ki ∈ db.keys, now - ki.creation.year < 2 ^ 32) :
    ∃ i q, interactiveQuery W.hash mk (.avgEmail b text) = ok q ∧ AsksAvg W i (bytes text) now db q ∧
      averaged W.hash i (bytes text) now db = averagedText b (bytes text) now db := by
  have hpos : 0 < (bytes text).length := List.length_pos_iff.mpr (bytes_ne_nil ht)
  have hne : ((bytes text).length : Int) ≠ 0 := by omega
  refine ⟨⟨0, if b then (bytes text).length else 0, if b then 0 else (bytes text).length, true, true, false⟩, ?_⟩
  have hv : EmailValid ⟨0, if b then (bytes text).length else 0, if b then 0 else (bytes text).length, true, true, false⟩
      (bytes text) := by
    cases b <;> simp [EmailValid]
  obtain ⟨id, hid⟩ := emailSel_valid (hash := W.hash) hv
  have hq : interactiveQuery W.hash mk (.avgEmail b text) = ok ⟨⟨0, if b then (bytes text).length else 0,
      if b then 0 else (bytes text).length, true, true, false⟩, id⟩ := by
    unfold interactiveQuery toEmailClientFSS
    dsimp only
    rw [idForEmail_sel hW.hash hv, ok_bind, hid]
    rfl
  refine ⟨_, hq, ⟨rfl, rfl, rfl, hv, ?_, hq, hc0, hc1, hage⟩, ?_⟩
  · cases b <;> simp [emailBits, bytes_ne_nil ht] <;> omega
  · unfold averaged averagedText
    apply List.filter_congr
    intro ki _
    rw [decide_eq_decide]
    apply and_congr_left'
    cases b <;> simp [EmailMatches, AtEnd, bytes_ne_nil ht]

/-- C63 (positive part), interactive client: the average shown is the average age, in years, of the keys with such an
address. Missing: when there is no such key (`C63_no_average`), the empty text, long texts, and runs in which a derived
value equals the modulus. -/
theorem C63_average_partial (mk : Int → Time) (begins : Bool) (text : String) (ht : text ≠ "")
    (hl : (bytes text).length ≤ 32) (now : Int) (hc0 : ∀ j, W.now0 j = now) (hc1 : ∀ j, W.now1 j = now)
    (hage : ∀ ki ∈ db.keys, now - ki.creation.year < 2 ^ 32)
    (hne : averagedText begins (bytes text) now db ≠ [])
    (hsum : totalAge now (averagedText begins (bytes text) now db) < p)
    (hno : Undisturbed W 5 db (interactiveQuery W.hash mk (.avgEmail begins text))) :
    showStats W gob mk net S [a0, a1] (.avgEmail begins text) = ok ("Result of " ++ caption (.avgEmail begins text) ++ ": " ++
      toString (totalAge now (averagedText begins (bytes text) now db) / (averagedText begins (bytes text) now db).length) ++
      ".\n Type enter to continue.") := by
  obtain ⟨i, q, hq, ha, he⟩ := avg_asks hW (mk := mk) (b := begins) ht hl hc0 hc1 hage
  rw [← he] at hne hsum ⊢
  obtain ⟨r, hr, hv⟩ := C22_average_partial W 5 (by decide) (by decide) i (bytes text) now db q hW.hash hW.ready hW.loaded ha
    (hno q hq) hne (lt_of_le_of_lt (List.length_filter_le _ _) hW.small) hsum
  unfold showStats getStats
  rw [hq, ok_bind, stats_run hS hnet hr, ok_bind, hv]

/-- C63: when no key has such an address, asking for the average ends the interactive client. -/
theorem C63_no_average (mk : Int → Time) (begins : Bool) (text : String) (ht : text ≠ "")
    (hl : (bytes text).length ≤ 32) (now : Int) (hc0 : ∀ j, W.now0 j = now) (hc1 : ∀ j, W.now1 j = now)
    (hage : ∀ ki ∈ db.keys, now - ki.creation.year < 2 ^ 32)
    (hnone : ∀ ki ∈ db.keys, AtEnd begins (bytes text) ki.email → now < ki.creation.year)
    (hno : Undisturbed W 5 db (interactiveQuery W.hash mk (.avgEmail begins text))) :
    (showStats W gob mk net S [a0, a1] (.avgEmail begins text)).isCrash := by
  obtain ⟨i, q, hq, ha, he⟩ := avg_asks hW (mk := mk) (b := begins) ht hl hc0 hc1 hage
  have hz : averagedText begins (bytes text) now db = [] := by
    unfold averagedText
    rw [List.filter_eq_nil_iff]
    intro ki hki h
    simp only [decide_eq_true_eq] at h
    have := hnone ki hki h.1
    omega
  have hc := C22_no_match_crashes W 5 (by decide) (by decide) i (bytes text) now db q hW.hash hW.ready hW.loaded ha
    (hno q hq) (by rw [he, hz]; rfl)
  have := complex_crash hS hnet hc
  unfold showStats getStats
  rw [hq, ok_bind, stats_infos hS hnet]
  rw [executions]
  revert this
  generalize complexResult W gob 5 2 (runQueriesActor net S [a0, a1]) q = R
  cases R <;> simp

end

/-! ### The command line -/

theorem options_query {hash : List Byte → List Byte} (hh : ∀ e, (hash e).length = 32) {mk : Int → Time} {db : KeyDB}
    {f : Flags} {P : KeyInfo → Prop} (h : OptionsAsk hash mk db f P) :
    ∃ q, complexQuery hash mk f = ok q ∧ Asks hash mk db q P := by
  cases h with
  | email ht h1 h2 hs he hl hl' =>
    have hv : EmailValid ⟨0, f.fromStart, f.fromEnd, f.and, false, false⟩ (bytes f.id) := ⟨hs.1, hs.2, he.1, he.2⟩
    obtain ⟨id, hid⟩ := emailSel_valid (hash := hash) hv
    have hq : toEmailClientFSS hash ⟨0, f.fromStart, f.fromEnd, f.and, false, false⟩ (bytes f.id) =
        ok ⟨⟨0, f.fromStart, f.fromEnd, f.and, false, false⟩, id⟩ := by
      unfold toEmailClientFSS
      rw [idForEmail_sel hh hv, ok_bind, hid]
      rfl
    refine ⟨_, ?_, .email _ (bytes f.id) _ rfl h1 rfl rfl hv ?_ hq⟩
    · unfold complexQuery
      rw [h1, h2, ht, h1] at *
      exact hq
    · unfold emailBits
      dsimp only
      split
      · omega
      · split <;> omega
  | algo n ht h1 h2 hn =>
    obtain ⟨q, hq⟩ : ∃ q, toPKAClientFSS ⟨2, 0, 0, false, false, false⟩ f.id = ok q := by
      unfold toPKAClientFSS
      simp only [idForPubKeyAlgo_eq, ok_bind]
      exact ⟨_, rfl⟩
    refine ⟨q, ?_, .algo _ f.id n q rfl rfl rfl rfl hn hq⟩
    unfold complexQuery
    rw [h1, h2, ht]
    exact hq
  | creation y b ht h1 h2 hy hb hl hdb =>
    obtain ⟨q, hq⟩ : ∃ q, toCreationTimeClientFSS mk ⟨1, 0, 0, false, false, false⟩ y = ok q := by
      unfold toCreationTimeClientFSS idForCreationTime
      simp only [hb, ok_bind, Utils.byteToBits_eq]
      exact ⟨_, rfl⟩
    refine ⟨q, ?_, .creation _ y b q rfl rfl rfl rfl hb hl hdb hq⟩
    unfold complexQuery
    rw [h1, h2, ht]
    show toCreationTime mk ⟨1, 0, 0, false, false, false⟩ f.id = ok q
    unfold toCreationTime
    rw [(Cmd.atoi_iff _ _).2 hy]
    exact hq
  | and h1 h2 hid hl hmk hdb =>
    have hpos : 0 < (bytes f.id).length := List.length_pos_iff.mpr hid
    have hv : EmailValid ⟨0, 0, (bytes f.id).length, f.and, false, false⟩ (bytes f.id) := by simp [EmailValid]
    obtain ⟨id, hs⟩ := emailSel_valid (hash := hash) hv
    obtain ⟨q, hq⟩ : ∃ q, toAndClientFSS hash mk ⟨0, 0, (bytes f.id).length, f.and, false, false⟩ (bytes f.id) = ok q := by
      unfold toAndClientFSS idForYearCreationTime
      rw [Utils.byteToBits_eq]
      dsimp only
      rw [idForEmail_sel hh hv, ok_bind]
      exact ⟨_, rfl⟩
    have hne : ((bytes f.id).length : Int) ≠ 0 := by omega
    refine ⟨q, ?_, ?_⟩
    · unfold complexQuery
      rw [h1, h2] at *
      exact hq
    · have := Asks.and (hash := hash) (mk := mk) (db := db) _ (bytes f.id) q h1 rfl rfl hv (by
        simp [emailBits, hid]; omega) hmk hdb hq
      simpa [EmailMatches, hid] using this

section
variable {net : Net} {S : Schedule} (hS : Fair S) {W : World} {gob : Msg → List Byte} {ex : Nat} {db : KeyDB}
  {info : DbInfo} {a0 a1 : String} (hnet : PredicateServers net W gob ex db info a0 a1) (hne : a0 ≠ a1)
  (hW : StatsReady W ex db)
include hS hnet hne hW

/-- C63 (positive part), command line: both schemes print the number of keys asked for if the map of connections is
enumerated in the order of the server numbers. Missing: the other order (`C63_exchanged`), and runs of the authenticated
scheme in which a derived value equals the modulus. -/
theorem C63_command_line_partial (L : Lib) (mk : Int → Time) (f : Flags) (typed : String)
    (hf : f.scheme = "complexPIR" ∧ ex = 1 ∨ f.scheme = "complexVPIR" ∧ ex = 5) (P : KeyInfo → Prop)
    (hask : OptionsAsk W.hash mk db f P) (hno : Undisturbed W ex db (complexQuery W.hash mk f))
    (hord : S.conns [a0, a1] = [a0, a1]) :
    ∃ r, main L W gob mk net S [a0, a1] f typed = ok (.count r) ∧ r.toNat = numMatching db P := by
  obtain ⟨q, hq, ha⟩ := options_query hW.hash hask
  have hex : 0 < ex ∧ ex < 20 := by rcases hf with ⟨-, rfl⟩ | ⟨-, rfl⟩ <;> decide
  obtain ⟨r, hr, hv⟩ := C21_count_partial W ex hex.1 hex.2 mk db q P hW.hash hW.ready hW.loaded ha (hno q hq)
  exact ⟨r, main_run hS hnet hne hf hq (inOrder := true) hord hr, by rw [hv, count_small hW.small]⟩

/-- C63: if the map of connections is enumerated in the other order, the number printed is minus the count modulo
2^31 - 1. -/
theorem C63_exchanged (L : Lib) (mk : Int → Time) (f : Flags) (typed : String)
    (hf : f.scheme = "complexPIR" ∧ ex = 1 ∨ f.scheme = "complexVPIR" ∧ ex = 5) (P : KeyInfo → Prop)
    (hask : OptionsAsk W.hash mk db f P) (hno : Undisturbed W ex db (complexQuery W.hash mk f))
    (hord : S.conns [a0, a1] = [a1, a0]) :
    ∃ r, main L W gob mk net S [a0, a1] f typed = ok (.count r) ∧ (r.toNat + numMatching db P) % p = 0 := by
  obtain ⟨q, hq, ha⟩ := options_query hW.hash hask
  have hex : 0 < ex ∧ ex < 20 := by rcases hf with ⟨-, rfl⟩ | ⟨-, rfl⟩ <;> decide
  obtain ⟨r, hr, hv⟩ := C25_exchanged_partial W ex hex.1 hex.2 mk db q P hW.hash hW.ready hW.loaded ha (hno q hq)
  exact ⟨r, main_run hS hnet hne hf hq (inOrder := false) hord hr, hv⟩

/-- The keys that an average asked for on the command line is about, at year `now`. -/
def averagedLine (hash : List Byte → List Byte) (f : Flags) (now : Int) (db : KeyDB) : List KeyInfo :=
  db.keys.filter (fun ki => decide (
    (if f.fromStart ≠ 0 then (bytes f.id).take f.fromStart.toNat <+: ki.email
      else if f.fromEnd ≠ 0 then (bytes f.id).drop ((bytes f.id).length - f.fromEnd.toNat) <:+ ki.email
      else (hash (bytes f.id)).take 16 = (hash ki.email).take 16) ∧ ki.creation.year ≤ now))

omit hS hnet hne in
theorem line_avg_asks {mk : Int → Time} {f : Flags} (h1 : f.and = true) (h2 : f.avg = true)
    (hs : 0 ≤ f.fromStart ∧ f.fromStart ≤ (bytes f.id).length) (he : 0 ≤ f.fromEnd ∧ f.fromEnd ≤ (bytes f.id).length)
    (hl : f.fromStart ≤ 32) (hl' : f.fromEnd ≤ 32) {now : Int} (hc0 : ∀ j, W.now0 j = now) (hc1 : ∀ j, W.now1 j = now)
    (hage : ∀ ki ∈ db.keys, now - ki.creation.year < 2 ^ 32) :
    ∃ i q, complexQuery W.hash mk f = ok q ∧ AsksAvg W i (bytes f.id) now db q ∧
      averaged W.hash i (bytes f.id) now db = averagedLine W.hash f now db := by
  refine ⟨⟨0, f.fromStart, f.fromEnd, true, true, false⟩, ?_⟩
  have hv : EmailValid ⟨0, f.fromStart, f.fromEnd, true, true, false⟩ (bytes f.id) := ⟨hs.1, hs.2, he.1, he.2⟩
  obtain ⟨id, hid⟩ := emailSel_valid (hash := W.hash) hv
  have hq : toEmailClientFSS W.hash ⟨0, f.fromStart, f.fromEnd, true, true, false⟩ (bytes f.id) =
      ok ⟨⟨0, f.fromStart, f.fromEnd, true, true, false⟩, id⟩ := by
    unfold toEmailClientFSS
    rw [idForEmail_sel hW.hash hv, ok_bind, hid]
    rfl
  have hc : complexQuery W.hash mk f = ok ⟨⟨0, f.fromStart, f.fromEnd, true, true, false⟩, id⟩ := by
    unfold complexQuery
    rw [h1, h2]
    exact hq
  refine ⟨_, hc, ⟨rfl, rfl, rfl, hv, ?_, hq, hc0, hc1, hage⟩, ?_⟩
  · unfold emailBits
    dsimp only
    split_ifs <;> omega
  · unfold averaged averagedLine
    apply List.filter_congr
    intro ki _
    rw [decide_eq_decide]
    apply and_congr_left'
    unfold EmailMatches digest16
    dsimp only
    split_ifs <;> rfl

/-- C63 (positive part), command line with both `-and` and `-avg`: the number printed is the average age, in years, of the
keys whose address is the one asked for or shares that many first or last bytes. Missing: the other order of the
connections, databases without such a key, and runs in which a derived value equals the modulus. -/
theorem C63_line_average_partial (L : Lib) (mk : Int → Time) (f : Flags) (typed : String)
    (hf : f.scheme = "complexPIR" ∧ ex = 1 ∨ f.scheme = "complexVPIR" ∧ ex = 5) (h1 : f.and = true) (h2 : f.avg = true)
    (hs : 0 ≤ f.fromStart ∧ f.fromStart ≤ (bytes f.id).length) (he : 0 ≤ f.fromEnd ∧ f.fromEnd ≤ (bytes f.id).length)
    (hl : f.fromStart ≤ 32) (hl' : f.fromEnd ≤ 32) (now : Int) (hc0 : ∀ j, W.now0 j = now) (hc1 : ∀ j, W.now1 j = now)
    (hage : ∀ ki ∈ db.keys, now - ki.creation.year < 2 ^ 32) (hsome : averagedLine W.hash f now db ≠ [])
    (hsum : totalAge now (averagedLine W.hash f now db) < p) (hno : Undisturbed W ex db (complexQuery W.hash mk f))
    (hord : S.conns [a0, a1] = [a0, a1]) :
    ∃ r, main L W gob mk net S [a0, a1] f typed = ok (.count r) ∧
      r.toNat = totalAge now (averagedLine W.hash f now db) / (averagedLine W.hash f now db).length := by
  obtain ⟨i, q, hq, ha, heq⟩ := line_avg_asks hW (mk := mk) h1 h2 hs he hl hl' hc0 hc1 hage
  rw [← heq] at hsome hsum ⊢
  have hex : 0 < ex ∧ ex < 20 := by rcases hf with ⟨-, rfl⟩ | ⟨-, rfl⟩ <;> decide
  obtain ⟨r, hr, hv⟩ := C22_average_partial W ex hex.1 hex.2 i (bytes f.id) now db q hW.hash hW.ready hW.loaded ha
    (hno q hq) hsome (lt_of_le_of_lt (List.length_filter_le _ _) hW.small) hsum
  exact ⟨r, main_run hS hnet hne hf hq (inOrder := true) hord hr, hv⟩

omit hW in
/-- C63, command line: asking for an average without `-and` ends the program. -/
theorem C63_average_needs_and (L : Lib) (mk : Int → Time) (f : Flags) (typed : String)
    (hf : f.scheme = "complexPIR" ∨ f.scheme = "complexVPIR") (h1 : f.and = false) (h2 : f.avg = true) :
    main L W gob mk net S [a0, a1] f typed = crash "query not implemented" := by
  have hg : gatherInfos net S [a0, a1] = ok (List.replicate 2 info) :=
    gather_eq hS (i := info) (servers := [a0, a1]) (by
      intro a ha
      simp only [List.mem_cons, List.not_mem_nil, or_false] at ha
      rcases ha with rfl | rfl
      · exact hnet.info0
      · exact hnet.info1)
  have hq : complexQuery W.hash mk f = crash "query not implemented" := by
    unfold complexQuery
    rw [h1, h2]
    rfl
  unfold main
  rw [connect_nodup (l := [a0, a1]) (by
    intro a ha
    simp only [List.mem_cons, List.not_mem_nil, or_false] at ha
    rcases ha with rfl | rfl
    · exact hnet.dial0
    · exact hnet.dial1) (by simp [hne])]
  simp only [orFatal, ok_bind]
  unfold exec
  rw [hg, ok_bind, retrieve_replicate (by decide), ok_bind]
  rcases hf with hs | hs
  · rw [hs, if_neg (by decide), if_pos rfl, hq]
    rfl
  · rw [hs, if_neg (by decide), if_neg (by decide), if_pos rfl, hq]
    rfl

end

/-! ### Examples and refutations -/

instance : Countable Msg := by
  let f : Msg → (ℕ × ℤ × ℤ × Bool × Bool × Bool) × (List ℕ × ℕ × List (List ℕ) × List ℕ) := fun m =>
    ((m.info.target, m.info.fromStart, m.info.fromEnd, m.info.and, m.info.avg, m.info.sum),
      (m.key.sInit.map BitVec.toNat, m.key.tInit.toNat, m.key.cw.map (List.map BitVec.toNat),
        m.key.finalCW.map BitVec.toNat))
  refine Function.Injective.countable (f := f) ?_
  rintro ⟨⟨t, s, e, a, v, u⟩, ⟨si, ti, cw, fc⟩⟩ ⟨⟨t', s', e', a', v', u'⟩, ⟨si', ti', cw', fc'⟩⟩ h
  have inj : ∀ n, Function.Injective (BitVec.toNat : BitVec n → ℕ) := fun n x y => BitVec.eq_of_toNat_eq
  simp only [f, Prod.mk.injEq] at h
  obtain ⟨⟨rfl, rfl, rfl, rfl, rfl, rfl⟩, h1, h2, h3, h4⟩ := h
  rw [List.map_injective_iff.mpr (inj 8) h1, inj 8 h2,
    List.map_injective_iff.mpr (List.map_injective_iff.mpr (inj 8)) h3, List.map_injective_iff.mpr (inj 32) h4]

/-- An encoding of messages. -/
noncomputable def exGob (m : Msg) : List Byte := List.replicate ((exists_injective_nat Msg).choose m) 0

theorem exGob_injective : Function.Injective exGob := by
  intro m m' h
  have := congrArg List.length h
  simp only [exGob, List.length_replicate] at this
  exact (exists_injective_nat Msg).choose_spec this

/-- The number of the server at an address. -/
def numberOf (a : String) : Byte := if a = "a" then 0 else 1

/-- Two honest predicate servers, at the addresses "a" and "b". -/
noncomputable def statsNet (W : World) (ex : Nat) (db : KeyDB) : Net where
  dial := fun _ => ok ()
  info := fun _ => ok ⟨1, db.numColumns, 0, "", [], 0⟩
  answer := fun a bs =>
    haveI := Classical.propDecidable
    if h : ∃ m, exGob m = bs then W.serve (numberOf a) ex db h.choose else err "gob"

theorem statsNet_spec (W : World) (ex : Nat) (db : KeyDB) :
    PredicateServers (statsNet W ex db) W exGob ex db ⟨1, db.numColumns, 0, "", [], 0⟩ "a" "b" := by
  have key : ∀ (a : String) (m : Msg), (statsNet W ex db).answer a (exGob m) =
      W.serve (numberOf a) ex db m := by
    intro a m
    have h : ∃ m', exGob m' = exGob m := ⟨m, rfl⟩
    unfold statsNet
    dsimp only
    rw [dif_pos h, exGob_injective h.choose_spec]
  refine ⟨rfl, rfl, rfl, rfl, fun m => ?_, fun m => ?_⟩
  · rw [key]; rfl
  · rw [key]; rfl

/-- Everything in order, except that the map of connections may be enumerated backwards. -/
def order (backwards : Bool) : Schedule := ⟨id, fun l => if backwards then l.reverse else l, id⟩

theorem order_fair (b : Bool) : Fair (order b) :=
  ⟨fun _ => List.Perm.refl _, fun l => by cases b <;> simp [order, List.reverse_perm], fun _ => List.Perm.refl _⟩

theorem exStats : StatsReady (world Fss.parityCipher 5 0 0) 5 exDB :=
  ⟨exHash_length, world_ready5 _ Fss.parityCipher_block _ _, rfl, by rw [Field.p_val]; decide⟩

/-- The options that ask for the RSA keys. -/
def rsaFlags : Flags := ⟨"complexVPIR", "RSA", "algo", 0, 0, false, false⟩

theorem rsa_asked (hash : List Byte → List Byte) (mk : Int → Time) (db : KeyDB) :
    OptionsAsk hash mk db rsaFlags (fun ki => ki.algo.toNat = 1) :=
  .algo rsaFlags 1 rfl rfl rfl rfl

theorem undisturbed (db : KeyDB) (r : Res ClientFSS) : Undisturbed (world Fss.parityCipher 5 0 0) 5 db r :=
  fun q _ => world_noHits 0 0 5 db q

/-- C63 for the command line, full statement: honest servers, no coincidences in the derived values, any order. -/
def C63_Statement : Prop :=
  ∀ (net : Net) (S : Schedule) (W : World) (gob : Msg → List Byte) (db : KeyDB) (info : DbInfo) (a0 a1 : String),
    Fair S → PredicateServers net W gob 5 db info a0 a1 → a0 ≠ a1 → StatsReady W 5 db → (∀ q, NoHits W 5 db q) →
    ∀ (L : Lib) (mk : Int → Time) (f : Flags) (typed : String) (P : KeyInfo → Prop), f.scheme = "complexVPIR" →
      OptionsAsk W.hash mk db f P →
      ∃ r, main L W gob mk net S [a0, a1] f typed = ok (.count r) ∧ r.toNat = numMatching db P

/-- C63 is false: with the connections enumerated backwards the command-line client prints 2147483645 for a database with
two RSA keys. -/
theorem C63_refuted : ¬ C63_Statement := by
  intro H
  have hnet := statsNet_spec (world Fss.parityCipher 5 0 0) 5 exDB
  obtain ⟨r, hr, hv⟩ := H _ (order true) _ _ _ _ _ _ (order_fair true) hnet (by decide) exStats
    (fun q => world_noHits 0 0 5 exDB q) (exLib Point.plainDpf) dayTime rsaFlags "" _ rfl (rsa_asked _ _ _)
  obtain ⟨r', hr', hv'⟩ := C63_exchanged (order_fair true) hnet (by decide) exStats (exLib Point.plainDpf) dayTime rsaFlags
    "" (Or.inr ⟨rfl, rfl⟩) _ (rsa_asked _ _ _) (undisturbed _ _) rfl
  rw [hr] at hr'
  simp only [ok.injEq, Output.count.injEq] at hr'
  subst hr'
  rw [exDB_count] at hv hv'
  rw [hv, Field.p_val] at hv'
  omega

/-- The command-line client prints 2 with the connections in order. -/
example : ∃ r, main (exLib Point.plainDpf) (world Fss.parityCipher 5 0 0) exGob dayTime
    (statsNet (world Fss.parityCipher 5 0 0) 5 exDB) (order false) ["a", "b"] rsaFlags "" = ok (.count r) ∧
    r.toNat = 2 := by
  have := C63_command_line_partial (order_fair false) (statsNet_spec (world Fss.parityCipher 5 0 0) 5 exDB) (by decide)
    exStats (exLib Point.plainDpf) dayTime rsaFlags "" (Or.inr ⟨rfl, rfl⟩) _ (rsa_asked _ _ _) (undisturbed _ _) rfl
  rwa [exDB_count] at this

/-- C63 for the interactive client, full statement: the line printed is true. -/
def C63_Line_Statement : Prop :=
  ∀ (net : Net) (S : Schedule) (W : World) (gob : Msg → List Byte) (db : KeyDB) (info : DbInfo) (a0 a1 : String),
    Fair S → PredicateServers net W gob 5 db info a0 a1 → StatsReady W 5 db → (∀ q, NoHits W 5 db q) →
    ∀ (mk : Int → Time) (c : Choice),
      (match c with
        | .countEmail _ text => Plain db (bytes text)
        | .countAlgo name => name ∈ ["RSA", "ElGamal", "DSA", "ECDH", "ECDSA"]
        | .countCreation year => ∃ y, Cmd.Spec.Numeral year y ∧ 0 ≤ y
        | .avgEmail _ _ => False) →
      showStats W gob mk net S [a0, a1] c = ok ("Result of " ++ caption c ++ ": " ++ toString (numMatching db (Said c)) ++
        ".\n Type enter to continue.")

/-- C63 is false for the interactive client: it says that no address begins with the empty text. -/
theorem C63_line_refuted : ¬ C63_Line_Statement := by
  intro H
  have hnet := statsNet_spec (world Fss.parityCipher 5 0 0) 5 exDB
  have h := H _ (order false) _ _ _ _ _ _ (order_fair false) hnet exStats (fun q => world_noHits 0 0 5 exDB q) dayTime
    (.countEmail true "") (Or.inl (by decide))
  obtain ⟨r, hr, hv⟩ := C63_empty_text (order_fair false) hnet exStats dayTime true (undisturbed _ _)
  have h0 : numMatching exDB (fun ki => digest16 (world Fss.parityCipher 5 0 0).hash [] =
      digest16 (world Fss.parityCipher 5 0 0).hash ki.email) = 0 := by
    unfold numMatching
    rw [List.countP_eq_zero]
    intro ki hki
    simp only [decide_eq_true_eq]
    simp only [exDB, exKey, List.mem_cons, List.not_mem_nil, or_false] at hki
    rcases hki with rfl | rfl | rfl <;> decide
  have h3 : numMatching exDB (Said (.countEmail true "")) = 3 := by
    unfold numMatching
    rw [List.countP_eq_length.mpr]
    · rfl
    · intro ki _
      simp only [decide_eq_true_eq, Said, AtEnd, if_true]
      exact List.nil_prefix
  rw [h0] at hv
  unfold showStats at h
  rw [hr, ok_bind, hv, h3] at h
  revert h
  decide

/-- Times with encodings of the same length. -/
def wordTime (d : Int) : Time := ⟨d, ok (putBE32 (BitVec.ofInt 32 d))⟩

/-- Three keys: ab@c and ad@c, created on day 0, and xy@c, created on 30 November 2017. -/
def mailDB : KeyDB := ⟨3, [⟨bytes "ab@c", wordTime 0, 1⟩, ⟨bytes "ad@c", wordTime 0, 17⟩,
  ⟨bytes "xy@c", wordTime (dateDay 2017 11 30), 1⟩]⟩

theorem mailStats (n : Int) : StatsReady (world Fss.parityCipher 5 n n) 5 mailDB :=
  ⟨exHash_length, world_ready5 _ Fss.parityCipher_block _ _, rfl, by rw [Field.p_val]; decide⟩

theorem mail_count {P : KeyInfo → Prop} [DecidablePred P] : numMatching mailDB P = mailDB.keys.countP (fun ki => decide (P ki)) := by
  unfold numMatching
  apply List.countP_congr
  intro ki _
  simp only [decide_eq_true_eq]

instance (b : Bool) (t e : List Byte) : Decidable (AtEnd b t e) := by unfold AtEnd; infer_instance

/-- A request to a page. -/
def formWith (position text algo year : String) : Request :=
  ⟨ok (), fun k => if k = "position" then position else if k = "text" then text else if k = "algo" then algo
    else if k = "year" then year else ""⟩

/-- Two addresses begin with "a", and the page says so. -/
example : ∃ r, handleCountEmail exHash (executeStatsQuery (world Fss.parityCipher 5 0 0) exGob
    (statsNet (world Fss.parityCipher 5 0 0) 5 mailDB) (order false) ["a", "b"]) (formWith "begin" "a" "" "") =
      ok [.count r] ∧ r.toNat = 2 := by
  obtain ⟨r, hr, hv⟩ := C63_web_email_partial (order_fair false) (statsNet_spec (world Fss.parityCipher 5 0 0) 5 mailDB)
    (mailStats 0) (formWith "begin" "a" "" "") rfl true rfl (by decide) (Or.inl (by decide)) (undisturbed _ _)
  refine ⟨r, hr, ?_⟩
  rw [hv, mail_count]
  decide

/-- Two keys are RSA keys. -/
example : ∃ r, handleCountAlgo (executeStatsQuery (world Fss.parityCipher 5 0 0) exGob
    (statsNet (world Fss.parityCipher 5 0 0) 5 mailDB) (order false) ["a", "b"]) (formWith "" "" "RSA" "") =
      ok [.count r] ∧ r.toNat = 2 := by
  obtain ⟨r, hr, hv⟩ := C63_web_algo_partial (order_fair false) (statsNet_spec (world Fss.parityCipher 5 0 0) 5 mailDB)
    (mailStats 0) (formWith "" "" "RSA" "") rfl 1 rfl (undisturbed _ _)
  refine ⟨r, hr, ?_⟩
  rw [hv, mail_count]
  decide

theorem mail_times : ∀ ki ∈ mailDB.keys, ∃ b', ki.creation.bin = ok b' ∧
    b'.length = (putBE32 (BitVec.ofInt 32 (dateDay 2017 11 30))).length := by
  intro ki hki
  simp only [mailDB, List.mem_cons, List.not_mem_nil, or_false] at hki
  rcases hki with rfl | rfl | rfl <;> exact ⟨_, rfl, by simp [putBE32]⟩

/-- No key of the database was created in 2018, but one is counted. -/
example : ∃ r, handleCountTimestamp wordTime (executeStatsQuery (world Fss.parityCipher 5 0 0) exGob
    (statsNet (world Fss.parityCipher 5 0 0) 5 mailDB) (order false) ["a", "b"]) (formWith "" "" "" "2018") =
      ok [.count r] ∧ r.toNat = 1 := by
  obtain ⟨r, hr, hv⟩ := C63_web_timestamp (order_fair false) (statsNet_spec (world Fss.parityCipher 5 0 0) 5 mailDB)
    (mailStats 0) wordTime (formWith "" "" "" "2018") rfl 2018 ((Cmd.atoi_iff _ _).1 rfl) _ rfl (by decide)
    (by rw [(C27_query_day 2018).1]; exact mail_times) (undisturbed _ _)
  refine ⟨r, hr, ?_⟩
  rw [hv, mail_count]
  decide

/-- The interactive client says that one key was created before 2018; there are three. -/
example : showStats (world Fss.parityCipher 5 0 0) exGob wordTime (statsNet (world Fss.parityCipher 5 0 0) 5 mailDB)
    (order false) ["a", "b"] (.countCreation "2018") =
      ok "Result of all emails created before year '2018': 1.\n Type enter to continue." ∧
      mailDB.keys.countP (fun ki => decide (ki.creation.year < 2018)) = 3 := by
  refine ⟨?_, by decide⟩
  rw [C63_created_before (order_fair false) (statsNet_spec (world Fss.parityCipher 5 0 0) 5 mailDB)
    (mailStats 0) wordTime "2018" 2018 ((Cmd.atoi_iff _ _).1 rfl) (by decide) _ rfl (by decide) mail_times (undisturbed _ _)]
  have : numMatching mailDB (fun ki => ki.creation.bin = ok (putBE32 (BitVec.ofInt 32 (dateDay (2018 - 1) 11 30)))) = 1 := by
    rw [mail_count]
    decide
  rw [this]
  decide

/-- Options asking for the average over addresses that share the last two bytes with "x@c". -/
def averageFlags (and : Bool) : Flags := ⟨"complexVPIR", "x@c", "", 0, 2, and, true⟩

/-- The line printed for the suffix "@c". -/
example : showStats (world Fss.parityCipher 5 0 0) exGob wordTime (statsNet (world Fss.parityCipher 5 0 0) 5 mailDB)
    (order false) ["a", "b"] (.countEmail false "@c") =
      ok "Result of all emails that end with '@c': 3.\n Type enter to continue." := by
  rw [C63_interactive_partial (order_fair false) (statsNet_spec (world Fss.parityCipher 5 0 0) 5 mailDB)
    (mailStats 0) wordTime (.countEmail false "@c") ⟨by decide, Or.inl (by decide)⟩ (undisturbed _ _)]
  have : numMatching mailDB (Said (.countEmail false "@c")) = 3 := by
    show numMatching mailDB (fun ki => AtEnd false (bytes "@c") ki.email) = 3
    rw [mail_count]
    decide
  rw [this]
  decide

theorem undisturbed10 (db : KeyDB) (r : Res ClientFSS) : Undisturbed (world Fss.parityCipher 5 10 10) 5 db r :=
  fun q _ => world_noHits 10 10 5 db q

theorem mail_ages : ∀ ki ∈ mailDB.keys, 10 - ki.creation.year < 2 ^ 32 := by
  intro ki hki
  simp only [mailDB, List.mem_cons, List.not_mem_nil, or_false] at hki
  rcases hki with rfl | rfl | rfl <;> decide

/-- In year 10 the average age of the keys of addresses that begin with "a" is 10. -/
example : showStats (world Fss.parityCipher 5 10 10) exGob wordTime (statsNet (world Fss.parityCipher 5 10 10) 5 mailDB)
    (order false) ["a", "b"] (.avgEmail true "a") =
      ok "Result of average lifetime of all emails that begin with 'a': 10.\n Type enter to continue." := by
  have hl : averagedText true (bytes "a") 10 mailDB = mailDB.keys.take 2 := by
    have h1 : AtEnd true (bytes "a") (bytes "ab@c") := by decide
    have h2 : AtEnd true (bytes "a") (bytes "ad@c") := by decide
    have h3 : ¬ AtEnd true (bytes "a") (bytes "xy@c") := by decide
    have h4 : (wordTime 0).year ≤ 10 := by decide
    simp only [averagedText, mailDB, List.filter_cons, List.filter_nil, h1, h2, h3, h4, and_self, false_and, decide_true,
      decide_false, if_true, Bool.false_eq_true, if_false, List.take_succ_cons, List.take_zero]
  rw [C63_average_partial (order_fair false) (statsNet_spec (world Fss.parityCipher 5 10 10) 5 mailDB) (mailStats 10)
    wordTime true "a" (by decide) (by decide) 10 (fun _ => rfl) (fun _ => rfl) mail_ages (by rw [hl]; decide)
    (by rw [hl, Field.p_val]; decide) (undisturbed10 _ _), hl]
  decide

/-- In year 10 the average age of the keys of addresses that end with "@c", and exist by then, is 10; the program prints it. -/
example (L : Lib) : ∃ r, main L (world Fss.parityCipher 5 10 10) exGob wordTime
    (statsNet (world Fss.parityCipher 5 10 10) 5 mailDB) (order false) ["a", "b"] (averageFlags true) "" = ok (.count r) ∧
      r.toNat = 10 := by
  have hl : averagedLine (world Fss.parityCipher 5 10 10).hash (averageFlags true) 10 mailDB = mailDB.keys.take 2 := by
    rfl
  obtain ⟨r, hr, hv⟩ := C63_line_average_partial (order_fair false)
    (statsNet_spec (world Fss.parityCipher 5 10 10) 5 mailDB) (by decide) (mailStats 10) L wordTime (averageFlags true) ""
    (Or.inr ⟨rfl, rfl⟩) rfl rfl (by decide) (by decide) (by decide) (by decide) 10 (fun _ => rfl) (fun _ => rfl) mail_ages
    (by rw [hl]; decide) (by rw [hl, Field.p_val]; decide) (undisturbed10 _ _) rfl
  refine ⟨r, hr, ?_⟩
  rw [hv, hl]
  decide

/-- Without `-and` it ends. -/
example (L : Lib) : main L (world Fss.parityCipher 5 10 10) exGob wordTime
    (statsNet (world Fss.parityCipher 5 10 10) 5 mailDB) (order false) ["a", "b"] (averageFlags false) "" =
      crash "query not implemented" :=
  C63_average_needs_and (order_fair false) (statsNet_spec (world Fss.parityCipher 5 10 10) 5 mailDB) (by decide) L wordTime
    (averageFlags false) "" (Or.inr rfl) rfl rfl

/-- Asking for the average over addresses that begin with "q" ends the program. -/
example : (showStats (world Fss.parityCipher 5 10 10) exGob wordTime
    (statsNet (world Fss.parityCipher 5 10 10) 5 mailDB) (order false) ["a", "b"] (.avgEmail true "q")).isCrash :=
  C63_no_average (order_fair false) (statsNet_spec (world Fss.parityCipher 5 10 10) 5 mailDB) (mailStats 10)
    wordTime true "q" (by decide) (by decide) 10 (fun _ => rfl) (fun _ => rfl) mail_ages (by
      intro ki hki
      simp only [mailDB, List.mem_cons, List.not_mem_nil, or_false] at hki
      rcases hki with rfl | rfl | rfl <;> decide) (undisturbed10 _ _)

end Verif.Client
