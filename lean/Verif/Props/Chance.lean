import Verif.Lemmas.Chance
import Verif.Props.ClientStats

/-! # C102: how often an honest count or average goes wrong -/

namespace Verif.Chance
open Res Verif.Field Verif.Field.Spec Verif.Fss Verif.Fss.Spec Verif.Privacy Verif.Query Verif.Predicate
  Verif.Predicate.Spec Verif.Client Verif.Client.Spec Verif.Cmd Finset

theorem seeded_ready {W : World} {ex : Nat} (h : Ready W ex) (s0 s1 : Fin 16 → Byte) (tb : Byte) :
    Ready (seeded W s0 s1 tb) ex :=
  ⟨h.cipher, h.same0, h.same1, h.buf, h.buf0, h.buf1, by simp [seeded], by simp [seeded], h.keys⟩

theorem seeded_stats {W : World} {ex : Nat} {db : KeyDB} (h : StatsReady W ex db) (s0 s1 : Fin 16 → Byte) (tb : Byte) :
    StatsReady (seeded W s0 s1 tb) ex db :=
  ⟨h.hash, seeded_ready h.ready s0 s1 tb, h.loaded, h.small⟩

theorem seeded_servers {net : Net} {W : World} {gob : Msg → List Byte} {ex : Nat} {db : KeyDB} {info : DbInfo}
    {a0 a1 : String} (h : PredicateServers net W gob ex db info a0 a1) (s0 s1 : Fin 16 → Byte) (tb : Byte) :
    PredicateServers net (seeded W s0 s1 tb) gob ex db info a0 a1 :=
  ⟨h.dial0, h.dial1, h.info0, h.info1, h.answer0, h.answer1⟩

theorem seeded_avg {W : World} {i : Info} {text : List Byte} {now : Int} {db : KeyDB} {q : ClientFSS}
    (h : AsksAvg W i text now db q) (s0 s1 : Fin 16 → Byte) (tb : Byte) :
    AsksAvg (seeded W s0 s1 tb) i text now db q := by
  cases h
  constructor <;> assumption

/-- C102: the part of all seeds and control bytes of the client for which a counting query to two honest servers does not
give the number of matching keys is at most the bound, which sums, over the distinct selectors of the database and the query
itself, the gaps of explicit tests against the generator and four chances in 2^31; the same for averages; and a run can only
go wrong, or be rejected, in such a way. Whatever the fresh randomness of the three parties. -/
def C102_Statement : Prop :=
  ∀ (W : World) (db : KeyDB) (q : ClientFSS), (∀ e, (W.hash e).length = 32) → Ready W 5 → Loaded db →
    (∀ (mk : Int → Time) (P : KeyInfo → Prop), Asks W.hash mk db q P →
      chance (fun s0 s1 tb => ¬ ∃ r, (seeded W s0 s1 tb).run 5 db q true = ok r ∧ r.toNat = numMatching db P % p)
        ≤ runBound W.env.E W.hash db q) ∧
    (∀ (i : Info) (text : List Byte) (now : Int), AsksAvg W i text now db q → averaged W.hash i text now db ≠ [] →
      (averaged W.hash i text now db).length < p → totalAge now (averaged W.hash i text now db) < p →
      chance (fun s0 s1 tb => ¬ ∃ r, (seeded W s0 s1 tb).run 5 db q true = ok r ∧
          r.toNat = totalAge now (averaged W.hash i text now db) / (averaged W.hash i text now db).length)
        ≤ runBound W.env.E W.hash db q)

/-- The part of all seeds for which a counting query is disturbed. -/
theorem C102_disturbed {W : World} {mk : Int → Time} {db : KeyDB} {q : ClientFSS} {P : KeyInfo → Prop}
    (hh : ∀ e, (W.hash e).length = 32) (hE : BlockCipher W.env.E) (hq : Asks W.hash mk db q P) :
    chance (fun s0 s1 tb => ¬ NoHits (seeded W s0 s1 tb) 5 db q) ≤ runBound W.env.E W.hash db q := by
  obtain ⟨-, -, -, h256, f, hsel, hlen, -⟩ := asks_selectors hh hq
  refine disturbed_chance hE h256 (fun ki hki id hid => hlen ki hki id ?_)
  rw [hsel ki hki, ok.injEq] at hid
  exact hid

/-- The part of all seeds for which a query for an average is disturbed. -/
theorem C102_disturbed_average {W : World} {i : Info} {text : List Byte} {now : Int} {db : KeyDB} {q : ClientFSS}
    (hh : ∀ e, (W.hash e).length = 32) (hE : BlockCipher W.env.E) (hq : AsksAvg W i text now db q) :
    chance (fun s0 s1 tb => ¬ NoHits (seeded W s0 s1 tb) 5 db q) ≤ runBound W.env.E W.hash db q := by
  have hbuilt := hq.built
  unfold toEmailClientFSS at hbuilt
  rw [idForEmail_sel hh hq.valid] at hbuilt
  obtain ⟨id, hid⟩ := emailSel_valid (hash := W.hash) hq.valid
  simp only [ok_bind, hid, ok.injEq, orNil, Option.getD_some] at hbuilt
  subst hbuilt
  have hl := emailSel_length hh hq.valid hid
  refine disturbed_chance hE (by rw [hl]; exact hq.bits) (fun ki hki id' hid' => ?_)
  simp only [keyId, hq.and, hq.avg, Bool.not_true, Bool.and_false, Bool.false_eq_true, if_false, if_true] at hid'
  have h := idForEmail_sel hh hq.valid ki.email
  unfold selEmail at hid'
  rw [h, ok.injEq] at hid'
  rw [emailSel_length hh hq.valid hid', hl]

theorem C102_rarely : C102_Statement := by
  intro W db q hh hR hdb
  refine ⟨fun mk P hq => ?_, fun i text now hq hne hlen hsum => ?_⟩
  · refine (chance_mono (fun s0 s1 tb h => ?_)).trans (C102_disturbed hh hR.cipher hq)
    intro hno
    exact h (C21_count_partial (seeded W s0 s1 tb) 5 (by omega) (by omega) mk db q P hh (seeded_ready hR s0 s1 tb) hdb hq hno)
  · refine (chance_mono (fun s0 s1 tb h => ?_)).trans (C102_disturbed_average hh hR.cipher hq)
    intro hno
    exact h (C22_average_partial (seeded W s0 s1 tb) 5 (by omega) (by omega) i text now db q hh (seeded_ready hR s0 s1 tb) hdb
      (seeded_avg hq s0 s1 tb) hno hne hlen hsum)

/-- C102 as a number: if none of the tests named in the bound has a gap above `ε`, then among `N` distinct selectors of `n`
bits the query goes wrong for a part of at most `(N + 2) ((2 n + 1) ε + 4 / 2^31)` of the seeds. -/
theorem C102_number (E : Cipher) (hash : List Byte → List Byte) (db : KeyDB) (q : ClientFSS) (ε : ℚ)
    (hup : ∀ second, ∀ x ∈ q.input :: selectors hash db q, ∀ k < q.input.length,
      |prgGap E (upperTest E second q.input x k)| ≤ ε)
    (hlo : ∀ second, ∀ x ∈ q.input :: selectors hash db q, ∀ k < q.input.length, |prgGap E (lowerTest E second x k)| ≤ ε)
    (hcv : |convGap E valueHit| ≤ ε) :
    runBound E hash db q
      ≤ ((selectors hash db q).length + 2) * ((2 * q.input.length + 1) * ε + 4 / 2 ^ 31) := by
  have one : ∀ second, ∀ x ∈ q.input :: selectors hash db q,
      hitBound E second q.input x ≤ (2 * q.input.length + 1) * ε + 4 / 2 ^ 31 := by
    intro second x hx
    unfold hitBound
    have h1 : ∑ k ∈ range q.input.length, |prgGap E (upperTest E second q.input x k)| ≤ q.input.length * ε := by
      have := Finset.sum_le_card_nsmul (range q.input.length) (fun k => |prgGap E (upperTest E second q.input x k)|) ε
        (fun k hk => hup second x hx k (Finset.mem_range.1 hk))
      rwa [Finset.card_range, nsmul_eq_mul] at this
    have h2 : ∑ k ∈ range q.input.length, |prgGap E (lowerTest E second x k)| ≤ q.input.length * ε := by
      have := Finset.sum_le_card_nsmul (range q.input.length) (fun k => |prgGap E (lowerTest E second x k)|) ε
        (fun k hk => hlo second x hx k (Finset.mem_range.1 hk))
      rwa [Finset.card_range, nsmul_eq_mul] at this
    linarith
  have hs : ((selectors hash db q).map (hitBound E false q.input)).sum
      ≤ (selectors hash db q).length * ((2 * q.input.length + 1) * ε + 4 / 2 ^ 31) := by
    have := List.sum_le_card_nsmul ((selectors hash db q).map (hitBound E false q.input))
      ((2 * q.input.length + 1) * ε + 4 / 2 ^ 31) (by
        intro y hy
        obtain ⟨x, hx, rfl⟩ := List.mem_map.1 hy
        exact one false x (List.mem_cons_of_mem _ hx))
    rwa [List.length_map, nsmul_eq_mul] at this
  unfold runBound
  linarith [one false q.input List.mem_cons_self, one true q.input List.mem_cons_self]

section
variable {net : Net} {S : Schedule} (hS : Fair S) {W : World} {gob : Msg → List Byte} {db : KeyDB} {info : DbInfo}
  {a0 a1 : String} (hnet : PredicateServers net W gob 5 db info a0 a1) (hW : StatsReady W 5 db)
include hS hnet hW

/-- C102, interactive client and web page: the number shown for a counting query is wrong, or none is shown, for at most this
part of the seeds. -/
theorem C102_shown {mk : Int → Time} {q : ClientFSS} {P : KeyInfo → Prop} (hq : Asks W.hash mk db q P) :
    chance (fun s0 s1 tb => ¬ ∃ r, executeStatsQuery (seeded W s0 s1 tb) gob net S [a0, a1] q = ok r ∧
      r.toNat = numMatching db P) ≤ runBound W.env.E W.hash db q := by
  refine (chance_mono (fun s0 s1 tb h => ?_)).trans (C102_disturbed hW.hash hW.ready.cipher hq)
  intro hno
  exact h (asked_shown hS (seeded_servers hnet s0 s1 tb) (seeded_stats hW s0 s1 tb) hq hno)

/-- C102, command line: the same when the map of connections is enumerated in the order of the server numbers. -/
theorem C102_command_line (hne : a0 ≠ a1) (L : Lib) (mk : Int → Time) (f : Flags) (typed : String)
    (hf : f.scheme = "complexVPIR") (P : KeyInfo → Prop) (hask : OptionsAsk W.hash mk db f P)
    (hord : S.conns [a0, a1] = [a0, a1]) (q : ClientFSS) (hq : complexQuery W.hash mk f = ok q) :
    chance (fun s0 s1 tb => ¬ ∃ r, main L (seeded W s0 s1 tb) gob mk net S [a0, a1] f typed = ok (.count r) ∧
      r.toNat = numMatching db P) ≤ runBound W.env.E W.hash db q := by
  obtain ⟨q', hq', ha⟩ := options_query hW.hash hask
  have : q' = q := by rw [hq', ok.injEq] at hq; exact hq
  subst this
  refine (chance_mono (fun s0 s1 tb h => ?_)).trans (C102_disturbed hW.hash hW.ready.cipher ha)
  intro hno
  refine h (C63_command_line_partial hS (seeded_servers hnet s0 s1 tb) hne (seeded_stats hW s0 s1 tb) L mk f typed
    (Or.inr ⟨hf, rfl⟩) P hask ?_ hord)
  intro q'' hq''
  have e : complexQuery W.hash mk f = ok q'' := hq''
  rw [hq', ok.injEq] at e
  rw [← e]
  exact hno

end

/-! ### Concrete cases -/

/-- The database of C21 and the query for RSA keys meet the hypotheses, and the selectors of the three keys are two. -/
example : chance (fun s0 s1 tb => ¬ ∃ r, (seeded (world parityCipher 5 0 0) s0 s1 tb).run 5 exDB exQuery true = ok r ∧
    r.toNat = numMatching exDB (fun ki => ki.algo.toNat = 1) % p) ≤ runBound parityCipher exHash exDB exQuery :=
  (C102_rarely (world parityCipher 5 0 0) exDB exQuery exHash_length (world_ready5 _ parityCipher_block _ _) rfl).1 dayTime _
    (exQuery_asks _ _)

example : (selectors exHash exDB exQuery).length = 2 := by decide +kernel

/-- The average of C22 meets the hypotheses. -/
example : chance (fun s0 s1 tb => ¬ ∃ r, (seeded (world parityCipher 5 10 10) s0 s1 tb).run 5 avgDB
      ⟨avgInfo, (([2, 3] : List Byte).drop (([2, 3] : List Byte).length - 2)).flatMap Utils.bits8⟩ true = ok r ∧
    r.toNat = totalAge 10 (averaged exHash avgInfo [2, 3] 10 avgDB) / (averaged exHash avgInfo [2, 3] 10 avgDB).length)
    ≤ runBound parityCipher exHash avgDB
      ⟨avgInfo, (([2, 3] : List Byte).drop (([2, 3] : List Byte).length - 2)).flatMap Utils.bits8⟩ :=
  (C102_rarely (world parityCipher 5 10 10) avgDB _ exHash_length (world_ready5 _ parityCipher_block _ _) rfl).2 avgInfo
    [2, 3] 10 (avgAsks 5 [2, 3] (by simp)) (by decide) (by decide) (by decide)

end Verif.Chance
