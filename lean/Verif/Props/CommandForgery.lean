import Verif.Props.AnswerOrder

/-! # C162: what the command-line client prints if one of its two predicate servers lies -/

namespace Verif.Client.Spec
open Res Verif.Predicate

/-- Two predicate servers of which one answers queries as it likes by `F`: the one at `a1` if `mal` holds, else the one at `a0`.
Nothing is said about connecting to them or about what they say of their databases. -/
structure LineLiar (net : Net) (W : World) (gob : Msg → List Byte) (db : KeyDB) (a0 a1 : String) (mal : Bool)
    (F : Msg → Res (List Byte)) : Prop where
  answer0 : ∀ m, net.answer a0 (gob m) = if mal then W.serve 0 5 db m else F m
  answer1 : ∀ m, net.answer a1 (gob m) = if mal then F m else W.serve 1 5 db m

/-- The order in which the map of two connections is enumerated. -/
def enumerated (inOrder : Bool) (a0 a1 : String) : List String := if inOrder then [a0, a1] else [a1, a0]

end Verif.Client.Spec

namespace Verif.Client
open Res Verif.Cmd Verif.Field Verif.Field.Spec Verif.Query Verif.Client.Spec Verif.Predicate Verif.Predicate.Spec Verif.Forge
  Verif.Forge.Spec

theorem connect_two {dial : String → Res Unit} {a0 a1 : String} (hne : a0 ≠ a1) {conns : List String}
    (h : connect dial [a0, a1] = ok conns) : conns = [a0, a1] := by
  unfold connect at h
  simp only [List.foldlM_cons, List.foldlM_nil, bind_eq_ok, pure_eq, ok.injEq] at h
  obtain ⟨c, ⟨-, -, rfl⟩, d, ⟨-, -, rfl⟩, rfl⟩ := h
  simp [hne.symm]

/-- The result of a predicate query that goes to the two servers in the enumerated order is that of a run in one of the orders of
arrival. -/
theorem line_result {net : Net} {S : Schedule} (hS : Fair S) {W : World} {gob : Msg → List Byte} {db : KeyDB}
    {a0 a1 : String} {mal inOrder : Bool} {F : Msg → Res (List Byte)} (hnet : LineLiar net W gob db a0 a1 mal F)
    (hord : S.conns [a0, a1] = enumerated inOrder a0 a1) {q : ClientFSS} {r : U32}
    (h : complexResult W gob 5 2 (runQueries net S [a0, a1]) q = ok r) :
    ∃ early, arrivedRun W db q inOrder mal (fun _ => early) F = ok r := by
  unfold complexResult at h
  simp only [bind_eq_ok] at h
  obtain ⟨⟨ms, st, rnd, buf⟩, hq, as, has, hrec⟩ := h
  have hms : ∃ x y : Msg, ms = [x, y] := by
    have hq' := hq
    unfold Predicate.query at hq'
    rw [if_neg (by decide)] at hq'
    simp only [bind_eq_ok] at hq'
    obtain ⟨⟨st', rnd'⟩, -, ⟨k0, k1, buf'⟩, -, hq'⟩ := hq'
    simp only [ok.injEq, Prod.mk.injEq] at hq'
    exact ⟨_, _, hq'.1.symm⟩
  obtain ⟨x, y, rfl⟩ := hms
  unfold runQueries at has
  rw [hord] at has
  unfold runQueriesActor at has
  rw [sends_eq _ _ (by cases inOrder <;> simp [enumerated]), ok_bind] at has
  have hq2 : Predicate.query W.env W.fuel 5 W.rnd W.buf W.r1 W.r2 q 2 = ok ([x, y], st, rnd, buf) := hq
  cases inOrder
  · simp only [enumerated, Bool.false_eq_true, if_false, List.map_cons, List.map_nil, List.zip_cons_cons, List.zip_nil_right,
      List.mapM_cons, List.mapM_nil, bind_eq_ok, pure_eq] at has
    obtain ⟨l, ⟨v, hv, t, ⟨u, hu, t', ht', ht⟩, hl⟩, has⟩ := has
    cases ht'
    cases ht
    cases hl
    cases has
    have hu := orFatal_some hu
    have hv := orFatal_some hv
    rw [hnet.answer0] at hu
    rw [hnet.answer1] at hv
    have hrun : ∀ early, arrivedRun W db q false mal (fun _ => early) F
        = reconstructBytes 5 st (if mal = early then [v, u] else [u, v]) := by
      intro early
      unfold arrivedRun
      rw [hq2]
      simp only [ok_bind, Bool.false_eq_true, if_false]
      rw [show idx [x, y] 0 = ok x from rfl, show idx [x, y] 1 = ok y from rfl]
      simp only [ok_bind]
      cases mal
      · simp only [Bool.false_eq_true, if_false] at hu hv ⊢
        rw [hu, ok_bind, hv, ok_bind]
      · simp only [if_true] at hu hv ⊢
        rw [hu, ok_bind, hv, ok_bind]
    rcases perm_pair (hS.answers [v, u]) with e | e
    · refine ⟨mal, ?_⟩
      rw [hrun, if_pos rfl]
      rw [e] at hrec
      exact hrec
    · refine ⟨!mal, ?_⟩
      rw [hrun, if_neg (by cases mal <;> simp)]
      rw [e] at hrec
      exact hrec
  · simp only [enumerated, if_true, List.map_cons, List.map_nil, List.zip_cons_cons, List.zip_nil_right,
      List.mapM_cons, List.mapM_nil, bind_eq_ok, pure_eq] at has
    obtain ⟨l, ⟨u, hu, t, ⟨v, hv, t', ht', ht⟩, hl⟩, has⟩ := has
    cases ht'
    cases ht
    cases hl
    cases has
    have hu := orFatal_some hu
    have hv := orFatal_some hv
    rw [hnet.answer0] at hu
    rw [hnet.answer1] at hv
    have hrun : ∀ early, arrivedRun W db q true mal (fun _ => early) F
        = reconstructBytes 5 st (if mal = early then [v, u] else [u, v]) := by
      intro early
      unfold arrivedRun
      rw [hq2]
      simp only [ok_bind, if_true]
      rw [show idx [x, y] 0 = ok x from rfl, show idx [x, y] 1 = ok y from rfl]
      simp only [ok_bind]
      cases mal
      · simp only [Bool.false_eq_true, if_false] at hu hv ⊢
        rw [hu, ok_bind, hv, ok_bind]
      · simp only [if_true] at hu hv ⊢
        rw [hu, ok_bind, hv, ok_bind]
    rcases perm_pair (hS.answers [u, v]) with e | e
    · refine ⟨!mal, ?_⟩
      rw [hrun, if_neg (by cases mal <;> simp)]
      rw [e] at hrec
      exact hrec
    · refine ⟨mal, ?_⟩
      rw [hrun, if_pos rfl]
      rw [e] at hrec
      exact hrec

/-- C162: a number printed by the command-line client with the authenticated scheme is the result of a run in one of the orders of
arrival. -/
theorem C162_program {net : Net} {S : Schedule} (hS : Fair S) {W : World} {gob : Msg → List Byte} {db : KeyDB}
    {a0 a1 : String} (hne : a0 ≠ a1) {mal inOrder : Bool} {F : Msg → Res (List Byte)}
    (hnet : LineLiar net W gob db a0 a1 mal F) (hord : S.conns [a0, a1] = enumerated inOrder a0 a1) {L : Lib}
    {mk : Int → Time} {f : Flags} (hf : f.scheme = "complexVPIR") {typed : String} {q : ClientFSS}
    (hq : complexQuery W.hash mk f = ok q) {r : U32}
    (h : main L W gob mk net S [a0, a1] f typed = ok (.count r)) :
    ∃ early, arrivedRun W db q inOrder mal (fun _ => early) F = ok r := by
  unfold main at h
  rw [bind_eq_ok] at h
  obtain ⟨conns, hc, h⟩ := h
  have hconns := connect_two hne (orFatal_some hc)
  subst hconns
  have h := orFatal_some h
  unfold exec at h
  simp only [bind_eq_ok] at h
  obtain ⟨infos, -, info, -, h⟩ := h
  rw [hf, if_neg (by decide), if_neg (by decide), if_pos rfl, hq, ok_bind, bind_eq_ok] at h
  obtain ⟨n, hn, h⟩ := h
  simp only [ok.injEq, Output.count.injEq] at h
  subst h
  exact line_result hS hnet hord hn

open Classical in
/-- C162, counts: the command-line client asks for a number of keys with the authenticated scheme, and one of the two servers answers as
it likes. For an enumeration of the connections, the probability that in some order of arrival a number is printed other than the one
that honest servers would bring about (the count or, if the connections are exchanged, minus the count modulo 2^31 - 1) is at most
that of C84. -/
theorem C162_count (W : World) (db : KeyDB) (mal inOrder : Bool) (e : U32) (fr : Nat → U32)
    (F : Msg → Res (List Byte)) (hh : ∀ t, (W.hash t).length = 32) (hS : Setup W mal e fr) (hdb : Loaded db)
    (mk : Int → Time) (P : KeyInfo → Prop) (f : Flags) (hf : f.scheme = "complexVPIR") (hask : OptionsAsk W.hash mk db f P)
    (q : ClientFSS) (hq : complexQuery W.hash mk f = ok q) (L : Lib) (typed : String) (net : Net) (gob : Msg → List Byte)
    (a0 a1 : String) (hne : a0 ≠ a1) (hnet : LineLiar net W gob db a0 a1 mal F) :
    runMean (fun β α s0 s1 tb =>
        if ∃ S r, Fair S ∧ S.conns [a0, a1] = enumerated inOrder a0 a1 ∧
          main L (drawn W β α s0 s1 tb) gob mk net S [a0, a1] f typed = ok (.count r) ∧
          r.toNat ≠ due inOrder (numMatching db P) then 1 else 0)
      ≤ forgeGap (settingOf W db q inOrder mal e fr (fun _ _ => 1)) (wordsOf q F) + 864 / (p : ℚ) ^ 3 := by
  obtain ⟨q', hq', ha⟩ := options_query hh hask
  have : q' = q := by rw [hq', ok.injEq] at hq; exact hq
  subst this
  refine le_trans (runMean_mono ?_) (C158_count W db q' mal inOrder e fr F hh hS hdb mk P ha)
  intro β α s0 s1 tb
  split
  · rename_i h
    obtain ⟨S, r, hF, hord, hr, hb⟩ := h
    obtain ⟨early, he⟩ := C162_program (W := drawn W β α s0 s1 tb) hF hne (mal := mal) (F := F)
      ⟨hnet.answer0, hnet.answer1⟩ hord hf hq hr
    rw [if_pos ⟨early, r, he, hb⟩]
  · split
    · exact zero_le_one
    · exact le_refl _

open Classical in
/-- C162, averages: as above for the average asked for with both `-and` and `-avg`. What is printed is the quotient that honest servers
would bring about or the number of keys that it is about, up to the probability of C155. -/
theorem C162_average (W : World) (db : KeyDB) (mal inOrder : Bool) (e : U32) (fr : Nat → U32)
    (F : Msg → Res (List Byte)) (hh : ∀ t, (W.hash t).length = 32) (hS : Setup W mal e fr) (hdb : Loaded db)
    (mk : Int → Time) (f : Flags) (hf : f.scheme = "complexVPIR") (i : Info) (now : Int) (q : ClientFSS)
    (hq : complexQuery W.hash mk f = ok q) (ha : AsksAvg W i (bytes f.id) now db q)
    (hline : averaged W.hash i (bytes f.id) now db = averagedLine W.hash f now db) (L : Lib) (typed : String) (net : Net)
    (gob : Msg → List Byte) (a0 a1 : String) (hne : a0 ≠ a1) (hnet : LineLiar net W gob db a0 a1 mal F) :
    runMean (fun β α s0 s1 tb =>
        if ∃ S r, Fair S ∧ S.conns [a0, a1] = enumerated inOrder a0 a1 ∧
          main L (drawn W β α s0 s1 tb) gob mk net S [a0, a1] f typed = ok (.count r) ∧
          ¬ (MeanOf inOrder (totalAge now (averagedLine W.hash f now db)) (averagedLine W.hash f now db).length r.toNat ∨
            r.toNat = due inOrder (averagedLine W.hash f now db).length) then 1 else 0)
      ≤ eitherGap (settingOf W db q inOrder mal e fr (isAged (honestNow W mal)))
          (settingOf W db q inOrder mal e fr (ageOf (honestNow W mal))) (wordsOf q F) + 1728 / (p : ℚ) ^ 3 := by
  rw [← hline]
  refine le_trans (runMean_mono ?_) (C158_average W db q mal inOrder e fr F hh hS hdb i (bytes f.id) now ha)
  intro β α s0 s1 tb
  split
  · rename_i h
    obtain ⟨S, r, hF, hord, hr, hb⟩ := h
    obtain ⟨early, he⟩ := C162_program (W := drawn W β α s0 s1 tb) hF hne (mal := mal) (F := F)
      ⟨hnet.answer0, hnet.answer1⟩ hord hf hq hr
    rw [if_pos ⟨early, r, he, fun h => hb (h.imp id (fun h => h.2))⟩]
  · split
    · exact zero_le_one
    · exact le_refl _

/-! ### Concrete cases -/

theorem secondLies_line (W : World) (db : KeyDB) (F : Msg → Res (List Byte)) :
    LineLiar (secondLies W db F) W exGob db "a" "b" true F :=
  ⟨(secondLies_among W db F).answer0, (secondLies_among W db F).answer1⟩

open Classical in
/-- A case that meets the hypotheses of `C162_count`: the number of RSA keys in the database of C21, with the second server replying a
constant, and the connections enumerated the wrong way round. -/
example (L : Lib) (c : List Byte) (q : ClientFSS)
    (hq : complexQuery (world Fss.parityCipher 5 0 0).hash dayTime rsaFlags = ok q) :
    runMean (fun β α s0 s1 tb =>
        if ∃ S r, Fair S ∧ S.conns ["a", "b"] = ["b", "a"] ∧
          main L (drawn (world Fss.parityCipher 5 0 0) β α s0 s1 tb) exGob dayTime
            (secondLies (world Fss.parityCipher 5 0 0) exDB (fun _ => ok c)) S ["a", "b"] rsaFlags "" = ok (.count r) ∧
          r.toNat ≠ p - 2 then 1 else 0)
      ≤ forgeGap (settingOf (world Fss.parityCipher 5 0 0) exDB q false true 0 (fun _ => 1) (fun _ _ => 1))
          (wordsOf q (fun _ => ok c)) + 864 / (p : ℚ) ^ 3 := by
  have h := C162_count (world Fss.parityCipher 5 0 0) exDB true false 0 (fun _ => 1) (fun _ => ok c) exHash_length
    (world_setup _ Fss.parityCipher_block 0 0 true) rfl dayTime _ rsaFlags rfl (rsa_asked _ _ _) q hq L "" _ exGob "a" "b"
    (by decide) (secondLies_line _ _ _)
  have hd : due false (numMatching exDB (fun ki => ki.algo.toNat = 1)) = p - 2 := by
    rw [exDB_count]
    decide
  rw [hd] at h
  exact h

open Classical in
/-- A case that meets the hypotheses of `C162_average`: the average age of the keys of addresses that end with "@c", in year 10. -/
example (L : Lib) (F : Msg → Res (List Byte)) : ∃ q, complexQuery (world Fss.parityCipher 5 10 10).hash wordTime (averageFlags true) = ok q ∧
    runMean (fun β α s0 s1 tb =>
        if ∃ S r, Fair S ∧ S.conns ["a", "b"] = ["a", "b"] ∧
          main L (drawn (world Fss.parityCipher 5 10 10) β α s0 s1 tb) exGob wordTime
            (secondLies (world Fss.parityCipher 5 10 10) mailDB F) S ["a", "b"] (averageFlags true) "" = ok (.count r) ∧
          ¬ (MeanOf true (totalAge 10 (averagedLine (world Fss.parityCipher 5 10 10).hash (averageFlags true) 10 mailDB))
              (averagedLine (world Fss.parityCipher 5 10 10).hash (averageFlags true) 10 mailDB).length r.toNat ∨
            r.toNat = due true (averagedLine (world Fss.parityCipher 5 10 10).hash (averageFlags true) 10 mailDB).length)
          then 1 else 0)
      ≤ eitherGap (settingOf (world Fss.parityCipher 5 10 10) mailDB q true true 0 (fun _ => 1)
            (isAged (honestNow (world Fss.parityCipher 5 10 10) true)))
          (settingOf (world Fss.parityCipher 5 10 10) mailDB q true true 0 (fun _ => 1)
            (ageOf (honestNow (world Fss.parityCipher 5 10 10) true))) (wordsOf q F) + 1728 / (p : ℚ) ^ 3 := by
  obtain ⟨i, q, hq, ha, heq⟩ := line_avg_asks (mailStats 10) (mk := wordTime) (f := averageFlags true) rfl rfl (by decide)
    (by decide) (by decide) (by decide) (now := 10) (fun _ => rfl) (fun _ => rfl) mail_ages
  exact ⟨q, hq, C162_average (world Fss.parityCipher 5 10 10) mailDB true true 0 (fun _ => 1) F exHash_length
    (world_setup _ Fss.parityCipher_block 10 10 true) rfl wordTime (averageFlags true) rfl i 10 q hq ha heq L "" _ exGob "a" "b"
    (by decide) (secondLies_line _ _ _)⟩

end Verif.Client
