import Verif.Spec.AnswerOrder
import Verif.Lemmas.AverageLength
import Verif.Lemmas.ReactionAverageLength
import Verif.Props.ReactionLength

/-! # Queries with one lying server, whose answers arrive in either order -/

namespace Verif.Forge
open Res Verif.Field Verif.Field.Spec Verif.Fss Verif.Fss.Spec Verif.Privacy Verif.Predicate Verif.Predicate.Spec
  Verif.Reaction Verif.Forge.Spec Verif.Chance Finset
set_option linter.constructorNameAsVariable false

/-- When the answer of server 0 arrives first, the run is the one of the other properties. -/
theorem arrivedRun_usual (W : World) (db : KeyDB) (q : Query.ClientFSS) (inOrder mal : Bool) (F : Msg → Res (List Byte)) :
    arrivedRun W db q inOrder mal (fun _ => !mal) F = forgedRun W db q inOrder mal F := by
  unfold arrivedRun forgedRun
  cases mal <;> rfl

/-- A run in which one server lies and the answers arrive in either order, as an equation. -/
theorem arrivedRun_form {W : World} {mal : Bool} {e : U32} {fr : Nat → U32} (hS : Setup W mal e fr) (db : KeyDB)
    (q : Query.ClientFSS) (inOrder : Bool) (β : Fin 3 → Fin p) (α : Fin p) (s0 s1 : Fin 16 → Byte) (tb : Byte) :
    ∃ km kh, received W.env (mal == inOrder) q.input (shared β) s0 s1 tb α = ok km ∧
      Twins W.env.E e (mal == inOrder) q.input (vals (shared β) α) km kh ∧
      (∃ ms rnd' o, query W.env W.fuel 5 (macSource β α) W.buf (List.ofFn s0 ++ [tb]) (List.ofFn s1) q 2 =
        ok (ms, clientState β α, rnd', o) ∧ ⟨q.info, km⟩ ∈ ms ∧ ⟨q.info, kh⟩ ∈ ms) ∧
      ∀ bh, W.serve (if mal then 0 else 1) 5 db ⟨q.info, kh⟩ = ok bh → ∀ (early : Msg → Bool) (F : Msg → Res (List Byte)),
        arrivedRun (drawn W β α s0 s1 tb) db q inOrder mal early F = (do
          let b ← F ⟨q.info, km⟩
          reconstructBytes 5 (clientState β α) (if early ⟨q.info, km⟩ then [b, bh] else [bh, b])) ∧
        (arriveView (drawn W β α s0 s1 tb) db q inOrder mal early F).1 = ok ⟨q.info, km⟩ := by
  obtain ⟨k0, k1, o, hg, hsec⟩ := keys_five hS.cipher hS.draw hS.canonical hS.buf q.input β α s0 s1 tb
  obtain ⟨hrec, hT⟩ := hsec (mal == inOrder)
  obtain ⟨rnd', hd⟩ := drawKeys_mac hS.fuel β α
  have hq : query W.env W.fuel 5 (macSource β α) W.buf (List.ofFn s0 ++ [tb]) (List.ofFn s1) q 2 =
      ok ([⟨q.info, k0⟩, ⟨q.info, k1⟩], clientState β α, rnd', o) := by
    unfold query
    rw [if_neg (by simp), hd]
    simp only [ok_bind]
    rw [show (clientState β α).a = vals (shared β) α from rfl, hg]
    rfl
  refine ⟨_, _, hrec, hT, ⟨_, _, _, hq, by cases (mal == inOrder) <;> simp, by cases (mal == inOrder) <;> simp⟩, ?_⟩
  intro bh hserve early F
  unfold arriveView arrivedRun
  simp only [show (drawn W β α s0 s1 tb).env = W.env from rfl, show (drawn W β α s0 s1 tb).fuel = W.fuel from rfl,
    show (drawn W β α s0 s1 tb).rnd = macSource β α from rfl, show (drawn W β α s0 s1 tb).buf = W.buf from rfl,
    show (drawn W β α s0 s1 tb).r1 = List.ofFn s0 ++ [tb] from rfl, show (drawn W β α s0 s1 tb).r2 = List.ofFn s1 from rfl,
    show ∀ sn m, (drawn W β α s0 s1 tb).serve sn 5 db m = W.serve sn 5 db m from fun _ _ => rfl]
  rw [hq]
  simp only [ok_bind]
  rw [show idx [(⟨q.info, k0⟩ : Msg), ⟨q.info, k1⟩] (if inOrder then 0 else 1)
      = ok ⟨q.info, if inOrder then k0 else k1⟩ by cases inOrder <;> rfl,
    show idx [(⟨q.info, k0⟩ : Msg), ⟨q.info, k1⟩] (if inOrder then 1 else 0)
      = ok ⟨q.info, if inOrder then k1 else k0⟩ by cases inOrder <;> rfl]
  simp only [ok_bind]
  cases mal
  · have hb : (if (false == inOrder) = true then k1 else k0) = if inOrder then k0 else k1 := by cases inOrder <;> rfl
    have hb' : (if (false == inOrder) = true then k0 else k1) = if inOrder then k1 else k0 := by cases inOrder <;> rfl
    rw [hb'] at hserve
    rw [hb]
    refine ⟨?_, by cases inOrder <;> rfl⟩
    simp only [Bool.false_eq_true, if_false] at hserve ⊢
    cases F ⟨q.info, if inOrder then k0 else k1⟩ with
    | ok b =>
      simp only [ok_bind, hserve]
      cases early ⟨q.info, if inOrder then k0 else k1⟩ <;> rfl
    | err m => rfl
    | crash m => rfl
  · have hb : (if (true == inOrder) = true then k1 else k0) = if inOrder then k1 else k0 := by cases inOrder <;> rfl
    have hb' : (if (true == inOrder) = true then k0 else k1) = if inOrder then k0 else k1 := by cases inOrder <;> rfl
    rw [hb'] at hserve
    rw [hb]
    refine ⟨?_, by cases inOrder <;> rfl⟩
    simp only [if_true] at hserve ⊢
    rw [hserve]
    simp only [ok_bind]
    congr 1
    funext a
    cases early ⟨q.info, if inOrder then k1 else k0⟩ <;> rfl

/-- A run with a result: the words of which it is made. -/
theorem arrivedRun_eq {W : World} {mal : Bool} {e : U32} {fr : Nat → U32} (hS : Setup W mal e fr) (db : KeyDB)
    (q : Query.ClientFSS) (inOrder : Bool) (F : Msg → Res (List Byte)) (β : Fin 3 → Fin p) (α : Fin p)
    (s0 s1 : Fin 16 → Byte) (tb : Byte) :
    ∃ km kh, received W.env (mal == inOrder) q.input (shared β) s0 s1 tb α = ok km ∧
      Twins W.env.E e (mal == inOrder) q.input (vals (shared β) α) km kh ∧
      ∀ bh H, W.serve (if mal then 0 else 1) 5 db ⟨q.info, kh⟩ = ok bh → Utils.byteSliceToUint32Slice bh = ok H →
        ∀ early r, arrivedRun (drawn W β α s0 s1 tb) db q inOrder mal (fun _ => early) F = ok r →
          reconstruct 5 (clientState β α) (if early then [wordsOf q F km, H] else [H, wordsOf q F km]) = ok r := by
  obtain ⟨km, kh, hkm, hT, -, hform⟩ := arrivedRun_form hS db q inOrder β α s0 s1 tb
  refine ⟨km, kh, hkm, hT, ?_⟩
  intro bh H hserve hdec early r hrun
  rw [(hform bh hserve _ F).1, bind_eq_ok] at hrun
  obtain ⟨b, hb, hrun⟩ := hrun
  rw [← hrun, wordsOf_ok hb]
  cases early
  · exact (reconstructBytes_words 5 _ _ _ _ _ hdec (Panic.words_eq b)).symm
  · exact (reconstructBytes_words 5 _ _ _ _ _ (Panic.words_eq b) hdec).symm

/-- The bound for counts, in either order of arrival. -/
theorem order_count_bound {W : World} {mal : Bool} {e : U32} {fr : Nat → U32} (hS : Setup W mal e fr) {db : KeyDB}
    (hdb : Loaded db) {q : Query.ClientFSS} (ha : q.info.avg = false) (hs : q.info.sum = false)
    (ht : q.info.and = true ∨ q.info.target ≤ 2)
    (hsel : ∀ ki ∈ db.keys, keyId W.hash q.info ki = ok (selOf W.hash q.info ki))
    (hlen : ∀ ki ∈ db.keys, ∀ id, selOf W.hash q.info ki = some id → id.length = q.input.length) (inOrder : Bool)
    (F : Msg → Res (List Byte)) :
    arriveProb W db q inOrder mal F
        (fun _ n => n ≠ due inOrder (settingOf W db q inOrder mal e fr (fun _ _ => 1)).total)
      ≤ forgeGap (settingOf W db q inOrder mal e fr (fun _ _ => 1)) (wordsOf q F) + 864 / (p : ℚ) ^ 3 := by
  have m := testMean_le hS db q inOrder (fun _ _ => 1) (forgeTest (settingOf W db q inOrder mal e fr (fun _ _ => 1)) (wordsOf q F))
    (forgeTest_nonneg _ _) (forgeTest_avg _ _)
  rw [show (16 : ℚ) * (54 / (p : ℚ) ^ 3) = 864 / (p : ℚ) ^ 3 by ring] at m
  refine le_trans (runMean_mono ?_) m
  intro β α s0 s1 tb
  obtain ⟨km, kh, hkm, hT, hrun⟩ := arrivedRun_eq hS db q inOrder F β α s0 s1 tb
  obtain ⟨b, H, h1, h2, h3, h4⟩ := honest_count hS hdb ha hs ht hsel hlen hT.okh
  split
  · rename_i hbad
    obtain ⟨early, r, hr, hbad⟩ := hbad
    have hrec := hrun b H h1 h2 early r hr
    rw [hkm]
    unfold forgeTest
    simp only
    rw [if_pos]
    have hTM : TagsMatch β α (wordsOf q F km) H ∧ r.toNat = dataOf (wordsOf q F km) H := by
      cases early
      swap
      · obtain ⟨hd, htag⟩ := reconstruct_count_ok (Or.inr h3) hrec
        exact tagsMatch_of (mal := false) (fun i => rfl) hd htag
      · obtain ⟨hd, htag⟩ := reconstruct_count_ok (Or.inl h3) hrec
        exact tagsMatch_of (mal := true) (fun i => rfl) hd htag
    rw [hTM.2] at hbad
    exact forgeable_of (S := settingOf W db q inOrder mal e fr (fun _ _ => 1)) hT (recsTo_length hlen) h3 h4 hTM.1
      (wrong_of (dataOf_lt _ _) hbad)
  · exact forgeTest_nonneg _ _ _ _ _

/-- The bound for averages with any number of words, in either order of arrival. -/
theorem order_either_bound {W : World} {mal : Bool} {e : U32} {fr : Nat → U32} (hS : Setup W mal e fr) {db : KeyDB}
    (hdb : Loaded db) {q : Query.ClientFSS} (ha : q.info.avg = true) (hs : q.info.sum = false) (ht : q.info.and = true)
    (hsel : ∀ ki ∈ db.keys, keyId W.hash q.info ki = ok (selOf W.hash q.info ki))
    (hlen : ∀ ki ∈ db.keys, ∀ id, selOf W.hash q.info ki = some id → id.length = q.input.length) (inOrder : Bool)
    (hage : ∀ i, ∀ ki ∈ db.keys, honestNow W mal i - ki.creation.year < 2 ^ 32)
    (F : Msg → Res (List Byte)) :
    arriveProb W db q inOrder mal F
        (fun early n => ¬ Acceptable early inOrder (settingOf W db q inOrder mal e fr (ageOf (honestNow W mal))).total
          (settingOf W db q inOrder mal e fr (isAged (honestNow W mal))).total n)
      ≤ eitherGap (settingOf W db q inOrder mal e fr (isAged (honestNow W mal)))
          (settingOf W db q inOrder mal e fr (ageOf (honestNow W mal))) (wordsOf q F) + 1728 / (p : ℚ) ^ 3 := by
  have m := testMean_le hS db q inOrder (isAged (honestNow W mal))
    (eitherTest (settingOf W db q inOrder mal e fr (isAged (honestNow W mal)))
      (settingOf W db q inOrder mal e fr (ageOf (honestNow W mal))) (wordsOf q F)) (eitherTest_nonneg _ _ _)
      (eitherTest_avg _ _ _)
  rw [show (16 : ℚ) * (108 / (p : ℚ) ^ 3) = 1728 / (p : ℚ) ^ 3 by ring] at m
  refine le_trans (runMean_mono ?_) m
  intro β α s0 s1 tb
  obtain ⟨km, kh, hkm, hT, hrun⟩ := arrivedRun_eq hS db q inOrder F β α s0 s1 tb
  obtain ⟨b, H, h1, h2, h3, h4⟩ := honest_avg hS hdb ha hs ht hsel hage hlen hT.okh
  split
  swap
  · exact eitherTest_nonneg _ _ _ _ _ _
  rename_i hbad
  obtain ⟨early, r, hr, hbad⟩ := hbad
  have hrec := hrun b H h1 h2 early r hr
  rw [hkm]
  by_cases hcnt : early = true ∧ (wordsOf q F km).length ≠ 10
  · obtain ⟨rfl, h10⟩ := hcnt
    obtain ⟨hd, htag⟩ := reconstruct_other_ok h10 hrec
    have hTM := tagsMatch_of (mal := false) (fun i => rfl) hd htag
    refine eitherTest_wrong hT hlen (by omega) (fun j hj => (h4 j hj).1) hTM.1 ?_ _
    rw [← hTM.2]
    exact fun h => hbad (Or.inr ⟨rfl, h⟩)
  have hTM : ∃ c s : U32, divU32 s c = ok r ∧ 10 ≤ (wordsOf q F km).length ∧
      (TagsMatch β α (wordsOf q F km) H ∧ c.toNat = dataOf (wordsOf q F km) H) ∧
      (TagsMatch β α ((wordsOf q F km).drop 5) (H.drop 5) ∧
        s.toNat = dataOf ((wordsOf q F km).drop 5) (H.drop 5)) := by
    cases early
    swap
    · have h10 : (wordsOf q F km).length = 10 := by
        by_contra h
        exact hcnt ⟨rfl, h⟩
      obtain ⟨c, s, hc, hs, hd, -, htag⟩ := reconstruct_avg_ok h10 hrec
      refine ⟨c, s, hd, h10.ge, tagsMatch_of (mal := false) (fun i => rfl) hc (fun i hi => (htag i hi).1),
        tagsMatch_of (mal := false) (fun i => rfl) (a0 := (wordsOf q F km).drop 5) (a1 := H.drop 5) ?_ ?_⟩
      · rw [getD_drop5, getD_drop5]; exact hs
      · intro i hi
        rw [getD_drop5, getD_drop5]
        exact (htag i hi).2
    · obtain ⟨c, s, hc, hs, hd, h10, htag⟩ := reconstruct_avg_ok h3 hrec
      refine ⟨c, s, hd, h10, tagsMatch_of (mal := true) (fun i => rfl) hc (fun i hi => (htag i hi).1),
        tagsMatch_of (mal := true) (fun i => rfl) (a0 := H.drop 5) (a1 := (wordsOf q F km).drop 5) ?_ ?_⟩
      · rw [getD_drop5, getD_drop5]; exact hs
      · intro i hi
        rw [getD_drop5, getD_drop5]
        exact (htag i hi).2
  obtain ⟨c, s, hd, h10, ⟨t1, c1⟩, t2, c2⟩ := hTM
  have hq : c.toNat ≠ 0 ∧ r.toNat = s.toNat / c.toNat := by
    unfold divU32 at hd
    split at hd
    · cases hd
    · rename_i hz
      cases hd
      refine ⟨fun h => hz (BitVec.eq_of_toNat_eq (by simpa using h)), BitVec.toNat_udiv⟩
  have hor : c.toNat ≠ due inOrder (settingOf W db q inOrder mal e fr (isAged (honestNow W mal))).total ∨
      s.toNat ≠ due inOrder (settingOf W db q inOrder mal e fr (ageOf (honestNow W mal))).total := by
    by_contra hcon
    push Not at hcon
    exact hbad (Or.inl ⟨by rw [← hcon.1]; exact hq.1, by rw [← hcon.1, ← hcon.2]; exact hq.2⟩)
  rw [c1, c2] at hor
  exact le_trans (avgTest_wrong hT hlen h3 h4 h10 t1 t2 hor) (avgTest_either _ _ _ _ _ _)

/-- What the server sees in a run without coincidences, as long as neither first tag fits a wrong value. -/
theorem arriveAvg_foreseen {W : World} {mal : Bool} {e e' : U32} {fr fr' : Nat → U32} (hS : Setup W mal e fr)
    (hS' : Setup W (!mal) e' fr') {db : KeyDB} (hdb : Loaded db) {q : Query.ClientFSS} (ha : q.info.avg = true)
    (hs : q.info.sum = false) (ht : q.info.and = true) {now : Int} (hnow : ∀ m j, honestNow W m j = now)
    (hage : ∀ ki ∈ db.keys, now - ki.creation.year < 2 ^ 32)
    (hsel : ∀ ki ∈ db.keys, keyId W.hash q.info ki = ok (selOf W.hash q.info ki))
    (hlen : ∀ ki ∈ db.keys, ∀ id, selOf W.hash q.info ki = some id → id.length = q.input.length) (inOrder : Bool) (early : Msg → Bool)
    (F : Msg → Res (List Byte)) (hF : ∀ m b, F m = ok b → SmallTen b) {D : Res Msg × Res Unit → ℚ} (hD : IsTest D)
    (β : Fin 3 → Fin p) (α : Fin p) (s0 s1 : Fin 16 → Byte) (tb : Byte)
    (hno : NoHits (drawn W β α s0 s1 tb) 5 db q) :
    |D (arriveAvg (drawn W β α s0 s1 tb) db q inOrder mal early F)
      - foreseeAvgIn W db q.info mal early F ((settingOf W db q inOrder mal e fr (isAged (honestNow W mal))).total % p = 0) D
          (received W.env (mal == inOrder) q.input (shared β) s0 s1 tb α)|
      ≤ firstEither (settingOf W db q inOrder mal e fr (isAged (honestNow W mal)))
          (settingOf W db q inOrder mal e fr (ageOf (honestNow W mal))) (wordsOf q F)
          (received W.env (mal == inOrder) q.input (shared β) s0 s1 tb α) β α := by
  classical
  obtain ⟨km, kh, hkm, hT, ⟨ms, rnd', o, hms, mm, mh⟩, hform⟩ := arrivedRun_form hS db q inOrder β α s0 s1 tb
  have hnf : ∀ m, honestNow W m = fun _ => now := fun m => funext (hnow m)
  obtain ⟨bh, H, h1, h2, h3, h4⟩ := honest_avg hS hdb ha hs ht hsel (fun j ki hki => by rw [hnow]; exact hage ki hki) hlen hT.okh
  obtain ⟨bo, O, o1, o2, o3, o4⟩ := honest_avg hS' hdb ha hs ht hsel (fun j ki hki => by rw [hnow]; exact hage ki hki) hlen hT.okm
  have hli : W.serve (liar mal) 5 db ⟨q.info, km⟩ = ok bo := by
    rw [← o1]
    cases mal <;> rfl
  have hkey : ∀ ki ∈ db.keys, ∀ id, selOf W.hash q.info ki = some id → keyId W.hash q.info ki = ok (some id) :=
    fun ki hki id hid => by rw [hsel ki hki, hid]
  have cm : ∀ ki ∈ db.keys, ∀ id, selOf W.hash q.info ki = some id → Clear W.env.E km id := fun ki hki id hid =>
    evalNoHit_clear hS.cipher (by rw [hlen ki hki id hid]; exact hT.okm)
      (hno.2 ms _ _ _ hms _ mm ki hki id (hkey ki hki id hid))
  have ch : ∀ ki ∈ db.keys, ∀ id, selOf W.hash q.info ki = some id → Clear W.env.E kh id := fun ki hki id hid =>
    evalNoHit_clear hS.cipher (by rw [hlen ki hki id hid]; exact hT.okh)
      (hno.2 ms _ _ _ hms _ mh ki hki id (hkey ki hki id hid))
  have sH : ∀ j, j < 10 → (H.getD j 0).toNat < p := by
    intro j hj
    by_cases h5 : j < 5
    · rw [(h4 j h5).1]; exact Nat.mod_lt _ p_pos
    · rw [show j = 5 + (j - 5) by omega, (h4 (j - 5) (by omega)).2]; exact Nat.mod_lt _ p_pos
  have sO : ∀ j, j < 10 → (O.getD j 0).toNat < p := by
    intro j hj
    by_cases h5 : j < 5
    · rw [(o4 j h5).1]; exact Nat.mod_lt _ p_pos
    · rw [show j = 5 + (j - 5) by omega, (o4 (j - 5) (by omega)).2]; exact Nat.mod_lt _ p_pos
  have hsgn : sgn (if (!mal) then 0 else 1) = - sgn (if mal then 0 else 1) := by
    cases mal <;> simp [sgn]
  have tot : ∀ (wt : Nat → KeyInfo → Nat) (A B : List U32),
      (∀ j, j < 5 → (A.getD j 0).toNat = realSum W.env.E (if (!mal) then 0 else 1) km
        (recsTo db.keys (selOf W.hash q.info) fr' wt db.numColumns) j) →
      (∀ j, j < 5 → (B.getD j 0).toNat = realSum W.env.E (if mal then 0 else 1) kh
        (recsTo db.keys (selOf W.hash q.info) fr wt db.numColumns) j) →
      TagsMatch β α A B ∧ dataOf A B = due inOrder (settingOf W db q inOrder mal e fr wt).total := by
    intro wt A B hA hB
    have h := tags_of_sums (S := settingOf W db q inOrder mal e fr wt) (β := β) (α := α) (O := A) (H := B)
      (fun j hj => by rw [hA j hj]; exact Nat.mod_lt _ p_pos) (fun j hj => by rw [hB j hj]; exact Nat.mod_lt _ p_pos) (by
        intro j hj
        rw [hA j hj, hB j hj, sums_total hS.cipher hT hlen cm ch hsgn hj db.numColumns (le_of_eq hdb)]
        unfold Setting.sign Setting.total settingOf sgn
        cases mal <;> simp only [Bool.false_eq_true, if_false, if_true] <;> ring)
    exact ⟨h.1, by_contra fun hne => h.2 (wrong_of (dataOf_lt _ _) hne)⟩
  have hO1 := tot (isAged (honestNow W mal)) O H (fun j hj => by rw [(o4 j hj).1, hnf, hnf]) (fun j hj => (h4 j hj).1)
  have hO2 := tot (ageOf (honestNow W mal)) (O.drop 5) (H.drop 5)
    (fun j hj => by rw [getD_drop5, (o4 j hj).2, hnf, hnf]) (fun j hj => by rw [getD_drop5]; exact (h4 j hj).2)
  have hrun := (hform bh h1 early F).1
  have hmsg := (hform bh h1 early F).2
  rw [hkm]
  have hv : arriveAvg (drawn W β α s0 s1 tb) db q inOrder mal early F = (ok ⟨q.info, km⟩, outcome (do
      let b ← F ⟨q.info, km⟩
      reconstructBytes 5 (clientState β α) (if early ⟨q.info, km⟩ then [b, bh] else [bh, b]))) := by
    unfold arriveAvg
    rw [hmsg, hrun]
  rw [hv]
  have n0 := firstEither_nonneg (settingOf W db q inOrder mal e fr (isAged (honestNow W mal)))
    (settingOf W db q inOrder mal e fr (ageOf (honestNow W mal))) (wordsOf q F) (ok km) β α
  have same : outcome (do
      let b ← F ⟨q.info, km⟩
      reconstructBytes 5 (clientState β α) (if early ⟨q.info, km⟩ then [b, bh] else [bh, b]))
      = outcome (foreseenAvgIn W db mal early F ((settingOf W db q inOrder mal e fr (isAged (honestNow W mal))).total % p = 0)
        ⟨q.info, km⟩) ∨
      1 ≤ firstEither (settingOf W db q inOrder mal e fr (isAged (honestNow W mal)))
          (settingOf W db q inOrder mal e fr (ageOf (honestNow W mal))) (wordsOf q F) (ok km) β α := by
    unfold foreseenAvgIn
    cases hFm : F ⟨q.info, km⟩ with
    | err m => exact Or.inl rfl
    | crash m => exact Or.inl rfl
    | ok b =>
      simp only [ok_bind, hli]
      have hrec : reconstructBytes 5 (clientState β α) (if early ⟨q.info, km⟩ then [b, bh] else [bh, b])
          = reconstruct 5 (clientState β α) (if early ⟨q.info, km⟩ then [Panic.Spec.wordsOf b, H] else [H, Panic.Spec.wordsOf b]) := by
        cases early ⟨q.info, km⟩
        · exact reconstructBytes_words 5 _ _ _ _ _ h2 (Panic.words_eq b)
        · exact reconstructBytes_words 5 _ _ _ _ _ (Panic.words_eq b) h2
      rw [hrec, ← words_same o2]
      by_cases hor : (¬ Misfit β α (wordsOf q F km) H 0 ∧
          dataOf (wordsOf q F km) H ≠ due inOrder (settingOf W db q inOrder mal e fr (isAged (honestNow W mal))).total) ∨
        (¬ Misfit β α ((wordsOf q F km).drop 5) (H.drop 5) 0 ∧ dataOf ((wordsOf q F km).drop 5) (H.drop 5)
          ≠ due inOrder (settingOf W db q inOrder mal e fr (ageOf (honestNow W mal))).total)
      · exact Or.inr (firstEither_wrong hT hlen h3 h4 hor)
      · left
        rw [wordsOf_ok hFm, not_or, not_and_or, not_and_or, not_not, not_not, not_not, not_not] at hor
        rw [ends_compare_avg (early ⟨q.info, km⟩) h3 (hF _ _ hFm) sO sH hO1.1 hO2.1
          (fun hm => (hor.1.resolve_left hm).trans hO1.2.symm) (fun hm => (hor.2.resolve_left hm).trans hO2.2.symm),
          hO1.2, outcome_endsAvg]
        simp only [due_zero]
  rcases same with h | h
  · show |D (_, _) - D (_, _)| ≤ _
    rw [h, sub_self, abs_zero]
    exact n0
  · exact abs_unit (hD _) (hD _) h

/-- What the server sees, as long as the honest run goes well and the first tag does not fit a wrong number. -/
theorem arriveView_foreseen {W : World} {mal : Bool} {e e' : U32} {fr fr' : Nat → U32} (hS : Setup W mal e fr)
    (hS' : Setup W (!mal) e' fr') {db : KeyDB} (hdb : Loaded db) {q : Query.ClientFSS} (ha : q.info.avg = false)
    (hs : q.info.sum = false) (ht : q.info.and = true ∨ q.info.target ≤ 2)
    (hsel : ∀ ki ∈ db.keys, keyId W.hash q.info ki = ok (selOf W.hash q.info ki))
    (hlen : ∀ ki ∈ db.keys, ∀ id, selOf W.hash q.info ki = some id → id.length = q.input.length) (inOrder : Bool) (early : Msg → Bool)
    (F : Msg → Res (List Byte)) (hF : ∀ m b, F m = ok b → SmallStart b) (D : Res Msg × Res Unit → ℚ)
    (β : Fin 3 → Fin p) (α : Fin p) (s0 s1 : Fin 16 → Byte) (tb : Byte)
    (hgood : (drawn W β α s0 s1 tb).run 5 db q inOrder
      = ok (BitVec.ofNat 32 (due inOrder (settingOf W db q inOrder mal e fr (fun _ _ => 1)).total)))
    (hno : firstTest (settingOf W db q inOrder mal e fr (fun _ _ => 1)) (wordsOf q F)
      (received W.env (mal == inOrder) q.input (shared β) s0 s1 tb α) β α = 0) :
    D (arriveView (drawn W β α s0 s1 tb) db q inOrder mal early F)
      = foreseeIn W db q.info mal early F D (received W.env (mal == inOrder) q.input (shared β) s0 s1 tb α) := by
  obtain ⟨km, kh, hkm, hT, -, hform⟩ := arrivedRun_form hS db q inOrder β α s0 s1 tb
  obtain ⟨bh, H, h1, h2, h3, h4⟩ := honest_count hS hdb ha hs ht hsel hlen hT.okh
  obtain ⟨bo, O, o1, o2, o3, o4⟩ := honest_count hS' hdb ha hs ht hsel hlen hT.okm
  have hli : W.serve (liar mal) 5 db ⟨q.info, km⟩ = ok bo := by
    rw [← o1]
    cases mal <;> rfl
  have sH : ∀ j, j < 5 → (H.getD j 0).toNat < p := fun j hj => by rw [h4 j hj]; exact Nat.mod_lt _ p_pos
  have sO : ∀ j, j < 5 → (O.getD j 0).toNat < p := fun j hj => by rw [o4 j hj]; exact Nat.mod_lt _ p_pos
  have hst : (clientState β α).alphas.length = 5 := rfl
  rw [run_eq_forged _ db q inOrder mal, ← arrivedRun_usual, (hform bh h1 (fun _ => !mal) _).1] at hgood
  have hli' : (drawn W β α s0 s1 tb).serve (liar mal) 5 db ⟨q.info, km⟩ = ok bo := hli
  rw [hli'] at hgood
  simp only [ok_bind] at hgood
  generalize hn : due inOrder (settingOf W db q inOrder mal e fr (fun _ _ => 1)).total = n at hgood
  have hon : reconstruct 5 (clientState β α) [O, H] = ok (BitVec.ofNat 32 n) := by
    rw [← hgood]
    cases mal
    · exact (reconstructBytes_words 5 _ _ _ _ _ o2 h2).symm
    · rw [← reconstruct_comm hst o3 h3]
      exact (reconstructBytes_words 5 _ _ _ _ _ h2 o2).symm
  have hv : arriveView (drawn W β α s0 s1 tb) db q inOrder mal early F = (ok ⟨q.info, km⟩, foreseenIn W db mal early F ⟨q.info, km⟩) := by
    apply Prod.ext
    · exact (hform bh h1 early F).2
    · show ending (arrivedRun (drawn W β α s0 s1 tb) db q inOrder mal early F) = _
      rw [(hform bh h1 early F).1]
      unfold foreseenIn
      cases hFm : F ⟨q.info, km⟩ with
      | ok b =>
        simp only [ok_bind, hli]
        have hrec : reconstructBytes 5 (clientState β α) (if early ⟨q.info, km⟩ then [b, bh] else [bh, b])
            = reconstruct 5 (clientState β α) (if early ⟨q.info, km⟩ then [Panic.Spec.wordsOf b, H] else [H, Panic.Spec.wordsOf b]) := by
          cases early ⟨q.info, km⟩
          · exact reconstructBytes_words 5 _ _ _ _ _ h2 (Panic.words_eq b)
          · exact reconstructBytes_words 5 _ _ _ _ _ (Panic.words_eq b) h2
        rw [hrec, ← words_same o2]
        refine ends_compare hst (early ⟨q.info, km⟩) o3 h3 (hF _ _ hFm) sO sH hon (fun htag => ?_)
        by_contra hne
        rw [hkm] at hno
        unfold firstTest at hno
        simp only at hno
        rw [if_pos] at hno
        · exact one_ne_zero hno
        · refine firstForgeable_of (S := settingOf W db q inOrder mal e fr (fun _ _ => 1)) hT (recsTo_length hlen) h3 h4 ?_
            (wrong_of (dataOf_lt _ _) ?_)
          · rw [wordsOf_ok hFm]
            exact htag
          · rw [wordsOf_ok hFm, hn]
            intro hc
            exact hne (toNat_due hc)
      | err m => rfl
      | crash m => rfl
  rw [hv, hkm]
  rfl

end Verif.Forge
