import Verif.Spec.AverageLength
import Verif.Lemmas.ReactionAverage

/-! # Average queries with a forging server that sends any number of words -/

namespace Verif.Forge
open Res Verif.Field Verif.Field.Spec Verif.Fss Verif.Fss.Spec Verif.Privacy Verif.Predicate Verif.Predicate.Spec
  Verif.Forge.Spec Finset
set_option linter.constructorNameAsVariable false

/-- A first answer of other than ten words is taken for a count. -/
theorem reconstruct_other_ok {st : State} {a0 a1 : List U32} {r : U32} (hl : a0.length ≠ 10)
    (h : reconstruct 5 st [a0, a1] = ok r) :
    r = (a0.getD 0 0 + a1.getD 0 0) % modP ∧
      ∀ i, i < 4 → tagOf r (st.alphas.getD i 0) = (a0.getD (i + 1) 0 + a1.getD (i + 1) 0) % modP := by
  unfold reconstruct at h
  rw [idx_of_lt (l := [a0, a1]) (i := 0) (by simp), idx_of_lt (l := [a0, a1]) (i := 1) (by simp)] at h
  simp only [ok_bind, List.getElem_cons_zero, List.getElem_cons_succ] at h
  rw [if_neg hl] at h
  simp only [bind_eq_ok] at h
  obtain ⟨d0, h0, d1, h1, ⟨⟩, hloop, hr⟩ := h
  simp only [ok.injEq] at hr
  rw [getD_of_idx h0, getD_of_idx h1, hr]
  refine ⟨rfl, ?_⟩
  intro i hi
  have hb := check_loop_ok _ _ _ hloop i (by omega)
  simp only [bind_eq_ok] at hb
  obtain ⟨al, ha, x0, hx0, x1, hx1, hif⟩ := hb
  rw [getD_of_idx ha, getD_of_idx hx0, getD_of_idx hx1]
  by_contra hne
  rw [hr] at hif
  rw [if_pos hne] at hif
  cases hif

theorem eitherTest_nonneg (S1 S2 : Setting) (A : Key → List U32) (k : Res Key) (β : Fin 3 → Fin p) (α : Fin p) :
    0 ≤ eitherTest S1 S2 A k β α :=
  add_nonneg (forgeTest_nonneg _ _ _ _ _) (forgeTest_nonneg _ _ _ _ _)

theorem eitherTest_avg (S1 S2 : Setting) (A : Key → List U32) (k : Key) (α : Fin p) :
    avg (fun β => eitherTest S1 S2 A (ok k) β α) ≤ 108 / (p : ℚ) ^ 3 := by
  have h := add_le_add (forgeTest_avg S1 A k α) (forgeTest_avg S2 (fun k => (A k).drop 5) k α)
  rw [avg_add] at h
  exact le_trans h (le_of_eq (by ring))

theorem avgTest_either (S1 S2 : Setting) (A : Key → List U32) (k : Res Key) (β : Fin 3 → Fin p) (α : Fin p) :
    avgTest S1 S2 A k β α ≤ eitherTest S1 S2 A k β α := by
  unfold avgTest
  split
  · split
    · exact le_refl _
    · exact eitherTest_nonneg _ _ _ _ _ _
  · exact eitherTest_nonneg _ _ _ _ _ _

/-- When the client's checks of the first five words succeed for a wrong number, key and MAC keys are such that this is
possible. -/
theorem eitherTest_wrong {W : World} {mal : Bool} {e : U32} {fr : Nat → U32} {db : KeyDB} {q : Query.ClientFSS} {inOrder : Bool}
    {β : Fin 3 → Fin p} {α : Fin p} {km kh : Key}
    (hT : Twins W.env.E e (mal == inOrder) q.input (vals (shared β) α) km kh)
    (hlen : ∀ ki ∈ db.keys, ∀ id, selOf W.hash q.info ki = some id → id.length = q.input.length) {H : List U32}
    (h3 : 5 ≤ H.length)
    (h4 : ∀ j, j < 5 → (H.getD j 0).toNat = realSum W.env.E (if mal then 0 else 1) kh
          (recsTo db.keys (selOf W.hash q.info) fr (isAged (honestNow W mal)) db.numColumns) j)
    {A : Key → List U32} (t1 : TagsMatch β α (A km) H)
    (hbad : dataOf (A km) H ≠ due inOrder (settingOf W db q inOrder mal e fr (isAged (honestNow W mal))).total) (S2 : Setting) :
    1 ≤ eitherTest (settingOf W db q inOrder mal e fr (isAged (honestNow W mal))) S2 A (ok km) β α := by
  have n2 := forgeTest_nonneg S2 (fun k => (A k).drop 5) (ok km) β α
  have e1 : forgeTest (settingOf W db q inOrder mal e fr (isAged (honestNow W mal))) A (ok km) β α = 1 := by
    unfold forgeTest
    simp only
    rw [if_pos]
    refine forgeable_of (S := settingOf W db q inOrder mal e fr (isAged (honestNow W mal))) (H := H.take 5) hT
      (recsTo_length hlen) (by simp [h3]) ?_ ?_ (wrong_of (dataOf_lt _ _) ?_)
    · intro j hj
      rw [getD_take5 _ hj]
      exact h4 j hj
    · intro i hi
      rw [getD_take5 _ (by omega), getD_take5 _ (by omega)]
      exact t1 i hi
    · unfold dataOf
      rw [getD_take5 _ (by omega)]
      exact hbad
  unfold eitherTest
  rw [e1]
  linarith

/-- The bound for any number of words. -/
theorem either_bound {W : World} {mal : Bool} {e : U32} {fr : Nat → U32} (hS : Setup W mal e fr) {db : KeyDB}
    (hdb : Loaded db) {q : Query.ClientFSS} (ha : q.info.avg = true) (hs : q.info.sum = false) (ht : q.info.and = true)
    (hsel : ∀ ki ∈ db.keys, keyId W.hash q.info ki = ok (selOf W.hash q.info ki))
    (hlen : ∀ ki ∈ db.keys, ∀ id, selOf W.hash q.info ki = some id → id.length = q.input.length) (inOrder : Bool)
    (hage : ∀ i, ∀ ki ∈ db.keys, honestNow W mal i - ki.creation.year < 2 ^ 32)
    (F : Msg → Res (List Byte)) :
    forgeProb W db q inOrder mal F
        (fun n => ¬ Permitted mal inOrder (settingOf W db q inOrder mal e fr (ageOf (honestNow W mal))).total
          (settingOf W db q inOrder mal e fr (isAged (honestNow W mal))).total n)
      ≤ eitherGap (settingOf W db q inOrder mal e fr (isAged (honestNow W mal)))
          (settingOf W db q inOrder mal e fr (ageOf (honestNow W mal))) (wordsOf q F) + 1728 / (p : ℚ) ^ 3 := by
  have m := testMean_le hS db q inOrder (isAged (honestNow W mal))
    (eitherTest (settingOf W db q inOrder mal e fr (isAged (honestNow W mal)))
      (settingOf W db q inOrder mal e fr (ageOf (honestNow W mal))) (wordsOf q F)) (eitherTest_nonneg _ _ _)
      (eitherTest_avg _ _ _)
  rw [show (16 : ℚ) * (108 / (p : ℚ) ^ 3) = 1728 / (p : ℚ) ^ 3 by ring] at m
  refine le_trans (runMean_mono ?_) m
  intro β α s0 s1 tb
  obtain ⟨km, kh, hkm, hT, hrun⟩ := forgedRun_eq hS db q inOrder F β α s0 s1 tb
  obtain ⟨b, H, h1, h2, h3, h4⟩ := honest_avg hS hdb ha hs ht hsel hage hlen hT.okh
  split
  swap
  · exact eitherTest_nonneg _ _ _ _ _ _
  rename_i hbad
  obtain ⟨r, hr, hbad⟩ := hbad
  have hrec := hrun b H h1 h2 r hr
  rw [hkm]
  by_cases hcnt : mal = false ∧ (wordsOf q F km).length ≠ 10
  · obtain ⟨rfl, h10⟩ := hcnt
    obtain ⟨hd, htag⟩ := reconstruct_other_ok h10 hrec
    have hTM := tagsMatch_of (mal := false) (fun i => rfl) hd htag
    refine eitherTest_wrong hT hlen (by omega) (fun j hj => (h4 j hj).1) hTM.1 ?_ _
    rw [← hTM.2]
    exact fun h => hbad (Or.inr ⟨rfl, h⟩)
  have hTM : ∃ c s : U32, divU32 s c = ok r ∧ 10 ≤ (wordsOf q F km).length ∧
      (TagsMatch β α (wordsOf q F km) H ∧ c.toNat = dataOf (wordsOf q F km) H) ∧
      (TagsMatch β α ((wordsOf q F km).drop 5) (H.drop 5) ∧
        s.toNat = dataOf ((wordsOf q F km).drop 5) (H.drop 5)) := by
    cases mal
    · have h10 : (wordsOf q F km).length = 10 := by
        by_contra h
        exact hcnt ⟨rfl, h⟩
      obtain ⟨c, s, hc, hs, hd, -, htag⟩ := reconstruct_avg_ok h10 hrec
      refine ⟨c, s, hd, h10.ge, tagsMatch_of (mal := false) (fun i => rfl) hc (fun i hi => (htag i hi).1),
        tagsMatch_of (mal := false) (fun i => rfl) (a0 := (wordsOf q F km).drop 5) (a1 := H.drop 5) ?_ ?_⟩
      · rw [getD_drop5, getD_drop5]; exact hs
      · intro i hi
        rw [getD_drop5, getD_drop5]
        exact (htag i hi).2
    · obtain ⟨c, s, hc, hs, hd, h10, htag⟩ := reconstruct_avg_ok h3 hrec
      refine ⟨c, s, hd, h10, tagsMatch_of (mal := true) (fun i => rfl) hc (fun i hi => (htag i hi).1),
        tagsMatch_of (mal := true) (fun i => rfl) (a0 := H.drop 5) (a1 := (wordsOf q F km).drop 5) ?_ ?_⟩
      · rw [getD_drop5, getD_drop5]; exact hs
      · intro i hi
        rw [getD_drop5, getD_drop5]
        exact (htag i hi).2
  obtain ⟨c, s, hd, h10, ⟨t1, c1⟩, t2, c2⟩ := hTM
  have hq : c.toNat ≠ 0 ∧ r.toNat = s.toNat / c.toNat := by
    unfold divU32 at hd
    split at hd
    · cases hd
    · rename_i hz
      cases hd
      refine ⟨fun h => hz (BitVec.eq_of_toNat_eq (by simpa using h)), BitVec.toNat_udiv⟩
  have hor : c.toNat ≠ due inOrder (settingOf W db q inOrder mal e fr (isAged (honestNow W mal))).total ∨
      s.toNat ≠ due inOrder (settingOf W db q inOrder mal e fr (ageOf (honestNow W mal))).total := by
    by_contra hcon
    push Not at hcon
    exact hbad (Or.inl ⟨by rw [← hcon.1]; exact hq.1, by rw [← hcon.1, ← hcon.2]; exact hq.2⟩)
  rw [c1, c2] at hor
  exact le_trans (avgTest_wrong hT hlen h3 h4 h10 t1 t2 hor) (avgTest_either _ _ _ _ _ _)

end Verif.Forge
