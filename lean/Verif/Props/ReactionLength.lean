import Verif.Lemmas.ReactionAverageLength
import Verif.Props.ReactionAverage

/-! # C154: what a lying server of a count query learns from the client's reaction to answers of any length -/

namespace Verif.Forge
open Res Verif.Field Verif.Field.Spec Verif.Fss Verif.Fss.Spec Verif.Privacy Verif.Predicate Verif.Predicate.Spec
  Verif.Reaction Verif.Forge.Spec Finset
set_option linter.constructorNameAsVariable false

theorem foreseeTest_unit (W : World) (db : KeyDB) (i : Query.Info) (mal : Bool) (F : Msg → Res (List Byte))
    {D : Res Msg × Res Unit → ℚ} (hD : IsTest D) (k : Res Key) :
    0 ≤ foreseeTest W db i mal F D k ∧ foreseeTest W db i mal F D k ≤ 1 := by
  cases k with
  | ok k => exact hD _
  | err m => exact ⟨le_refl _, zero_le_one⟩
  | crash m => exact ⟨le_refl _, zero_le_one⟩

/-- What the server sees, as long as the honest run goes well and the first tag does not fit a wrong number. -/
theorem view_foreseen {W : World} {mal : Bool} {e e' : U32} {fr fr' : Nat → U32} (hS : Setup W mal e fr)
    (hS' : Setup W (!mal) e' fr') {db : KeyDB} (hdb : Loaded db) {q : Query.ClientFSS} (ha : q.info.avg = false)
    (hs : q.info.sum = false) (ht : q.info.and = true ∨ q.info.target ≤ 2)
    (hsel : ∀ ki ∈ db.keys, keyId W.hash q.info ki = ok (selOf W.hash q.info ki))
    (hlen : ∀ ki ∈ db.keys, ∀ id, selOf W.hash q.info ki = some id → id.length = q.input.length) (inOrder : Bool)
    (F : Msg → Res (List Byte)) (hF : ∀ m b, F m = ok b → SmallStart b) (D : Res Msg × Res Unit → ℚ)
    (β : Fin 3 → Fin p) (α : Fin p) (s0 s1 : Fin 16 → Byte) (tb : Byte)
    (hgood : (drawn W β α s0 s1 tb).run 5 db q inOrder
      = ok (BitVec.ofNat 32 (due inOrder (settingOf W db q inOrder mal e fr (fun _ _ => 1)).total)))
    (hno : firstTest (settingOf W db q inOrder mal e fr (fun _ _ => 1)) (wordsOf q F)
      (received W.env (mal == inOrder) q.input (shared β) s0 s1 tb α) β α = 0) :
    D (view (drawn W β α s0 s1 tb) db q inOrder mal F)
      = foreseeTest W db q.info mal F D (received W.env (mal == inOrder) q.input (shared β) s0 s1 tb α) := by
  obtain ⟨km, kh, hkm, hT, -, hform⟩ := forgedRun_form hS db q inOrder β α s0 s1 tb
  obtain ⟨bh, H, h1, h2, h3, h4⟩ := honest_count hS hdb ha hs ht hsel hlen hT.okh
  obtain ⟨bo, O, o1, o2, o3, o4⟩ := honest_count hS' hdb ha hs ht hsel hlen hT.okm
  have hli : W.serve (liar mal) 5 db ⟨q.info, km⟩ = ok bo := by
    rw [← o1]
    cases mal <;> rfl
  have sH : ∀ j, j < 5 → (H.getD j 0).toNat < p := fun j hj => by rw [h4 j hj]; exact Nat.mod_lt _ p_pos
  have sO : ∀ j, j < 5 → (O.getD j 0).toNat < p := fun j hj => by rw [o4 j hj]; exact Nat.mod_lt _ p_pos
  have hst : (clientState β α).alphas.length = 5 := rfl
  rw [run_eq_forged _ db q inOrder mal, (hform bh h1 _).1] at hgood
  have hli' : (drawn W β α s0 s1 tb).serve (liar mal) 5 db ⟨q.info, km⟩ = ok bo := hli
  rw [hli'] at hgood
  simp only [ok_bind] at hgood
  generalize hn : due inOrder (settingOf W db q inOrder mal e fr (fun _ _ => 1)).total = n at hgood
  have hon : reconstruct 5 (clientState β α) [O, H] = ok (BitVec.ofNat 32 n) := by
    rw [← hgood]
    cases mal
    · exact (reconstructBytes_words 5 _ _ _ _ _ o2 h2).symm
    · rw [← reconstruct_comm hst o3 h3]
      exact (reconstructBytes_words 5 _ _ _ _ _ h2 o2).symm
  have hv : view (drawn W β α s0 s1 tb) db q inOrder mal F = (ok ⟨q.info, km⟩, foreseen W db mal F ⟨q.info, km⟩) := by
    apply Prod.ext
    · exact (hform bh h1 F).2
    · show ending (forgedRun (drawn W β α s0 s1 tb) db q inOrder mal F) = _
      rw [(hform bh h1 F).1]
      unfold foreseen
      cases hFm : F ⟨q.info, km⟩ with
      | ok b =>
        simp only [ok_bind, hli]
        have hrec : reconstructBytes 5 (clientState β α) (if mal then [bh, b] else [b, bh])
            = reconstruct 5 (clientState β α) (if !mal then [Panic.Spec.wordsOf b, H] else [H, Panic.Spec.wordsOf b]) := by
          cases mal
          · exact reconstructBytes_words 5 _ _ _ _ _ (Panic.words_eq b) h2
          · exact reconstructBytes_words 5 _ _ _ _ _ h2 (Panic.words_eq b)
        rw [hrec, ← words_same o2]
        refine ends_compare hst (!mal) o3 h3 (hF _ _ hFm) sO sH hon (fun htag => ?_)
        by_contra hne
        rw [hkm] at hno
        unfold firstTest at hno
        simp only at hno
        rw [if_pos] at hno
        · exact one_ne_zero hno
        · refine firstForgeable_of (S := settingOf W db q inOrder mal e fr (fun _ _ => 1)) hT (recsTo_length hlen) h3 h4 ?_
            (wrong_of (dataOf_lt _ _) ?_)
          · rw [wordsOf_ok hFm]
            exact htag
          · rw [wordsOf_ok hFm, hn]
            intro hc
            exact hne (toNat_due hc)
      | err m => rfl
      | crash m => rfl
  rw [hv, hkm]
  rfl

open Classical in
/-- C154, simulation: a server that answers a count query with any number of words, none of the first five above 2^32 minus the
modulus, can tell the client's reaction in advance: it compares the words that the client reads with those it was asked for, and
takes the number of words into account. The prediction fails at most with the probability that the first tag fits a wrong number
or that an honest run goes wrong. -/
theorem C154_simulated (W : World) (db : KeyDB) (q : Query.ClientFSS) (mal inOrder : Bool) (e e' : U32) (fr fr' : Nat → U32)
    (F : Msg → Res (List Byte)) (D : Res Msg × Res Unit → ℚ) (hh : ∀ t, (W.hash t).length = 32) (hS : Setup W mal e fr)
    (hS' : Setup W (!mal) e' fr') (hdb : Loaded db) (mk : Int → Query.Time) (P : KeyInfo → Prop) (hq : Asks W.hash mk db q P)
    (hF : ∀ m b, F m = ok b → SmallStart b) (hD : IsTest D) :
    |viewProb W db q inOrder mal F D - avg (fun β : Fin 3 → Fin p =>
        viewMean W.env (mal == inOrder) q.input (shared β) (foreseeTest W db q.info mal F D))|
      ≤ firstGap (settingOf W db q inOrder mal e fr (fun _ _ => 1)) (wordsOf q F) + 96 / (p : ℚ)
        + failProb W db q inOrder (due inOrder (numMatching db P)) := by
  obtain ⟨h1, h2, h3, h4, f, hsel, hlen, hP⟩ := asks_selectors hh hq
  have hf : ∀ ki ∈ db.keys, selOf W.hash q.info ki = f ki := fun ki hki => selOf_ok (hsel ki hki)
  have hsel' : ∀ ki ∈ db.keys, keyId W.hash q.info ki = ok (selOf W.hash q.info ki) :=
    fun ki hki => by rw [hf ki hki]; exact hsel ki hki
  have hlen' : ∀ ki ∈ db.keys, ∀ id, selOf W.hash q.info ki = some id → id.length = q.input.length :=
    fun ki hki id hid => hlen ki hki id (by rw [← hf ki hki]; exact hid)
  have ht : (settingOf W db q inOrder mal e fr (fun _ _ => 1)).total = numMatching db P := by
    rw [setting_total hdb inOrder mal e fr (g := fun _ => 1) (fun _ _ _ => rfl) h4 hlen',
      ← numMatching_eq (f := selOf W.hash q.info) (a := q.input) (fun ki hki => by rw [hf ki hki]; exact hP ki hki),
      List.countP_eq_length_filter]
    simp
  have m := testMean_le hS db q inOrder (fun _ _ => 1) (firstTest (settingOf W db q inOrder mal e fr (fun _ _ => 1)) (wordsOf q F))
    (firstTest_nonneg _ _) (firstTest_avg _ _)
  rw [show (16 : ℚ) * (6 / (p : ℚ)) = 96 / (p : ℚ) by ring] at m
  refine le_trans ?_ (add_le_add m (le_refl _))
  unfold failProb
  rw [← runMean_add]
  apply runMean_switch
  intro β α s0 s1 tb
  have u1 := hD (view (drawn W β α s0 s1 tb) db q inOrder mal F)
  have u2 := foreseeTest_unit W db q.info mal F hD (received W.env (mal == inOrder) q.input (shared β) s0 s1 tb α)
  have u3 := firstTest_nonneg (settingOf W db q inOrder mal e fr (fun _ _ => 1)) (wordsOf q F)
    (received W.env (mal == inOrder) q.input (shared β) s0 s1 tb α) β α
  by_cases hg : (drawn W β α s0 s1 tb).run 5 db q inOrder = ok (BitVec.ofNat 32 (due inOrder (numMatching db P)))
  · rw [if_pos hg, add_zero]
    by_cases hb : firstTest (settingOf W db q inOrder mal e fr (fun _ _ => 1)) (wordsOf q F)
      (received W.env (mal == inOrder) q.input (shared β) s0 s1 tb α) β α = 0
    · rw [view_foreseen hS hS' hdb h1 h2 h3 hsel' hlen' inOrder F hF D β α s0 s1 tb (by rw [ht]; exact hg) hb, sub_self, abs_zero]
      exact u3
    · refine abs_unit u1 u2 ?_
      unfold firstTest at hb ⊢
      split at hb
      · split at hb
        · rename_i hc
          simp only [if_pos hc, le_refl]
        · exact absurd rfl hb
      · exact absurd rfl hb
  · rw [if_neg hg]
    exact abs_unit u1 u2 (le_add_of_nonneg_left u3)

/-- C154: one of the two servers answers a count query with any number of words, none of the first five above 2^32 minus the modulus,
in whatever way these depend on its message, and notices how the client ends: with a result, by rejecting or by a panic, and with
which text. Message and ending look alike for two queries with the same public part and predicates of the same length, up to: the
advantages of explicit tests against the generator and the derivation of values, the probabilities that honest runs of the two queries
go wrong, 10/2^31 and 192 divided by the modulus. -/
theorem C154_reaction (W : World) (db : KeyDB) (q q' : Query.ClientFSS) (mal inOrder : Bool) (e e' : U32) (fr fr' : Nat → U32)
    (F : Msg → Res (List Byte)) (D : Res Msg × Res Unit → ℚ) (hh : ∀ t, (W.hash t).length = 32) (hS : Setup W mal e fr)
    (hS' : Setup W (!mal) e' fr') (hdb : Loaded db) (mk : Int → Query.Time) (P P' : KeyInfo → Prop)
    (hq : Asks W.hash mk db q P) (hq' : Asks W.hash mk db q' P') (hinfo : q.info = q'.info)
    (hl : q.input.length = q'.input.length) (hF : ∀ m b, F m = ok b → SmallStart b) (hD : IsTest D) :
    |viewProb W db q inOrder mal F D - viewProb W db q' inOrder mal F D|
      ≤ keyGap W.env.E e (mal == inOrder) q.input (foreseeTest W db q.info mal F D)
        + keyGap W.env.E e (mal == inOrder) q'.input (foreseeTest W db q.info mal F D)
        + firstGap (settingOf W db q inOrder mal e fr (fun _ _ => 1)) (wordsOf q F)
        + firstGap (settingOf W db q' inOrder mal e fr (fun _ _ => 1)) (wordsOf q' F)
        + failProb W db q inOrder (due inOrder (numMatching db P))
        + failProb W db q' inOrder (due inOrder (numMatching db P'))
        + 10 / 2 ^ 31 + 192 / (p : ℚ) := by
  have a1 := C154_simulated W db q mal inOrder e e' fr fr' F D hh hS hS' hdb mk P hq hF hD
  have a2 := C154_simulated W db q' mal inOrder e e' fr fr' F D hh hS hS' hdb mk P' hq' hF hD
  rw [← hinfo] at a2
  have mid := keys_alike hS (mal == inOrder) hl (foreseeTest_unit W db q.info mal F hD)
  have a2' := a2
  rw [abs_sub_comm] at a2'
  refine le_trans (close_trans (close_trans a1 mid) a2') (le_of_eq ?_)
  ring

/-- The number in C154 is small: less than one in ten million. -/
theorem C154_small : (10 : ℚ) / 2 ^ 31 + 192 / (p : ℚ) < 1 / 10 ^ 7 := by
  rw [p_val]
  norm_num

/-- C154: what the client makes of a short, long or wrong answer, in a run without coincidences: with two to four words it tells
a panic (all words right) from a rejection (a word wrong). -/
theorem C154_endings (own : List U32) (first : Bool) :
    endsBy first own [] = crash "index out of range" ∧
    (∀ w, endsBy first own [w] = crash "index out of range") ∧
    (∀ b, 2 ≤ b.length → b.length < 5 → StartsLike own b → endsBy first own b = crash "index out of range") ∧
    (∀ b, 2 ≤ b.length → ¬ (first = true ∧ b.length = 10) → ¬ StartsLike own b → endsBy first own b = err "REJECT") ∧
    (∀ b, 5 ≤ b.length → ¬ (first = true ∧ b.length = 10) → StartsLike own b → endsBy first own b = ok ()) ∧
    (∀ b, b.length = 10 → endsBy true own b = crash "index out of range") := by
  unfold endsBy
  refine ⟨?_, ?_, ?_, ?_, ?_, ?_⟩
  · rw [if_pos (Or.inr (by simp))]
  · intro w
    rw [if_pos (Or.inr (by simp))]
  · intro b h2 h5 hl
    rw [if_neg (by rintro (⟨-, h⟩ | h) <;> omega), if_neg (not_not.2 hl), if_pos h5]
  · intro b h2 h10 hl
    rw [if_neg (by rintro (h | h); exacts [h10 h, by omega]), if_pos hl]
  · intro b h5 h10 hl
    rw [if_neg (by rintro (h | h); exacts [h10 h, by omega]), if_neg (not_not.2 hl), if_neg (by omega)]
  · intro b hb
    rw [if_pos (Or.inl ⟨rfl, hb⟩)]

/-! ### A concrete case -/

/-- A server that replies with as many words as the first byte of its seed says, all of them zero. -/
def manyWords (m : Msg) : Res (List Byte) := ok (List.replicate (4 * (m.key.sInit.getD 0 0).toNat) 0)

theorem manyWords_at (m : Msg) (b : List Byte) (h : manyWords m = ok b) (j : Nat) :
    ((Panic.Spec.wordsOf b).getD j 0).toNat ≤ 2 ^ 32 - p := by
  unfold manyWords at h
  simp only [ok.injEq] at h
  subst h
  generalize (m.key.sInit.getD 0 0).toNat = n
  have hz : ∀ l : List Byte, (∀ x ∈ l, x = 0) → ofBE l = 0 := by
    have hle : ∀ l : List Byte, (∀ x ∈ l, x = 0) → ofLE l = 0 := by
      intro l
      induction l with
      | nil => intro _; rfl
      | cons x l ih =>
        intro hl
        have := ih (fun y hy => hl y (List.mem_cons_of_mem _ hy))
        simp [ofLE, this, hl x (List.mem_cons_self)]
    intro l hl
    exact hle _ (fun x hx => hl x (List.mem_reverse.1 hx))
  rw [List.getD_eq_getElem?_getD]
  unfold Panic.Spec.wordsOf
  rw [List.getElem?_map]
  cases hj : (List.range ((List.replicate (4 * n) (0 : Byte)).length / 4))[j]? with
  | none => simp
  | some i =>
    simp only [Option.map_some, Option.getD_some]
    rw [hz _ (fun x hx => List.eq_of_mem_replicate (List.mem_of_mem_drop (List.mem_of_mem_take hx)))]
    simp

theorem manyWords_small (m : Msg) (b : List Byte) (h : manyWords m = ok b) : SmallStart b := fun j _ => manyWords_at m b h j

/-- Two queries that meet the hypotheses: RSA keys or DSA keys, with two matches and one, and a server whose answers have from 0 to
255 words. -/
example (D : Res Msg × Res Unit → ℚ) (hD : IsTest D) :
    |viewProb (world parityCipher 5 10 10) exDB exQuery true true manyWords D
      - viewProb (world parityCipher 5 10 10) exDB dsaQuery true true manyWords D|
      ≤ keyGap parityCipher 0 true exQuery.input (foreseeTest (world parityCipher 5 10 10) exDB exQuery.info true manyWords D)
        + keyGap parityCipher 0 true dsaQuery.input (foreseeTest (world parityCipher 5 10 10) exDB exQuery.info true manyWords D)
        + firstGap (settingOf (world parityCipher 5 10 10) exDB exQuery true true 0 (fun _ => 1) (fun _ _ => 1))
            (wordsOf exQuery manyWords)
        + firstGap (settingOf (world parityCipher 5 10 10) exDB dsaQuery true true 0 (fun _ => 1) (fun _ _ => 1))
            (wordsOf dsaQuery manyWords)
        + 0 + 0 + 10 / 2 ^ 31 + 192 / (p : ℚ) := by
  have h := C154_reaction (world parityCipher 5 10 10) exDB exQuery dsaQuery true true 0 0 (fun _ => 1) (fun _ => 2) manyWords D
    exHash_length (world_setup _ parityCipher_block 10 10 true) (world_setup _ parityCipher_block 10 10 false) rfl
    Query.dayTime _ _ (exQuery_asks _ _) (dsaQuery_asks _ _) rfl rfl manyWords_small hD
  rw [C92_honest_runs _ exDB exQuery true exHash_length rfl Query.dayTime _ (exQuery_asks _ _) drawn_ready
      (fun β α s0 s1 tb => drawn_noHits β α s0 s1 tb _ _),
    C92_honest_runs _ exDB dsaQuery true exHash_length rfl Query.dayTime _ (dsaQuery_asks _ _) drawn_ready
      (fun β α s0 s1 tb => drawn_noHits β α s0 s1 tb _ _)] at h
  exact h

end Verif.Forge
