import Verif.Lemmas.ReactionPredicate
import Verif.Props.WrapAround
import Verif.Props.FssHiding

/-! # C92: what a lying server of a count query learns from the client's reaction to well-formed answers -/

namespace Verif.Forge
open Res Verif.Field Verif.Field.Spec Verif.Fss Verif.Fss.Spec Verif.Privacy Verif.Predicate Verif.Predicate.Spec
  Verif.Reaction Verif.Forge.Spec Finset
set_option linter.constructorNameAsVariable false

/-- C92, simulation: a server that answers with five words, none above 2^32 minus the modulus, right or wrong, can tell the
client's reaction in advance: acceptance if it sends the elements it was asked for, rejection otherwise. The prediction fails at
most with the probability that the client accepts a wrong result (C84) or that an honest run goes wrong (C21). -/
theorem C92_simulated (W : World) (db : KeyDB) (q : Query.ClientFSS) (mal inOrder : Bool) (e e' : U32) (fr fr' : Nat → U32)
    (F : Msg → Res (List Byte)) (D : Res Msg × Res Unit → ℚ) (hh : ∀ t, (W.hash t).length = 32) (hS : Setup W mal e fr)
    (hS' : Setup W (!mal) e' fr') (hdb : Loaded db) (mk : Int → Query.Time) (P : KeyInfo → Prop) (hq : Asks W.hash mk db q P)
    (hF : ∀ m b, F m = ok b → WellFormed b) (hD : IsTest D) :
    |viewProb W db q inOrder mal F D - avg (fun β : Fin 3 → Fin p =>
        viewMean W.env (mal == inOrder) q.input (shared β) (seeTest W db q.info mal F D))|
      ≤ forgeGap (settingOf W db q inOrder mal e fr (fun _ _ => 1)) (wordsOf q F) + 864 / (p : ℚ) ^ 3
        + failProb W db q inOrder (due inOrder (numMatching db P)) := by
  obtain ⟨h1, h2, h3, h4, f, hsel, hlen, hP⟩ := asks_selectors hh hq
  have hc := view_close_expected hS hS' hdb h1 h2 h3 hsel hlen inOrder F hF hD (n := due inOrder (numMatching db P))
  have hf := C84_count_forged W db q mal inOrder e fr F hh hS hdb mk P hq
  exact le_trans hc (add_le_add hf (le_refl _))

theorem avg_close {Ω : Type} [Fintype Ω] {f g B : Ω → ℚ} (h : ∀ x, |f x - g x| ≤ B x) : |avg f - avg g| ≤ avg B := by
  have h1 := avg_mono (f := f) (g := fun x => g x + B x) (fun x => by linarith [(abs_le.1 (h x)).2])
  have h2 := avg_mono (f := g) (g := fun x => f x + B x) (fun x => by linarith [(abs_le.1 (h x)).1])
  rw [← Fss.avg_add] at h1 h2
  rw [abs_le]
  constructor <;> linarith

/-- Keys for predicates of the same length look alike to a test, mean over the MAC keys. -/
theorem keys_alike {W : World} {mal : Bool} {e : U32} {fr : Nat → U32} (hS : Setup W mal e fr) (second : Bool)
    {a a' : List Bool} (hl : a.length = a'.length) {T : Res Key → ℚ} (hT : ∀ k, 0 ≤ T k ∧ T k ≤ 1) :
    |avg (fun β : Fin 3 → Fin p => viewMean W.env second a (shared β) T)
      - avg (fun β : Fin 3 → Fin p => viewMean W.env second a' (shared β) T)|
      ≤ keyGap W.env.E e second a T + keyGap W.env.E e second a' T + 10 / 2 ^ 31 := by
  have hne : Nonempty (Fin 3 → Fin p) := ⟨fun _ => ⟨0, p_pos⟩⟩
  have hβ : ∀ β : Fin 3 → Fin p, ∀ i, Canonical (shared β i) := by
    intro β i
    have hc := vals_canonical β ⟨0, p_pos⟩
    fin_cases i
    · exact hc (shared β 0) (by simp [vals])
    · exact hc (shared β 1) (by simp [vals])
    · exact hc (shared β 2) (by simp [vals])
    · exact hc (shared β 3) (by simp [vals])
  have hb : ∀ β : Fin 3 → Fin p, _ := fun β => C53_fss W.env hS.cipher e hS.draw hS.canonical second a a'
    hl (shared β) (shared β) (hβ β) (hβ β) T (fun k => (hT k).1) (fun k => (hT k).2)
  have hc := avg_close hb
  refine le_trans hc (le_of_eq ?_)
  unfold keyGap
  rw [Fss.avg_add, ← avg_const (Ω := Fin 3 → Fin p) ((10 : ℚ) / 2 ^ 31), Fss.avg_add, avg_const]
  apply avg_congr
  intro β
  rw [Finset.sum_add_distrib, hl]
  ring

/-- C92: one of the two servers answers a count query with five words, none above 2^32 minus the modulus, in whatever way these
depend on its message, and notices whether the client accepts or rejects. Message and reaction look alike for two queries with the
same public part and predicates of the same length, up to: the advantages of explicit tests against the generator and the
derivation of values, the probabilities that honest runs of the two queries go wrong, 10/2^31 and 1728 divided by the cube of the
modulus. -/
theorem C92_reaction (W : World) (db : KeyDB) (q q' : Query.ClientFSS) (mal inOrder : Bool) (e e' : U32) (fr fr' : Nat → U32)
    (F : Msg → Res (List Byte)) (D : Res Msg × Res Unit → ℚ) (hh : ∀ t, (W.hash t).length = 32) (hS : Setup W mal e fr)
    (hS' : Setup W (!mal) e' fr') (hdb : Loaded db) (mk : Int → Query.Time) (P P' : KeyInfo → Prop)
    (hq : Asks W.hash mk db q P) (hq' : Asks W.hash mk db q' P') (hinfo : q.info = q'.info)
    (hl : q.input.length = q'.input.length) (hF : ∀ m b, F m = ok b → WellFormed b) (hD : IsTest D) :
    |viewProb W db q inOrder mal F D - viewProb W db q' inOrder mal F D|
      ≤ keyGap W.env.E e (mal == inOrder) q.input (seeTest W db q.info mal F D)
        + keyGap W.env.E e (mal == inOrder) q'.input (seeTest W db q.info mal F D)
        + forgeGap (settingOf W db q inOrder mal e fr (fun _ _ => 1)) (wordsOf q F)
        + forgeGap (settingOf W db q' inOrder mal e fr (fun _ _ => 1)) (wordsOf q' F)
        + failProb W db q inOrder (due inOrder (numMatching db P))
        + failProb W db q' inOrder (due inOrder (numMatching db P'))
        + 10 / 2 ^ 31 + 1728 / (p : ℚ) ^ 3 := by
  have a1 := C92_simulated W db q mal inOrder e e' fr fr' F D hh hS hS' hdb mk P hq hF hD
  have a2 := C92_simulated W db q' mal inOrder e e' fr fr' F D hh hS hS' hdb mk P' hq' hF hD
  rw [← hinfo] at a2
  have mid := keys_alike hS (mal == inOrder) hl (seeTest_unit W db q.info mal F hD)
  have a2' := a2
  rw [abs_sub_comm] at a2'
  refine le_trans (close_trans (close_trans a1 mid) a2') (le_of_eq ?_)
  ring

/-- A count with honest servers, none of whose values equals the modulus, in either order of the messages. -/
theorem run_due {W : World} {db : KeyDB} {q : Query.ClientFSS} (inOrder : Bool) (hh : ∀ t, (W.hash t).length = 32)
    (hdb : Loaded db) {mk : Int → Query.Time} {P : KeyInfo → Prop} (hq : Asks W.hash mk db q P) (hR : Ready W 5)
    (hno : NoHits W 5 db q) : W.run 5 db q inOrder = ok (BitVec.ofNat 32 (due inOrder (numMatching db P))) := by
  cases inOrder with
  | true =>
    obtain ⟨r, hr, hv⟩ := C21_count_partial W 5 (by omega) (by omega) mk db q P hh hR hdb hq
      hno
    rw [hr, toNat_due hv]
    rfl
  | false =>
    obtain ⟨r, hr, hv⟩ := C25_exchanged_partial W 5 (by omega) (by omega) mk db q P hh
      hR hdb hq hno
    obtain ⟨r', hr', hv'⟩ : ∃ r', W.run 5 db q false = ok r' ∧ r'.toNat < p := by
      obtain ⟨h1, h2, h3, h4, f, hsel, hlen, hP⟩ := asks_selectors hh hq
      obtain ⟨st, rnd', buf', m0, m1, b0, b1, a0, a1, αs, hk, hqq, hl, hc, hal, hs0, hs1, u0, u1, hT, hm⟩ :=
        count_words hR hdb h1 h2 h3 hno hsel hlen h4 false
      refine ⟨r, hr, ?_⟩
      unfold World.run at hr
      rw [hqq] at hr
      simp only [ok_bind, Bool.false_eq_true, if_false] at hr
      rw [idx_of_lt (by simp), idx_of_lt (by simp)] at hr
      simp only [ok_bind, List.getElem_cons_zero, List.getElem_cons_succ, hs0, hs1] at hr
      rw [reconstructBytes_words 5 st _ _ _ _ u0 u1] at hr
      rw [(reconstruct_count_ok (Or.inl hT.len0) hr).1, BitVec.toNat_umod, modP_toNat, p_val]
      exact Nat.mod_lt _ (by omega)
    rw [hr] at hr'
    cases hr'
    rw [hr]
    congr 1
    apply toNat_due
    unfold due
    simp only [Bool.false_eq_true, if_false]
    have hN : numMatching db P % p < p := Nat.mod_lt _ p_pos
    rw [Nat.add_mod, Nat.mod_eq_of_lt hv'] at hv
    generalize numMatching db P % p = n at *
    generalize r.toNat = m at *
    rw [p_val] at *
    omega

/-- C92: honest runs go wrong only if a derived value equals the modulus. -/
theorem C92_honest_runs (W : World) (db : KeyDB) (q : Query.ClientFSS) (inOrder : Bool) (hh : ∀ t, (W.hash t).length = 32)
    (hdb : Loaded db) (mk : Int → Query.Time) (P : KeyInfo → Prop) (hq : Asks W.hash mk db q P)
    (hR : ∀ β α s0 s1 tb, Ready (drawn W β α s0 s1 tb) 5) (hno : ∀ β α s0 s1 tb, NoHits (drawn W β α s0 s1 tb) 5 db q) :
    failProb W db q inOrder (due inOrder (numMatching db P)) = 0 := by
  unfold failProb
  have h : ∀ β α s0 s1 tb, (drawn W β α s0 s1 tb).run 5 db q inOrder
      = ok (BitVec.ofNat 32 (due inOrder (numMatching db P))) :=
    fun β α s0 s1 tb => run_due (W := drawn W β α s0 s1 tb) inOrder hh hdb hq (hR β α s0 s1 tb) (hno β α s0 s1 tb)
  simp only [h, if_true]
  unfold runMean
  simp only [avg_zero]

/-! ### Concrete cases -/

/-- The query for DSA keys. -/
def dsaQuery : Query.ClientFSS := ⟨⟨2, 0, 0, false, false, false⟩, [17].flatMap Utils.bits8⟩

theorem dsaQuery_asks (hash : List Byte → List Byte) (db : KeyDB) :
    Asks hash Query.dayTime db dsaQuery (fun ki => ki.algo.toNat = 17) :=
  .algo ⟨2, 0, 0, false, false, false⟩ "DSA" 17 dsaQuery rfl rfl rfl rfl rfl (by
    unfold Query.toPKAClientFSS
    simp only [Query.idForPubKeyAlgo_eq, ok_bind]
    rfl)

/-- A server that replies with five words made of the first byte of its seed. -/
def firstByte (m : Msg) : Res (List Byte) := ok ((List.replicate 5 (0 : Byte)).flatMap (fun _ => [0, 0, 0, m.key.sInit.getD 0 0]))

theorem firstByte_wellFormed (m : Msg) (b : List Byte) (h : firstByte m = ok b) : WellFormed b := by
  unfold firstByte at h
  simp only [ok.injEq] at h
  subst h
  refine ⟨_, Utils.byteSliceToUint32Slice_eq _, by simp, ?_⟩
  intro w hw
  rw [List.mem_map] at hw
  obtain ⟨i, hi, rfl⟩ := hw
  have hi5 : i < 5 := by simpa using hi
  have key : ∀ (x : Byte) (i : Nat), i < 5 →
      (Utils.word ((List.replicate 5 (0 : Byte)).flatMap (fun _ => [0, 0, 0, x])) i).toNat ≤ 255 := by
    intro x i hi
    have : i = 0 ∨ i = 1 ∨ i = 2 ∨ i = 3 ∨ i = 4 := by omega
    rcases this with rfl | rfl | rfl | rfl | rfl <;> revert x <;> decide
  have := key (m.key.sInit.getD 0 0) i hi5
  rw [p_val]
  omega

/-- Two queries that meet the hypotheses: RSA keys or DSA keys, with two matches and one. -/
example (D : Res Msg × Res Unit → ℚ) (hD : IsTest D) :
    |viewProb (world parityCipher 5 10 10) exDB exQuery true true firstByte D
      - viewProb (world parityCipher 5 10 10) exDB dsaQuery true true firstByte D|
      ≤ keyGap parityCipher 0 true exQuery.input (seeTest (world parityCipher 5 10 10) exDB exQuery.info true firstByte D)
        + keyGap parityCipher 0 true dsaQuery.input (seeTest (world parityCipher 5 10 10) exDB exQuery.info true firstByte D)
        + forgeGap (settingOf (world parityCipher 5 10 10) exDB exQuery true true 0 (fun _ => 1) (fun _ _ => 1))
            (wordsOf exQuery firstByte)
        + forgeGap (settingOf (world parityCipher 5 10 10) exDB dsaQuery true true 0 (fun _ => 1) (fun _ _ => 1))
            (wordsOf dsaQuery firstByte)
        + 0 + 0 + 10 / 2 ^ 31 + 1728 / (p : ℚ) ^ 3 := by
  have h := C92_reaction (world parityCipher 5 10 10) exDB exQuery dsaQuery true true 0 0 (fun _ => 1) (fun _ => 2) firstByte D
    exHash_length (world_setup _ parityCipher_block 10 10 true) (world_setup _ parityCipher_block 10 10 false) rfl
    Query.dayTime _ _ (exQuery_asks _ _) (dsaQuery_asks _ _) rfl rfl firstByte_wellFormed hD
  rw [C92_honest_runs _ exDB exQuery true exHash_length rfl Query.dayTime _ (exQuery_asks _ _) drawn_ready
      (fun β α s0 s1 tb => drawn_noHits β α s0 s1 tb _ _),
    C92_honest_runs _ exDB dsaQuery true exHash_length rfl Query.dayTime _ (dsaQuery_asks _ _) drawn_ready
      (fun β α s0 s1 tb => drawn_noHits β α s0 s1 tb _ _)] at h
  exact h

end Verif.Forge
