import Verif.Spec.ReactionAverage
import Verif.Lemmas.ReactionPredicate

/-! # The client's reaction to one lying server of an average query -/

namespace Verif.Forge
open Res Verif.Field Verif.Field.Spec Verif.Fss Verif.Fss.Spec Verif.Privacy Verif.Predicate Verif.Predicate.Spec
  Verif.Reaction Verif.Forge.Spec Finset
set_option linter.constructorNameAsVariable false

/-! ### The client's checks of ten words -/

theorem check_loop_err (n : Nat) (body : Nat → Unit → Res Unit) (hb : ∀ i, i < n → body i () = ok () ∨ ∃ m, body i () = err m)
    (h : ¬ ∀ i, i < n → body i () = ok ()) : ∃ m, forLoop n body () = err m := by
  induction n with
  | zero => exact absurd (fun i hi => by omega) h
  | succ n ih =>
    rw [forLoop_succ]
    by_cases hn : ∀ i, i < n → body i () = ok ()
    · rw [check_loop n body hn]
      simp only [ok_bind]
      rcases hb n (by omega) with hk | ⟨m, hm⟩
      · refine absurd (fun i hi => ?_) h
        rcases Nat.lt_succ_iff_lt_or_eq.1 hi with hi | rfl
        · exact hn i hi
        · exact hk
      · exact ⟨m, hm⟩
    · obtain ⟨m, hm⟩ := ih (fun i hi => hb i (by omega)) hn
      rw [hm]
      exact ⟨m, rfl⟩

theorem getD_drop5 (l : List U32) (i : Nat) : (l.drop 5).getD i 0 = l.getD (5 + i) 0 := by
  simp only [List.getD_eq_getElem?_getD, List.getElem?_drop]

theorem getD_take5 (l : List U32) {j : Nat} (hj : j < 5) : (l.take 5).getD j 0 = l.getD j 0 := by
  simp only [List.getD_eq_getElem?_getD, List.getElem?_take]
  rw [if_pos hj]

open Classical in
/-- How the client ends on two answers of ten words. -/
theorem outcome_avg (β : Fin 3 → Fin p) (α : Fin p) {A H : List U32} (hA : A.length = 10) (hH : H.length = 10) :
    outcome (reconstruct 5 (clientState β α) [A, H]) =
      if TagsMatch β α A H ∧ TagsMatch β α (A.drop 5) (H.drop 5) then (if dataOf A H = 0 then crash "" else ok ())
      else err "" := by
  have e := reconstruct_avg (ex := 5) (st := clientState β α) (c0 := A.take 5) (s0 := A.drop 5) (c1 := H.take 5)
    (s1 := H.drop 5) (by omega) rfl (by simp [hA]) (by simp [hH]) (by simp [hA]) (by simp [hH])
  rw [List.take_append_drop, List.take_append_drop] at e
  rw [e]
  by_cases h : TagsMatch β α A H ∧ TagsMatch β α (A.drop 5) (H.drop 5)
  · rw [if_pos h, check_loop]
    · simp only [ok_bind, getD_take5 _ (show 0 < 5 by omega)]
      unfold divU32 dataOf
      by_cases hz : (A.getD 0 0 + H.getD 0 0) % modP = 0
      · rw [if_pos hz, hz]
        rfl
      · rw [if_neg hz, if_neg (fun hn => hz (BitVec.eq_of_toNat_eq (by rw [hn]; rfl)))]
        rfl
    · intro i hi
      rw [getD_take5 _ (by omega), getD_take5 _ (by omega), getD_take5 _ (by omega), getD_take5 _ (by omega),
        if_neg (not_not.2 (h.1 i (by omega))), if_neg (not_not.2 (h.2 i (by omega)))]
  · rw [if_neg h]
    obtain ⟨m, hm⟩ := check_loop_err (5 - 1) (fun i (_ : Unit) =>
        if tagOf (((A.take 5).getD 0 0 + (H.take 5).getD 0 0) % modP) ((clientState β α).alphas.getD i 0)
            ≠ ((A.take 5).getD (i + 1) 0 + (H.take 5).getD (i + 1) 0) % modP then err "REJECT count"
        else if tagOf (((A.drop 5).getD 0 0 + (H.drop 5).getD 0 0) % modP) ((clientState β α).alphas.getD i 0)
            ≠ ((A.drop 5).getD (i + 1) 0 + (H.drop 5).getD (i + 1) 0) % modP then err "REJECT sum" else ok ()) (by
        intro i hi
        split
        · exact Or.inr ⟨_, rfl⟩
        · split
          · exact Or.inr ⟨_, rfl⟩
          · exact Or.inl rfl) (by
        intro hall
        apply h
        constructor
        · intro i hi
          have := hall i (by omega)
          by_contra hne
          rw [if_pos (by
            rw [getD_take5 _ (by omega), getD_take5 _ (by omega), getD_take5 _ (by omega), getD_take5 _ (by omega)]
            exact hne)] at this
          cases this
        · intro i hi
          have := hall i (by omega)
          by_contra hne
          split at this
          · cases this
          · cases this)
    rw [hm]
    rfl

/-- The order of the answers does not matter. -/
theorem tagsMatch_comm {β : Fin 3 → Fin p} {α : Fin p} {A H : List U32} : TagsMatch β α H A ↔ TagsMatch β α A H := by
  unfold TagsMatch
  simp only [BitVec.add_comm]

theorem dataOf_comm (A H : List U32) : dataOf H A = dataOf A H := by
  unfold dataOf
  rw [BitVec.add_comm]

theorem outcome_avg_comm (β : Fin 3 → Fin p) (α : Fin p) {A H : List U32} (hA : A.length = 10) (hH : H.length = 10) :
    outcome (reconstruct 5 (clientState β α) [H, A]) = outcome (reconstruct 5 (clientState β α) [A, H]) := by
  classical
  rw [outcome_avg β α hA hH, outcome_avg β α hH hA, dataOf_comm]
  simp only [tagsMatch_comm (A := A) (H := H), tagsMatch_comm (A := A.drop 5) (H := H.drop 5)]

/-! ### Honest answers add up -/

/-- None of the values at the end of the evaluation of `k` at `x` equals the modulus. -/
def Clear (E : Cipher) (k : Key) (x : List Bool) : Prop := ∀ i, (words E (endOf E k (clear256 x)).1 i).1 ≠ p

theorem elems_clear {z : Fin 4 → Fin (2 ^ 31)} (h : ∀ i, (z i).1 ≠ p) (e e' : U32) : elems e z = elems e' z := by
  unfold elems orFresh
  simp only [h, if_false]

theorem elems_clear_canonical {z : Fin 4 → Fin (2 ^ 31)} (h : ∀ i, (z i).1 ≠ p) (e : U32) (j : Nat) :
    Canonical ((elems e z).getD j 0) := by
  rw [elems_clear h e 0]
  by_cases hj : j < 5
  · rw [getD_of_lt _ (by simpa [elems] using hj)]
    exact elems_canonical (by simp [Canonical, p]) z _ (List.getElem_mem _)
  · rw [List.getD_eq_getElem?_getD, List.getElem?_eq_none (by simpa [elems] using hj)]
    simp [Canonical, p]

theorem endOf_bit {E : Cipher} (hE : BlockCipher E) {k : Key} {n : Nat} (hk : KeyOk k n) (x : List Bool) :
    Bit (endOf E k x).2 := by
  have hr := evalRec_inv hE (x.zip k.cw) hk.seed hk.bit (by
    intro c hc
    obtain ⟨x', cw⟩ := c
    exact hk.cw18 cw (List.of_mem_zip hc).2)
  exact hr.2

/-- The shares of a record that the two honest servers hold. -/
theorem shares_add {E : Cipher} (hE : BlockCipher E) {e : U32} {second : Bool} {a : List Bool} {b : List U32} {km kh : Key}
    (T : Twins E e second a b km kh) {x : List Bool} (hx : x.length = a.length) (cm : Clear E km x) (ch : Clear E kh x)
    (em eh : U32) {sm sh : Byte} (hs : sgn sm = - sgn sh) {j : Nat} (hj : j < 5) :
    ((realShare E em sm km x j).toNat : ZMod p) + (realShare E eh sh kh x j).toNat
      = if clear256 x = a then sgn sh * ((if second then 1 else -1) * ((b.getD j 0).toNat : ZMod p)) else 0 := by
  have hc : ∀ j, (kh.finalCW.getD j 0).toNat ≤ p := by rw [T.fcw]; exact T.le
  unfold realShare
  rw [shareOf_cast (elems_clear_canonical cm em j) (T.le j) (endOf_bit hE T.okm _),
    shareOf_cast (elems_clear_canonical ch eh j) (hc j) (endOf_bit hE T.okh _), hs, T.fcw]
  by_cases h : clear256 x = a
  · rw [if_pos h]
    have cm' := cm
    have ch' := ch
    unfold Clear at cm' ch'
    rw [h] at cm' ch' ⊢
    rw [elems_clear cm' em e, elems_clear ch' eh e, T.val j hj, T.other]
    ring
  · rw [if_neg h, T.off _ (by rw [clear256_length, hx]) h]
    have ch' := ch
    unfold Clear at ch'
    rw [T.off _ (by rw [clear256_length, hx]) h] at ch'
    rw [elems_clear ch' em eh]
    ring

theorem realSum_cast (E : Cipher) (sn : Byte) (k : Key) (recs : List Rec) (j : Nat) :
    ((realSum E sn k recs j : Nat) : ZMod p) = ((recs.map (fun r => r.weight * (realShare E r.fresh sn k r.id j).toNat)).sum : Nat) :=
  cast_mod _

/-- The sums of the shares that the two honest servers send. -/
theorem sums_total {E : Cipher} (hE : BlockCipher E) {e : U32} {second : Bool} {a : List Bool} {b : List U32} {km kh : Key}
    (T : Twins E e second a b km kh) {keys : List KeyInfo} {f : KeyInfo → Option (List Bool)} {fr fr' : Nat → U32}
    {wt : Nat → KeyInfo → Nat} (hlen : ∀ ki ∈ keys, ∀ id, f ki = some id → id.length = a.length)
    (cm : ∀ ki ∈ keys, ∀ id, f ki = some id → Clear E km id) (ch : ∀ ki ∈ keys, ∀ id, f ki = some id → Clear E kh id)
    {sm sh : Byte} (hs : sgn sm = - sgn sh) {j : Nat} (hj : j < 5) : ∀ n, n ≤ keys.length →
    ((realSum E sm km (recsTo keys f fr' wt n) j : Nat) : ZMod p) + (realSum E sh kh (recsTo keys f fr wt n) j : Nat)
      = sgn sh * (if second then 1 else -1)
        * ((((recsTo keys f fr wt n).filter (fun r => decide (clear256 r.id = a))).map Rec.weight).sum : Nat)
        * ((b.getD j 0).toNat : ZMod p) := by
  intro n
  rw [realSum_cast, realSum_cast]
  induction n with
  | zero => intro _; simp [recsTo]
  | succ n ih =>
    intro hn
    have hm : keys[n] ∈ keys := List.getElem_mem _
    have ih := ih (by omega)
    rw [recsTo_succ _ _ _ _ (by omega), recsTo_succ _ _ _ _ (by omega)]
    cases hf : f keys[n] with
    | none => simpa using ih
    | some id =>
      simp only [Option.map_some, Option.toList_some, List.map_append, List.map_cons, List.map_nil, List.sum_append,
        List.sum_cons, List.sum_nil, List.filter_append, List.filter_cons, List.filter_nil, add_zero, Nat.cast_add,
        Nat.cast_mul]
      have hsh := shares_add hE T (hlen _ hm id hf) (cm _ hm id hf) (ch _ hm id hf) (fr' n) (fr n) hs hj
      by_cases h : clear256 id = a
      · rw [if_pos h] at hsh
        simp only [h, decide_true, if_true, List.map_cons, List.map_nil, List.sum_cons, List.sum_nil, add_zero]
        linear_combination ih + (wt n keys[n] : ZMod p) * hsh
      · rw [if_neg h] at hsh
        simp only [h, decide_false, Bool.false_eq_true, if_false, List.map_nil, List.sum_nil, Nat.cast_zero, add_zero]
        linear_combination ih + (wt n keys[n] : ZMod p) * hsh

/-- The honest answers pass the client's checks, with the total. -/
theorem tags_of_sums {S : Setting} {β : Fin 3 → Fin p} {α : Fin p} {O H : List U32}
    (sO : ∀ j, j < 5 → (O.getD j 0).toNat < p) (sH : ∀ j, j < 5 → (H.getD j 0).toNat < p)
    (hsum : ∀ j, j < 5 → (((O.getD j 0).toNat : Nat) : ZMod p) + ((H.getD j 0).toNat : Nat)
      = S.sign * S.total * (((vals (shared β) α).getD j 0).toNat : ZMod p)) :
    TagsMatch β α O H ∧ ¬ Wrong S (dataOf O H) := by
  have hsm : ∀ j, j < 5 → ((O.getD j 0 + H.getD j 0) % modP).toNat = ((O.getD j 0).toNat + (H.getD j 0).toNat) % p := by
    intro j hj
    refine sum_small ?_ (sH j hj)
    have := sO j hj
    rw [p_val] at *
    omega
  have h0 : ((dataOf O H : Nat) : ZMod p) = S.sign * S.total := by
    unfold dataOf
    rw [hsm 0 (by omega), cast_mod, Nat.cast_add, hsum 0 (by omega), vals_first]
    have : (1 : U32).toNat = 1 := rfl
    rw [this]
    simp
  refine ⟨?_, fun hw => hw h0⟩
  intro i hi
  apply BitVec.eq_of_toNat_eq
  have hlt : ((O.getD 0 0 + H.getD 0 0) % modP).toNat < 2 ^ 31 := by
    have := sum_lt (O.getD 0 0) (H.getD 0 0)
    have := p_lt
    omega
  have ha : (clientState β α).alphas.getD i 0 = (vals (shared β) α).getD (i + 1) 0 := by
    have : i = 0 ∨ i = 1 ∨ i = 2 ∨ i = 3 := by omega
    rcases this with rfl | rfl | rfl | rfl <;> rfl
  have hc : Canonical ((vals (shared β) α).getD (i + 1) 0) := by
    rw [getD_of_lt _ (by simp [vals]; omega)]
    exact vals_canonical β α _ (List.getElem_mem _)
  have hlt2 : ((vals (shared β) α).getD (i + 1) 0).toNat < 2 ^ 31 := by
    unfold Canonical at hc
    have := p_lt
    omega
  rw [ha, tagOf_toNat hlt hlt2, hsm (i + 1) (by omega)]
  refine eq_of_cast (Nat.mod_lt _ p_pos) (Nat.mod_lt _ p_pos) ?_
  rw [cast_mod, cast_mod, Nat.cast_add, hsum (i + 1) (by omega), Nat.cast_mul]
  unfold dataOf at h0
  rw [h0]

/-- Answers of ten words as elements of the field. -/
theorem sameElements_iff_ten {b b' : List Byte} {a a' : List U32} (h : Utils.byteSliceToUint32Slice b = ok a)
    (h' : Utils.byteSliceToUint32Slice b' = ok a') (hl : a.length = 10) (hl' : a'.length = 10) :
    SameElements b b' ↔ ∀ j, j < 10 → (a.getD j 0).toNat % p = (a'.getD j 0).toNat % p := by
  constructor
  · rintro ⟨x, x', hx, hx', -, hs⟩ j -
    rw [h] at hx
    rw [h'] at hx'
    cases hx
    cases hx'
    exact hs j
  · intro hs
    refine ⟨a, a', h, h', by omega, fun j => ?_⟩
    by_cases hj : j < 10
    · exact hs j hj
    · rw [List.getD_eq_getElem?_getD, List.getD_eq_getElem?_getD, List.getElem?_eq_none (by omega),
        List.getElem?_eq_none (by omega)]

/-- Checks and data depend on the sums of the words only. -/
theorem tags_congr {β : Fin 3 → Fin p} {α : Fin p} {A O H : List U32}
    (hs : ∀ j, j < 5 → (A.getD j 0 + H.getD j 0) % modP = (O.getD j 0 + H.getD j 0) % modP) :
    (TagsMatch β α A H ↔ TagsMatch β α O H) ∧ dataOf A H = dataOf O H := by
  unfold TagsMatch dataOf
  rw [hs 0 (by omega)]
  refine ⟨⟨fun h i hi => ?_, fun h i hi => ?_⟩, rfl⟩
  · rw [h i hi, hs (i + 1) (by omega)]
  · rw [h i hi, hs (i + 1) (by omega)]

/-- Conversely, checks and data determine the sums. -/
theorem sums_of_tags {β : Fin 3 → Fin p} {α : Fin p} {A O H : List U32} (hA : TagsMatch β α A H) (hO : TagsMatch β α O H)
    (hd : dataOf A H = dataOf O H) : ∀ j, j < 5 → (A.getD j 0 + H.getD j 0) % modP = (O.getD j 0 + H.getD j 0) % modP := by
  have h0 : (A.getD 0 0 + H.getD 0 0) % modP = (O.getD 0 0 + H.getD 0 0) % modP := BitVec.eq_of_toNat_eq hd
  intro j hj
  cases j with
  | zero => exact h0
  | succ i => rw [← hA i (by omega), ← hO i (by omega), h0]

theorem due_zero (inOrder : Bool) (n : Nat) : due inOrder n = 0 ↔ n % p = 0 := by
  have h := Nat.mod_lt n p_pos
  unfold due
  cases inOrder
  · simp only [Bool.false_eq_true, if_false]
    constructor
    · intro hz
      by_contra hne
      rw [Nat.mod_eq_of_lt (by omega)] at hz
      omega
    · intro hz
      rw [hz]
      simp
  · simp

theorem evalNoHit_clear {E : Cipher} (hE : BlockCipher E) {k : Key} {x : List Bool} (hk : KeyOk k x.length)
    (h : EvalNoHit E 5 k x) : Clear E k x := by
  intro i
  exact h _ _ (evalPath_eq hE k x hk.seed hk.cws hk.cw18) i.1 (by omega)

theorem seeAvg_unit (W : World) (db : KeyDB) (i : Query.Info) (mal : Bool) (F : Msg → Res (List Byte)) (nobody : Prop)
    {D : Res Msg × Res Unit → ℚ} (hD : IsTest D) (k : Res Key) :
    0 ≤ seeAvg W db i mal F nobody D k ∧ seeAvg W db i mal F nobody D k ≤ 1 := by
  cases k with
  | ok k => exact hD _
  | err m => exact ⟨le_refl _, zero_le_one⟩
  | crash m => exact ⟨le_refl _, zero_le_one⟩

theorem small_getD_ten {a : List U32} (hl : a.length = 10) (hs : ∀ w ∈ a, w.toNat ≤ 2 ^ 32 - p) :
    ∀ j, j < 10 → (a.getD j 0).toNat ≤ 2 ^ 32 - p := by
  intro j hj
  rw [getD_of_lt _ (by omega)]
  exact hs _ (List.getElem_mem _)

/-- What the server sees in a run without coincidences, as long as no wrong pair passes the checks. -/
theorem viewAvg_expected {W : World} {mal : Bool} {e e' : U32} {fr fr' : Nat → U32} (hS : Setup W mal e fr)
    (hS' : Setup W (!mal) e' fr') {db : KeyDB} (hdb : Loaded db) {q : Query.ClientFSS} (ha : q.info.avg = true)
    (hs : q.info.sum = false) (ht : q.info.and = true) {now : Int} (hnow : ∀ m j, honestNow W m j = now)
    (hage : ∀ ki ∈ db.keys, now - ki.creation.year < 2 ^ 32)
    (hsel : ∀ ki ∈ db.keys, keyId W.hash q.info ki = ok (selOf W.hash q.info ki))
    (hlen : ∀ ki ∈ db.keys, ∀ id, selOf W.hash q.info ki = some id → id.length = q.input.length) (inOrder : Bool)
    (F : Msg → Res (List Byte)) (hF : ∀ m b, F m = ok b → WellFormedAvg b) {D : Res Msg × Res Unit → ℚ} (hD : IsTest D)
    (β : Fin 3 → Fin p) (α : Fin p) (s0 s1 : Fin 16 → Byte) (tb : Byte)
    (hno : NoHits (drawn W β α s0 s1 tb) 5 db q) :
    |D (viewAvg (drawn W β α s0 s1 tb) db q inOrder mal F)
      - seeAvg W db q.info mal F ((settingOf W db q inOrder mal e fr (isAged (honestNow W mal))).total % p = 0) D
          (received W.env (mal == inOrder) q.input (shared β) s0 s1 tb α)|
      ≤ avgTest (settingOf W db q inOrder mal e fr (isAged (honestNow W mal)))
          (settingOf W db q inOrder mal e fr (ageOf (honestNow W mal))) (wordsOf q F)
          (received W.env (mal == inOrder) q.input (shared β) s0 s1 tb α) β α := by
  classical
  obtain ⟨km, kh, hkm, hT, ⟨ms, rnd', o, hms, mm, mh⟩, hform⟩ := forgedRun_form hS db q inOrder β α s0 s1 tb
  have hnf : ∀ m, honestNow W m = fun _ => now := fun m => funext (hnow m)
  obtain ⟨bh, H, h1, h2, h3, h4⟩ := honest_avg hS hdb ha hs ht hsel (fun j ki hki => by rw [hnow]; exact hage ki hki) hlen hT.okh
  obtain ⟨bo, O, o1, o2, o3, o4⟩ := honest_avg hS' hdb ha hs ht hsel (fun j ki hki => by rw [hnow]; exact hage ki hki) hlen hT.okm
  have hli : W.serve (liar mal) 5 db ⟨q.info, km⟩ = ok bo := by
    rw [← o1]
    cases mal <;> rfl
  have hkey : ∀ ki ∈ db.keys, ∀ id, selOf W.hash q.info ki = some id → keyId W.hash q.info ki = ok (some id) :=
    fun ki hki id hid => by rw [hsel ki hki, hid]
  have cm : ∀ ki ∈ db.keys, ∀ id, selOf W.hash q.info ki = some id → Clear W.env.E km id := fun ki hki id hid =>
    evalNoHit_clear hS.cipher (by rw [hlen ki hki id hid]; exact hT.okm)
      (hno.2 ms _ _ _ hms _ mm ki hki id (hkey ki hki id hid))
  have ch : ∀ ki ∈ db.keys, ∀ id, selOf W.hash q.info ki = some id → Clear W.env.E kh id := fun ki hki id hid =>
    evalNoHit_clear hS.cipher (by rw [hlen ki hki id hid]; exact hT.okh)
      (hno.2 ms _ _ _ hms _ mh ki hki id (hkey ki hki id hid))
  have sH : ∀ j, j < 10 → (H.getD j 0).toNat < p := by
    intro j hj
    by_cases h5 : j < 5
    · rw [(h4 j h5).1]; exact Nat.mod_lt _ p_pos
    · rw [show j = 5 + (j - 5) by omega, (h4 (j - 5) (by omega)).2]; exact Nat.mod_lt _ p_pos
  have sO : ∀ j, j < 10 → (O.getD j 0).toNat < p := by
    intro j hj
    by_cases h5 : j < 5
    · rw [(o4 j h5).1]; exact Nat.mod_lt _ p_pos
    · rw [show j = 5 + (j - 5) by omega, (o4 (j - 5) (by omega)).2]; exact Nat.mod_lt _ p_pos
  have hsgn : sgn (if (!mal) then 0 else 1) = - sgn (if mal then 0 else 1) := by
    cases mal <;> simp [sgn]
  have tot : ∀ (wt : Nat → KeyInfo → Nat) (A B : List U32),
      (∀ j, j < 5 → (A.getD j 0).toNat = realSum W.env.E (if (!mal) then 0 else 1) km
        (recsTo db.keys (selOf W.hash q.info) fr' wt db.numColumns) j) →
      (∀ j, j < 5 → (B.getD j 0).toNat = realSum W.env.E (if mal then 0 else 1) kh
        (recsTo db.keys (selOf W.hash q.info) fr wt db.numColumns) j) →
      TagsMatch β α A B ∧ dataOf A B = due inOrder (settingOf W db q inOrder mal e fr wt).total := by
    intro wt A B hA hB
    have h := tags_of_sums (S := settingOf W db q inOrder mal e fr wt) (β := β) (α := α) (O := A) (H := B)
      (fun j hj => by rw [hA j hj]; exact Nat.mod_lt _ p_pos) (fun j hj => by rw [hB j hj]; exact Nat.mod_lt _ p_pos) (by
        intro j hj
        rw [hA j hj, hB j hj, sums_total hS.cipher hT hlen cm ch hsgn hj db.numColumns (le_of_eq hdb)]
        unfold Setting.sign Setting.total settingOf sgn
        cases mal <;> simp only [Bool.false_eq_true, if_false, if_true] <;> ring)
    exact ⟨h.1, by_contra fun hne => h.2 (wrong_of (dataOf_lt _ _) hne)⟩
  have hO1 := tot (isAged (honestNow W mal)) O H (fun j hj => by rw [(o4 j hj).1, hnf, hnf]) (fun j hj => (h4 j hj).1)
  have hO2 := tot (ageOf (honestNow W mal)) (O.drop 5) (H.drop 5)
    (fun j hj => by rw [getD_drop5, (o4 j hj).2, hnf, hnf]) (fun j hj => by rw [getD_drop5]; exact (h4 j hj).2)
  have hrun := (hform bh h1 F).1
  have hmsg := (hform bh h1 F).2
  rw [hkm]
  have hv : viewAvg (drawn W β α s0 s1 tb) db q inOrder mal F = (ok ⟨q.info, km⟩, outcome (do
      let b ← F ⟨q.info, km⟩
      reconstructBytes 5 (clientState β α) (if mal then [bh, b] else [b, bh]))) := by
    unfold viewAvg
    rw [hmsg, hrun]
  rw [hv]
  have n0 := avgTest_nonneg (settingOf W db q inOrder mal e fr (isAged (honestNow W mal)))
    (settingOf W db q inOrder mal e fr (ageOf (honestNow W mal))) (wordsOf q F) (ok km) β α
  have same : outcome (do
      let b ← F ⟨q.info, km⟩
      reconstructBytes 5 (clientState β α) (if mal then [bh, b] else [b, bh]))
      = outcome (expectedAvg W db mal F ((settingOf W db q inOrder mal e fr (isAged (honestNow W mal))).total % p = 0)
        ⟨q.info, km⟩) ∨
      1 ≤ avgTest (settingOf W db q inOrder mal e fr (isAged (honestNow W mal)))
          (settingOf W db q inOrder mal e fr (ageOf (honestNow W mal))) (wordsOf q F) (ok km) β α := by
    unfold expectedAvg
    cases hFm : F ⟨q.info, km⟩ with
    | err m => exact Or.inl rfl
    | crash m => exact Or.inl rfl
    | ok b =>
      obtain ⟨A, a1, a2, a3⟩ := hF _ _ hFm
      have sA := small_getD_ten a2 a3
      have hw : wordsOf q F km = A := by
        unfold wordsOf
        rw [hFm]
        simp only [a1]
      simp only [ok_bind]
      have hrec : outcome (reconstructBytes 5 (clientState β α) (if mal then [bh, b] else [b, bh]))
          = outcome (reconstruct 5 (clientState β α) [A, H]) := by
        cases mal
        · exact congrArg outcome (reconstructBytes_words 5 _ _ _ _ _ a1 h2)
        · rw [← outcome_avg_comm β α a2 h3]
          exact congrArg outcome (reconstructBytes_words 5 _ _ _ _ _ h2 a1)
      rw [hrec, outcome_avg β α a2 h3, hli]
      simp only [ok_bind]
      have hiff := sameElements_iff_ten o2 a1 o3 a2
      have addA : ∀ j, j < 10 → ((A.getD j 0 + H.getD j 0) % modP).toNat = ((A.getD j 0).toNat + (H.getD j 0).toNat) % p :=
        fun j hj => sum_small (sA j hj) (sH j hj)
      have addO : ∀ j, j < 10 → ((O.getD j 0 + H.getD j 0) % modP).toNat = ((O.getD j 0).toNat + (H.getD j 0).toNat) % p := by
        intro j hj
        refine sum_small ?_ (sH j hj)
        have := sO j hj
        rw [p_val] at *
        omega
      by_cases hc : SameElements bo b
      · left
        have hmod := hiff.1 hc
        have hsums : ∀ j, j < 10 → (A.getD j 0 + H.getD j 0) % modP = (O.getD j 0 + H.getD j 0) % modP := by
          intro j hj
          apply BitVec.eq_of_toNat_eq
          rw [addA j hj, addO j hj, Nat.add_mod, ← hmod j hj, ← Nat.add_mod]
        have c1 := tags_congr (β := β) (α := α) (A := A) (O := O) (H := H) (fun j hj => hsums j (by omega))
        have c2 := tags_congr (β := β) (α := α) (A := A.drop 5) (O := O.drop 5) (H := H.drop 5)
          (fun j hj => by rw [getD_drop5, getD_drop5, getD_drop5]; exact hsums (5 + j) (by omega))
        rw [if_pos ⟨c1.1.2 hO1.1, c2.1.2 hO2.1⟩, if_pos hc, c1.2, hO1.2]
        simp only [due_zero]
        split <;> rfl
      · by_cases htm : TagsMatch β α A H ∧ TagsMatch β α (A.drop 5) (H.drop 5)
        · right
          refine avgTest_wrong hT hlen h3 h4 (A := wordsOf q F) (by rw [hw, a2]) (by rw [hw]; exact htm.1)
            (by rw [hw]; exact htm.2) ?_
          rw [hw]
          by_contra hcon
          push Not at hcon
          apply hc
          rw [hiff]
          have e1 := sums_of_tags htm.1 hO1.1 (by rw [hcon.1, hO1.2])
          have e2 := sums_of_tags htm.2 hO2.1 (by rw [hcon.2, hO2.2])
          intro j hj
          have hj' : (A.getD j 0 + H.getD j 0) % modP = (O.getD j 0 + H.getD j 0) % modP := by
            by_cases h5 : j < 5
            · exact e1 j h5
            · have := e2 (j - 5) (by omega)
              rw [getD_drop5, getD_drop5, getD_drop5, show 5 + (j - 5) = j by omega] at this
              exact this
          have := congrArg BitVec.toNat hj'
          rw [addA j hj, addO j hj] at this
          exact (Nat.ModEq.add_right_cancel' _ this).symm
        · left
          rw [if_neg htm, if_neg hc]
          rfl
  rcases same with h | h
  · show |D (_, _) - D (_, _)| ≤ _
    rw [h, sub_self, abs_zero]
    exact n0
  · exact abs_unit (hD _) (hD _) h

/-! ### A server that sends what it was asked for -/

theorem simWord_pat {S : Setting} (he : Canonical S.e) (hfr : ∀ r ∈ S.recs, r.fresh = S.e) {k : Key} {b : U32}
    {pat : Fin 4 → Bool} {j : Nat} (hp : ∀ h : j < 4, pat ⟨j, h⟩ → otherVal S k b j = S.e.toNat) :
    simWord S k b pat j = simWord S k b (fun _ => false) j := by
  have h : ∀ r ∈ S.recs, simShare S k b pat r j = simShare S k b (fun _ => false) r j := by
    intro r hr
    unfold simShare
    split
    · congr 1
      unfold otherElem
      by_cases h : j < 4
      · rw [dif_pos h, dif_pos h]
        by_cases hpj : pat ⟨j, h⟩ = true
        · rw [if_pos hpj, hfr r hr, if_neg (by simp), hp h hpj]
          apply BitVec.eq_of_toNat_eq
          rw [(val_canonical _).2, ZMod.val_natCast, Nat.mod_eq_of_lt he]
        · rw [if_neg hpj, if_neg (by simp)]
      · rw [dif_neg h, dif_neg h]
    · rfl
  unfold simWord
  rw [List.map_congr_left (fun r hr => by rw [h r hr])]

theorem own_cancels {S : Setting} (hE : BlockCipher S.E) (hc : ∀ s i, (words S.E s i).1 ≠ p) {k : Key} {n : Nat}
    (hk : KeyOk k n) (hle : ∀ j, (k.finalCW.getD j 0).toNat ≤ p) {sn : Byte} (hs : sgn sn = - sgn S.sn) (j : Nat) :
    ((realSum S.E sn k S.recs j : Nat) : ZMod p) + (simWord S k 0 (fun _ => false) j).toNat = 0 := by
  rw [realSum_cast, simWord_cast]
  induction S.recs with
  | nil => simp
  | cons r l ih =>
    simp only [List.map_cons, List.sum_cons, Nat.cast_add, Nat.cast_mul]
    have h : ((realShare S.E r.fresh sn k r.id j).toNat : ZMod p) + (simShare S k 0 (fun _ => false) r j).toNat = 0 := by
      unfold realShare
      rw [shareOf_cast (elems_clear_canonical (hc _) _ j) (hle j) (endOf_bit hE hk _), hs]
      by_cases hr : clear256 r.id = S.a
      · rw [simShare_on hle (endOf_bit hE hk _) (fun _ => rfl) hr, hr, elems_clear (hc _) r.fresh S.e]
        have : (0 : U32).toNat = 0 := rfl
        rw [this]
        push_cast
        ring
      · unfold simShare
        rw [if_neg hr, shareOf_cast (elems_clear_canonical (hc _) _ j) (hle j) (endOf_bit hE hk _)]
        ring
    linear_combination ih + (r.weight : ZMod p) * h

/-- The honest answer is no forgery. -/
theorem own_not_forgeable {S : Setting} (hE : BlockCipher S.E) (hc : ∀ s i, (words S.E s i).1 ≠ p) (he : Canonical S.e)
    (hfr : ∀ r ∈ S.recs, r.fresh = S.e) {k : Key} {n : Nat} (hk : KeyOk k n) {sn : Byte} (hs : sgn sn = - sgn S.sn)
    {A : List U32} (hA : ∀ j, j < 5 → (A.getD j 0).toNat = realSum S.E sn k S.recs j) (β : Fin 3 → Fin p) (α : Fin p) :
    ¬ Forgeable S A k β α := by
  rintro ⟨hle, hb, pat, hpat, -, hw⟩
  have hsum : ∀ j, j < 5 → (((A.getD j 0).toNat : Nat) : ZMod p) + (((simAnswer S k β α pat).getD j 0).toNat : Nat)
      = S.sign * S.total * (((vals (shared β) α).getD j 0).toNat : ZMod p) := by
    intro j hj
    have h1 := own_cancels hE hc hk hle hs j
    have h2 := simWord_affine hle hb ((vals (shared β) α).getD j 0) (pat := fun _ => false) (j := j) (fun _ => rfl)
    have h3 := simWord_pat he hfr (k := k) (b := (vals (shared β) α).getD j 0) (pat := pat) (j := j)
      (fun h hp => hpat ⟨j, h⟩ hp)
    rw [hA j hj, simAnswer_getD _ _ _ _ _ hj, h3, h2, ← add_assoc, h1, zero_add]
  have h := tags_of_sums (S := S) (β := β) (α := α) (O := A) (H := simAnswer S k β α pat)
    (fun j hj => by rw [hA j hj]; exact Nat.mod_lt _ p_pos)
    (fun j hj => by rw [simAnswer_getD _ _ _ _ _ hj, simWord_toNat]; exact Nat.mod_lt _ p_pos) hsum
  exact h.2 hw

end Verif.Forge
