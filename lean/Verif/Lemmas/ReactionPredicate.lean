import Verif.Spec.ReactionPredicate
import Verif.Lemmas.WrapAround
import Verif.Lemmas.Reaction

/-! # The client's reaction to one lying server of a count query -/

namespace Verif.Forge
open Res Verif.Field Verif.Field.Spec Verif.Fss Verif.Fss.Spec Verif.Privacy Verif.Predicate Verif.Predicate.Spec
  Verif.Reaction Verif.Forge.Spec Finset
set_option linter.constructorNameAsVariable false

theorem runMean_switch {G G' : (Fin 3 → Fin p) → Fin p → (Fin 16 → Byte) → (Fin 16 → Byte) → Byte → ℚ}
    {B : (Fin 3 → Fin p) → Fin p → (Fin 16 → Byte) → (Fin 16 → Byte) → Byte → ℚ}
    (h : ∀ β α s0 s1 tb, |G β α s0 s1 tb - G' β α s0 s1 tb| ≤ B β α s0 s1 tb) : |runMean G - runMean G'| ≤ runMean B := by
  have h1 := runMean_mono (G := G) (G' := fun β α s0 s1 tb => G' β α s0 s1 tb + B β α s0 s1 tb)
    (fun β α s0 s1 tb => by linarith [(abs_le.1 (h β α s0 s1 tb)).2])
  have h2 := runMean_mono (G := G') (G' := fun β α s0 s1 tb => G β α s0 s1 tb + B β α s0 s1 tb)
    (fun β α s0 s1 tb => by linarith [(abs_le.1 (h β α s0 s1 tb)).1])
  rw [runMean_add] at h1 h2
  rw [abs_le]
  constructor <;> linarith

/-- An honest run is a run in which the server that may lie gives its honest answer. -/
theorem run_eq_forged (W : World) (db : KeyDB) (q : Query.ClientFSS) (inOrder mal : Bool) :
    W.run 5 db q inOrder = forgedRun W db q inOrder mal (fun m => W.serve (liar mal) 5 db m) := by
  unfold World.run forgedRun
  cases mal <;> rfl

/-- A run in which one server lies, as an equation. -/
theorem forgedRun_form {W : World} {mal : Bool} {e : U32} {fr : Nat → U32} (hS : Setup W mal e fr) (db : KeyDB)
    (q : Query.ClientFSS) (inOrder : Bool) (β : Fin 3 → Fin p) (α : Fin p) (s0 s1 : Fin 16 → Byte) (tb : Byte) :
    ∃ km kh, received W.env (mal == inOrder) q.input (shared β) s0 s1 tb α = ok km ∧
      Twins W.env.E e (mal == inOrder) q.input (vals (shared β) α) km kh ∧
      (∃ ms rnd' o, query W.env W.fuel 5 (macSource β α) W.buf (List.ofFn s0 ++ [tb]) (List.ofFn s1) q 2 =
        ok (ms, clientState β α, rnd', o) ∧ ⟨q.info, km⟩ ∈ ms ∧ ⟨q.info, kh⟩ ∈ ms) ∧
      ∀ bh, W.serve (if mal then 0 else 1) 5 db ⟨q.info, kh⟩ = ok bh → ∀ F : Msg → Res (List Byte),
        forgedRun (drawn W β α s0 s1 tb) db q inOrder mal F = (do
          let b ← F ⟨q.info, km⟩
          reconstructBytes 5 (clientState β α) (if mal then [bh, b] else [b, bh])) ∧
        (view (drawn W β α s0 s1 tb) db q inOrder mal F).1 = ok ⟨q.info, km⟩ := by
  obtain ⟨k0, k1, o, hg, hsec⟩ := keys_five hS.cipher hS.draw hS.canonical hS.buf q.input β α s0 s1 tb
  obtain ⟨hrec, hT⟩ := hsec (mal == inOrder)
  obtain ⟨rnd', hd⟩ := drawKeys_mac hS.fuel β α
  have hq : query W.env W.fuel 5 (macSource β α) W.buf (List.ofFn s0 ++ [tb]) (List.ofFn s1) q 2 =
      ok ([⟨q.info, k0⟩, ⟨q.info, k1⟩], clientState β α, rnd', o) := by
    unfold query
    rw [if_neg (by simp), hd]
    simp only [ok_bind]
    rw [show (clientState β α).a = vals (shared β) α from rfl, hg]
    rfl
  refine ⟨_, _, hrec, hT, ⟨_, _, _, hq, by cases (mal == inOrder) <;> simp, by cases (mal == inOrder) <;> simp⟩, ?_⟩
  intro bh hserve F
  unfold view forgedRun
  simp only [show (drawn W β α s0 s1 tb).env = W.env from rfl, show (drawn W β α s0 s1 tb).fuel = W.fuel from rfl,
    show (drawn W β α s0 s1 tb).rnd = macSource β α from rfl, show (drawn W β α s0 s1 tb).buf = W.buf from rfl,
    show (drawn W β α s0 s1 tb).r1 = List.ofFn s0 ++ [tb] from rfl, show (drawn W β α s0 s1 tb).r2 = List.ofFn s1 from rfl,
    show ∀ sn m, (drawn W β α s0 s1 tb).serve sn 5 db m = W.serve sn 5 db m from fun _ _ => rfl]
  rw [hq]
  simp only [ok_bind]
  rw [show idx [(⟨q.info, k0⟩ : Msg), ⟨q.info, k1⟩] (if inOrder then 0 else 1)
      = ok ⟨q.info, if inOrder then k0 else k1⟩ by cases inOrder <;> rfl,
    show idx [(⟨q.info, k0⟩ : Msg), ⟨q.info, k1⟩] (if inOrder then 1 else 0)
      = ok ⟨q.info, if inOrder then k1 else k0⟩ by cases inOrder <;> rfl]
  simp only [ok_bind]
  cases mal
  · have hb : (if (false == inOrder) = true then k1 else k0) = if inOrder then k0 else k1 := by cases inOrder <;> rfl
    have hb' : (if (false == inOrder) = true then k0 else k1) = if inOrder then k1 else k0 := by cases inOrder <;> rfl
    rw [hb'] at hserve
    rw [hb]
    refine ⟨?_, by cases inOrder <;> rfl⟩
    simp only [Bool.false_eq_true, if_false] at hserve ⊢
    cases F ⟨q.info, if inOrder then k0 else k1⟩ with
    | ok b => simp only [ok_bind, hserve]
    | err m => rfl
    | crash m => rfl
  · have hb : (if (true == inOrder) = true then k1 else k0) = if inOrder then k1 else k0 := by cases inOrder <;> rfl
    have hb' : (if (true == inOrder) = true then k0 else k1) = if inOrder then k0 else k1 := by cases inOrder <;> rfl
    rw [hb'] at hserve
    rw [hb]
    refine ⟨?_, by cases inOrder <;> rfl⟩
    simp only [if_true] at hserve ⊢
    rw [hserve]
    simp only [ok_bind]

/-- The client's sums of small words. -/
theorem sum_small {x y : U32} (hx : x.toNat ≤ 2 ^ 32 - p) (hy : y.toNat < p) :
    ((x + y) % modP).toNat = (x.toNat + y.toNat) % p := by
  rw [add_mod_toNat (by rw [p_val] at *; omega)]
  rfl

open Classical in
/-- The client accepts five small words if and only if they are the honest ones, provided it accepts the honest ones and does not
accept a wrong result. -/
theorem reconstruct_compare {st : State} (hst : st.alphas.length = 5) {A O H : List U32} (hA : A.length = 5)
    (hO : O.length = 5) (hH : H.length = 5) (sA : ∀ j, j < 5 → (A.getD j 0).toNat ≤ 2 ^ 32 - p)
    (sO : ∀ j, j < 5 → (O.getD j 0).toNat < p) (sH : ∀ j, j < 5 → (H.getD j 0).toNat < p) {r : U32}
    (hon : reconstruct 5 st [O, H] = ok r) (hno : ∀ r', reconstruct 5 st [A, H] = ok r' → r' = r) :
    ending (reconstruct 5 st [A, H]) = if ∀ j, j < 5 → (O.getD j 0).toNat % p = (A.getD j 0).toNat % p then ok ()
      else err "REJECT" := by
  have sO' : ∀ j, j < 5 → (O.getD j 0).toNat ≤ 2 ^ 32 - p := by
    intro j hj
    have := sO j hj
    rw [p_val] at *
    omega
  by_cases h : ∀ j, j < 5 → (O.getD j 0).toNat % p = (A.getD j 0).toNat % p
  · rw [if_pos h]
    have hs : ∀ j, j < 5 → (A.getD j 0 + H.getD j 0) % modP = (O.getD j 0 + H.getD j 0) % modP := by
      intro j hj
      apply BitVec.eq_of_toNat_eq
      rw [sum_small (sA j hj) (sH j hj), sum_small (sO' j hj) (sH j hj), Nat.add_mod, ← h j hj, ← Nat.add_mod]
    have : reconstruct 5 st [A, H] = ok r := by
      rw [← hon, reconstruct_count_eq (by omega) hst hA hH, reconstruct_count_eq (by omega) hst hO hH, hs 0 (by omega)]
      by_cases hc : ∀ i, i < 5 - 1 → ¬ tagOf ((O.getD 0 0 + H.getD 0 0) % modP) (st.alphas.getD i 0)
          ≠ (O.getD (i + 1) 0 + H.getD (i + 1) 0) % modP
      · rw [if_pos hc, if_pos (fun i hi => by rw [hs (i + 1) (by omega)]; exact hc i hi)]
      · rw [if_neg hc, if_neg (fun hh => hc (fun i hi => by rw [← hs (i + 1) (by omega)]; exact hh i hi))]
    rw [this]
    rfl
  · rw [if_neg h]
    cases hr : reconstruct 5 st [A, H] with
    | ok r' =>
      exfalso
      apply h
      have e := hno r' hr
      subst e
      obtain ⟨a1, a2⟩ := reconstruct_count_ok (Or.inl hA) hr
      obtain ⟨o1, o2⟩ := reconstruct_count_ok (Or.inl hO) hon
      have hs : ∀ j, j < 5 → (A.getD j 0 + H.getD j 0) % modP = (O.getD j 0 + H.getD j 0) % modP := by
        intro j hj
        cases j with
        | zero => rw [← a1, o1]
        | succ i => rw [← a2 i (by omega), o2 i (by omega)]
      intro j hj
      have := congrArg BitVec.toNat (hs j hj)
      rw [sum_small (sA j hj) (sH j hj), sum_small (sO' j hj) (sH j hj)] at this
      exact (Nat.ModEq.add_right_cancel' _ this).symm
    | err m =>
      rw [reconstruct_count_eq (by omega) hst hA hH] at hr
      split at hr
      · cases hr
      · cases hr; rfl
    | crash m =>
      rw [reconstruct_count_eq (by omega) hst hA hH] at hr
      split at hr <;> cases hr

/-- The order of the answers does not matter to the client. -/
theorem reconstruct_comm {st : State} (hst : st.alphas.length = 5) {A H : List U32} (hA : A.length = 5) (hH : H.length = 5) :
    reconstruct 5 st [H, A] = reconstruct 5 st [A, H] := by
  rw [reconstruct_count_eq (by omega) hst hA hH, reconstruct_count_eq (by omega) hst hH hA]
  simp only [BitVec.add_comm]

/-- Five words as elements of the field. -/
theorem sameElements_iff {b b' : List Byte} {a a' : List U32} (h : Utils.byteSliceToUint32Slice b = ok a)
    (h' : Utils.byteSliceToUint32Slice b' = ok a') (hl : a.length = 5) (hl' : a'.length = 5) :
    SameElements b b' ↔ ∀ j, j < 5 → (a.getD j 0).toNat % p = (a'.getD j 0).toNat % p := by
  constructor
  · rintro ⟨x, x', hx, hx', -, hs⟩ j -
    rw [h] at hx
    rw [h'] at hx'
    cases hx
    cases hx'
    exact hs j
  · intro hs
    refine ⟨a, a', h, h', by omega, fun j => ?_⟩
    by_cases hj : j < 5
    · exact hs j hj
    · rw [List.getD_eq_getElem?_getD, List.getD_eq_getElem?_getD, List.getElem?_eq_none (by omega),
        List.getElem?_eq_none (by omega)]

theorem small_getD {a : List U32} (hl : a.length = 5) (hs : ∀ w ∈ a, w.toNat ≤ 2 ^ 32 - p) :
    ∀ j, j < 5 → (a.getD j 0).toNat ≤ 2 ^ 32 - p := by
  intro j hj
  rw [getD_of_lt _ (by omega)]
  exact hs _ (List.getElem_mem _)

theorem toNat_due {r : U32} {n : Nat} (hr : r.toNat = n) : r = BitVec.ofNat 32 n := by
  rw [← hr]
  simp

theorem due_lt (inOrder : Bool) (n : Nat) : due inOrder n < p := by
  unfold due
  split <;> exact Nat.mod_lt _ p_pos

/-- What the server sees, as long as the honest run goes well and no wrong result is accepted. -/
theorem view_expected {W : World} {mal : Bool} {e e' : U32} {fr fr' : Nat → U32} (hS : Setup W mal e fr)
    (hS' : Setup W (!mal) e' fr') {db : KeyDB} (hdb : Loaded db) {q : Query.ClientFSS} (ha : q.info.avg = false)
    (hs : q.info.sum = false) (ht : q.info.and = true ∨ q.info.target ≤ 2) {f : KeyInfo → Option (List Bool)}
    (hsel : ∀ ki ∈ db.keys, keyId W.hash q.info ki = ok (f ki))
    (hlen : ∀ ki ∈ db.keys, ∀ id, f ki = some id → id.length = q.input.length) (inOrder : Bool)
    (F : Msg → Res (List Byte)) (hF : ∀ m b, F m = ok b → WellFormed b) (D : Res Msg × Res Unit → ℚ)
    (β : Fin 3 → Fin p) (α : Fin p) (s0 s1 : Fin 16 → Byte) (tb : Byte) (n : Nat)
    (hgood : (drawn W β α s0 s1 tb).run 5 db q inOrder = ok (BitVec.ofNat 32 n))
    (hright : ∀ r, forgedRun (drawn W β α s0 s1 tb) db q inOrder mal F = ok r → r.toNat = n) :
    D (view (drawn W β α s0 s1 tb) db q inOrder mal F)
      = seeTest W db q.info mal F D (received W.env (mal == inOrder) q.input (shared β) s0 s1 tb α) := by
  obtain ⟨km, kh, hkm, hT, -, hform⟩ := forgedRun_form hS db q inOrder β α s0 s1 tb
  obtain ⟨bh, H, h1, h2, h3, h4⟩ := honest_count hS hdb ha hs ht hsel hlen hT.okh
  obtain ⟨bo, O, o1, o2, o3, o4⟩ := honest_count hS' hdb ha hs ht hsel hlen hT.okm
  have hli : W.serve (liar mal) 5 db ⟨q.info, km⟩ = ok bo := by
    rw [← o1]
    cases mal <;> rfl
  have sH : ∀ j, j < 5 → (H.getD j 0).toNat < p := fun j hj => by rw [h4 j hj]; exact Nat.mod_lt _ p_pos
  have sO : ∀ j, j < 5 → (O.getD j 0).toNat < p := fun j hj => by rw [o4 j hj]; exact Nat.mod_lt _ p_pos
  have hst : (clientState β α).alphas.length = 5 := rfl
  -- the honest run
  rw [run_eq_forged _ db q inOrder mal, (hform bh h1 _).1] at hgood
  have hli' : (drawn W β α s0 s1 tb).serve (liar mal) 5 db ⟨q.info, km⟩ = ok bo := hli
  rw [hli'] at hgood
  simp only [ok_bind] at hgood
  have hon : reconstruct 5 (clientState β α) [O, H] = ok (BitVec.ofNat 32 n) := by
    rw [← hgood]
    cases mal
    · exact (reconstructBytes_words 5 _ _ _ _ _ o2 h2).symm
    · rw [← reconstruct_comm hst o3 h3]
      exact (reconstructBytes_words 5 _ _ _ _ _ h2 o2).symm
  have hv : view (drawn W β α s0 s1 tb) db q inOrder mal F = (ok ⟨q.info, km⟩, expected W db mal F ⟨q.info, km⟩) := by
    apply Prod.ext
    · exact (hform bh h1 F).2
    · show ending (forgedRun (drawn W β α s0 s1 tb) db q inOrder mal F) = _
      have hrun := (hform bh h1 F).1
      rw [hrun] at hright ⊢
      unfold expected
      cases hFm : F ⟨q.info, km⟩ with
      | ok b =>
        obtain ⟨A, a1, a2, a3⟩ := hF _ _ hFm
        rw [hFm] at hright
        simp only [ok_bind] at hright ⊢
        have hrec : reconstructBytes 5 (clientState β α) (if mal then [bh, b] else [b, bh])
            = reconstruct 5 (clientState β α) [A, H] := by
          cases mal
          · exact reconstructBytes_words 5 _ _ _ _ _ a1 h2
          · rw [← reconstruct_comm hst a2 h3]
            exact reconstructBytes_words 5 _ _ _ _ _ h2 a1
        rw [hrec] at hright ⊢
        rw [reconstruct_compare hst a2 o3 h3 (small_getD a2 a3) sO sH hon (fun r' hr' => toNat_due (hright r' hr')), hli]
        simp only [ok_bind]
        have hiff := sameElements_iff o2 a1 o3 a2
        by_cases hc : SameElements bo b
        · rw [if_pos hc, if_pos (hiff.1 hc)]
        · rw [if_neg hc, if_neg (fun x => hc (hiff.2 x))]
      | err m => rfl
      | crash m => rfl
  rw [hv, hkm]
  rfl

theorem seeTest_unit (W : World) (db : KeyDB) (i : Query.Info) (mal : Bool) (F : Msg → Res (List Byte))
    {D : Res Msg × Res Unit → ℚ} (hD : IsTest D) (k : Res Key) :
    0 ≤ seeTest W db i mal F D k ∧ seeTest W db i mal F D k ≤ 1 := by
  cases k with
  | ok k => exact hD _
  | err m => exact ⟨le_refl _, zero_le_one⟩
  | crash m => exact ⟨le_refl _, zero_le_one⟩

theorem abs_unit {x y c : ℚ} (hx : 0 ≤ x ∧ x ≤ 1) (hy : 0 ≤ y ∧ y ≤ 1) (hc : 1 ≤ c) : |x - y| ≤ c := by
  rw [abs_le]
  constructor <;> linarith [hx.1, hx.2, hy.1, hy.2]

open Classical in
/-- What the server sees is about what it can compute from its message. -/
theorem view_close_expected {W : World} {mal : Bool} {e e' : U32} {fr fr' : Nat → U32} (hS : Setup W mal e fr)
    (hS' : Setup W (!mal) e' fr') {db : KeyDB} (hdb : Loaded db) {q : Query.ClientFSS} (ha : q.info.avg = false)
    (hs : q.info.sum = false) (ht : q.info.and = true ∨ q.info.target ≤ 2) {f : KeyInfo → Option (List Bool)}
    (hsel : ∀ ki ∈ db.keys, keyId W.hash q.info ki = ok (f ki))
    (hlen : ∀ ki ∈ db.keys, ∀ id, f ki = some id → id.length = q.input.length) (inOrder : Bool)
    (F : Msg → Res (List Byte)) (hF : ∀ m b, F m = ok b → WellFormed b) {D : Res Msg × Res Unit → ℚ} (hD : IsTest D)
    {n : Nat} :
    |viewProb W db q inOrder mal F D - avg (fun β : Fin 3 → Fin p =>
        viewMean W.env (mal == inOrder) q.input (shared β) (seeTest W db q.info mal F D))|
      ≤ forgeProb W db q inOrder mal F (fun r => r ≠ n) + failProb W db q inOrder n := by
  unfold forgeProb failProb
  rw [← runMean_add]
  apply runMean_switch
  intro β α s0 s1 tb
  have u1 := hD (view (drawn W β α s0 s1 tb) db q inOrder mal F)
  have u2 := seeTest_unit W db q.info mal F hD (received W.env (mal == inOrder) q.input (shared β) s0 s1 tb α)
  by_cases hg : (drawn W β α s0 s1 tb).run 5 db q inOrder = ok (BitVec.ofNat 32 n)
  · by_cases hb : ∃ r, forgedRun (drawn W β α s0 s1 tb) db q inOrder mal F = ok r ∧ r.toNat ≠ n
    · rw [if_pos hb, if_pos hg]
      exact abs_unit u1 u2 (by norm_num)
    · rw [if_neg hb, if_pos hg]
      rw [view_expected hS hS' hdb ha hs ht hsel hlen inOrder F hF D β α s0 s1 tb n hg (fun r hr => by
        by_contra hne
        exact hb ⟨r, hr, hne⟩)]
      simp
  · rw [if_neg hg]
    refine abs_unit u1 u2 (le_add_of_nonneg_left ?_)
    split <;> norm_num

end Verif.Forge
