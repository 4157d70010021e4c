import Verif.Lemmas.ForgeryRun

/-! # The forging server's computation of the honest answer is right -/

namespace Verif.Forge
open Res Verif.Field Verif.Field.Spec Verif.Fss Verif.Fss.Spec Verif.Privacy Verif.Predicate Verif.Predicate.Spec Finset
set_option linter.constructorNameAsVariable false

/-- The forging server's key `km` and the honest server's key `kh`, generated for the point `a` and the values `b`. -/
structure Twins (E : Cipher) (e : U32) (second : Bool) (a : List Bool) (b : List U32) (km kh : Key) : Prop where
  okm : KeyOk km a.length
  okh : KeyOk kh a.length
  fcw : kh.finalCW = km.finalCW
  le : ∀ j, (km.finalCW.getD j 0).toNat ≤ p
  bit : Bit (endOf E km a).2
  other : (endOf E kh a).2 = (endOf E km a).2 ^^^ 1
  off : ∀ x : List Bool, x.length = a.length → x ≠ a → endOf E kh x = endOf E km x
  val : ∀ j, j < 5 → ((elems e (words E (endOf E kh a).1)).getD j 0).toNat
    = ((((elems e (words E (endOf E km a).1)).getD j 0).toNat : ZMod p)
    + (endOf E km a).2.toNat * (km.finalCW.getD j 0).toNat
    + (if second then 1 else -1) * ((b.getD j 0).toNat : ZMod p)
    - ((endOf E km a).2 ^^^ 1).toNat * (km.finalCW.getD j 0).toNat)

theorem elems_canonical {e : U32} (he : Canonical e) (z : Fin 4 → Fin (2 ^ 31)) : ∀ v ∈ elems e z, Canonical v := by
  intro v hv
  simp only [elems, List.mem_cons, List.not_mem_nil, or_false] at hv
  rcases hv with rfl | rfl | rfl | rfl | rfl
  · exact elems_getD_canonical he z 0
  · exact elems_getD_canonical he z 1
  · exact elems_getD_canonical he z 2
  · exact elems_getD_canonical he z 3
  · simp [Canonical, p]

/-- The final correction word as an element of the field. -/
theorem fcw_cast {b x0 x1 : U32} (hb : Canonical b) (h0 : Canonical x0) (h1 : Canonical x1) {t0 t1 : Byte} (b0 : Bit t0)
    (b1 : Bit t1) (hne : t0 ≠ t1) {c : U32}
    (hc : c = if t1 = 1 then modP - (((b + (modP - x0)) % modP + x1) % modP)
      else ((b + (modP - x0)) % modP + x1) % modP) :
    (x0.toNat : ZMod p) + t0.toNat * c.toNat = x1.toNat + t1.toNat * c.toNat + b.toNat := by
  have e := fcw_toNat hb h0 h1
  have hv : (((b.toNat + (p - x0.toNat) + x1.toNat) % p : Nat) : ZMod p) = b.toNat - x0.toNat + x1.toNat := by
    rw [cast_mod]
    push_cast
    rw [neg_cast (le_of_lt h0)]
    ring
  have bz : (0 : Byte).toNat = 0 := rfl
  have bo : (1 : Byte).toNat = 1 := rfl
  rcases b0 with rfl | rfl <;> rcases b1 with rfl | rfl
  · exact absurd rfl hne
  · rw [if_pos rfl] at hc
    rw [hc, e.2, neg_cast (Nat.mod_lt _ p_pos).le, hv, bz, bo]
    push_cast
    ring
  · rw [if_neg (by decide)] at hc
    rw [hc, e.1, hv, bz, bo]
    push_cast
    ring
  · exact absurd rfl hne

theorem vals_canonical (β : Fin 3 → Fin p) (α : Fin p) : ∀ v ∈ vals (shared β) α, Canonical v := by
  intro v hv
  simp only [vals, List.mem_cons, List.not_mem_nil, or_false] at hv
  rcases hv with rfl | rfl | rfl | rfl | rfl
  · exact shared_canonical β 0
  · exact shared_canonical β 1
  · exact shared_canonical β 2
  · exact shared_canonical β 3
  · unfold Canonical; rw [mac_toNat]; exact α.2

theorem keys_five {env : Env} (hE : BlockCipher env.E) {e : U32} (he : resample env.fresh env.fuel 0 modP = ok e)
    (hc : Canonical e) {ocb : List Byte} (ho : BufferReady 5 ocb) (a : List Bool) (β : Fin 3 → Fin p) (α : Fin p)
    (s0 s1 : Fin 16 → Byte) (tb : Byte) :
    ∃ k0 k1 o, generateTreePF env ocb (List.ofFn s0 ++ [tb]) (List.ofFn s1) a (vals (shared β) α) = ok (k0, k1, o) ∧
      ∀ second : Bool, received env second a (shared β) s0 s1 tb α = ok (if second then k1 else k0) ∧
        Twins env.E e second a (vals (shared β) α) (if second then k1 else k0) (if second then k0 else k1) := by
  obtain ⟨c0, c1, cne⟩ := init_bits tb
  have ht : (List.ofFn s0 ++ [tb]).take 16 = List.ofFn s0 := by
    rw [List.take_append_of_le_length (by simp), List.take_of_length_le (by simp)]
  have hg : (List.ofFn s0 ++ [tb]).getD 16 0 = tb := by
    rw [List.getD_eq_getElem?_getD, List.getElem?_append_right (by simp)]
    simp
  have hl := genLoop_eq hE a (s0 := List.ofFn s0) (s1 := List.ofFn s1) (by simp) (by simp) c0 c1 cne
  have hcw := genRec_cw hE a (s0 := List.ofFn s0) (s1 := List.ofFn s1) (by simp) (by simp) c0 c1 cne
  have hbits := genRec_bits hE a (s0 := List.ofFn s0) (s1 := List.ofFn s1) (by simp) (by simp) c0 c1 cne
  have hon := evalRec_on hE a (s0 := List.ofFn s0) (s1 := List.ofFn s1) (by simp) (by simp) c0 c1 cne
  have hoff := fun x hx hxa => evalRec_off hE a x (s0 := List.ofFn s0) (s1 := List.ofFn s1) (by simp) (by simp) c0 c1 cne
    hx hxa
  have gen : ∀ ocb, BufferReady 5 ocb → _ := fun ocb ho =>
    generate_five hE he (ocb := ocb) (r1 := List.ofFn s0 ++ [tb]) (r2 := List.ofFn s1) (a := a)
      (b := vals (shared β) α) ho (by simp) (by simp) rfl _ (by rw [ht, hg]; exact hl)
  obtain ⟨o, e1⟩ := gen ocb ho
  obtain ⟨o', e2⟩ := gen (initFss 5) (initFss_ok 5)
  rw [ht, hg] at e1 e2
  simp only at hcw hbits hon hoff e1 e2
  generalize hG : genRec env.E a (List.ofFn s0) (List.ofFn s1) (tb % 2) (tb % 2 ^^^ 1) = g at *
  obtain ⟨cw, S0, S1, t0, t1⟩ := g
  simp only at hcw hbits hon hoff e1 e2
  have hfl : (fcwC (vals (shared β) α) (elems e (words env.E S0)) (elems e (words env.E S1)) t1).length = 5 := by
    simp [fcwC, vals]
  have hle := fcwC_le (t1 := t1) (vals_canonical β α) (elems_canonical hc (words env.E S0)) (elems_canonical hc (words env.E S1))
  have hb1 := (bit_other hbits.2.2.1 hbits.2.2.2.1 hbits.2.2.2.2)
  have hval : ∀ j, j < 5 → _ := fun j (hj : j < 5) =>
    fcw_cast (canonical_getD (vals_canonical β α) j) (canonical_getD (elems_canonical hc (words env.E S0)) j)
      (canonical_getD (elems_canonical hc (words env.E S1)) j) hbits.2.2.1 hbits.2.2.2.1 hbits.2.2.2.2
      (c := (fcwC (vals (shared β) α) (elems e (words env.E S0)) (elems e (words env.E S1)) t1).getD j 0)
      (by
        rw [getD_of_lt _ (by rw [hfl]; exact hj)]
        simp only [fcwC, List.getElem_map, List.getElem_range])
  generalize hF : fcwC (vals (shared β) α) (elems e (words env.E S0)) (elems e (words env.E S1)) t1 = F at *
  refine ⟨_, _, o, e1, ?_⟩
  intro second
  refine ⟨?_, ?_⟩
  · unfold received
    rw [e2]
    cases second <;> rfl
  · cases second with
    | false =>
      simp only [Bool.false_eq_true, if_false]
      refine ⟨⟨by simp, c0, hcw.1, hcw.2, hfl⟩, ⟨by simp, c1, hcw.1, hcw.2, hfl⟩, rfl, hle, ?_, ?_, ?_, ?_⟩
      · simp only [endOf, hon.1]; exact hbits.2.2.1
      · simp only [endOf, hon.1, hon.2]; exact hb1.1
      · intro x hx hxa
        simp only [endOf]
        exact (hoff x hx hxa).symm
      · intro j hj
        have := hval j hj
        simp only [endOf, hon.1, hon.2, Bool.false_eq_true, if_false, ← hb1.1]
        linear_combination -this
    | true =>
      simp only [if_true]
      refine ⟨⟨by simp, c1, hcw.1, hcw.2, hfl⟩, ⟨by simp, c0, hcw.1, hcw.2, hfl⟩, rfl, hle, ?_, ?_, ?_, ?_⟩
      · simp only [endOf, hon.2]; exact hbits.2.2.2.1
      · simp only [endOf, hon.1, hon.2]; exact hb1.2
      · intro x hx hxa
        simp only [endOf]
        exact hoff x hx hxa
      · intro j hj
        have := hval j hj
        simp only [endOf, hon.1, hon.2, if_true, ← hb1.2]
        linear_combination this

/-- The components that the honest server replaces. -/
def hitAt (E : Cipher) (kh : Key) (a : List Bool) (j : Fin 4) : Bool := decide ((words E (endOf E kh a).1 j).1 = p)

theorem elems_getD (e : U32) (z : Fin 4 → Fin (2 ^ 31)) {j : Nat} (hj : j < 4) :
    (elems e z).getD j 0 = orFresh e (z ⟨j, hj⟩) := by
  match j, hj with
  | 0, _ => rfl
  | 1, _ => rfl
  | 2, _ => rfl
  | 3, _ => rfl

theorem elems_four (e : U32) (z : Fin 4 → Fin (2 ^ 31)) : (elems e z).getD 4 0 = 0 := rfl

theorem ofNat_val_cast {n : Nat} (h : n < p) : BitVec.ofNat 32 ((n : ZMod p)).val = BitVec.ofNat 32 n := by
  rw [ZMod.val_natCast, Nat.mod_eq_of_lt h]

theorem sim_share {S : Setting} {b : List U32} {km kh : Key} (T : Twins S.E S.e S.second S.a b km kh) {r : Rec}
    (hr : r.id.length = S.a.length) {j : Nat} (hj : j < 5) :
    simShare S km (b.getD j 0) (hitAt S.E kh S.a) r j = realShare S.E r.fresh S.sn kh r.id j := by
  unfold simShare realShare
  by_cases hx : clear256 r.id = S.a
  · rw [if_pos hx, hx, T.fcw, T.other]
    unfold otherBit
    congr 1
    have hv : otherVal S km (b.getD j 0) j = ((elems S.e (words S.E (endOf S.E kh S.a).1)).getD j 0).toNat :=
      (T.val j hj).symm
    unfold otherElem
    by_cases h4 : j < 4
    · rw [dif_pos h4, elems_getD _ _ h4]
      rw [elems_getD _ _ h4] at hv
      unfold hitAt orFresh
      by_cases hp : (words S.E (endOf S.E kh S.a).1 ⟨j, h4⟩).1 = p
      · rw [if_pos (by simpa using hp), if_pos hp]
      · rw [if_neg (by simpa using hp), if_neg hp, hv, orFresh, if_neg hp]
        have hlt : (words S.E (endOf S.E kh S.a).1 ⟨j, h4⟩).1 < p := by
          have := (words S.E (endOf S.E kh S.a).1 ⟨j, h4⟩).2
          rw [p_val] at *
          omega
        rw [mac_toNat ⟨_, hlt⟩, ofNat_val_cast hlt]
    · have h5 : j = 4 := by omega
      subst h5
      rw [dif_neg h4, hv, elems_four, elems_four]
      have : ((0 : U32).toNat : ZMod p) = ((0 : Nat) : ZMod p) := rfl
      rw [this, ofNat_val_cast p_pos]
      rfl
  · rw [if_neg hx, T.fcw, T.off _ (by rw [clear256_length, hr]) hx]

theorem sim_sum {S : Setting} {b : List U32} {km kh : Key} (T : Twins S.E S.e S.second S.a b km kh)
    (hr : ∀ r ∈ S.recs, r.id.length = S.a.length) {j : Nat} (hj : j < 5) :
    (simWord S km (b.getD j 0) (hitAt S.E kh S.a) j).toNat = realSum S.E S.sn kh S.recs j := by
  rw [simWord_toNat]
  unfold realSum
  congr 2
  apply List.map_congr_left
  intro r h
  rw [sim_share T (hr r h) hj]

/-- The honest answer is the one the forging server computes. -/
theorem sim_answer {S : Setting} {β : Fin 3 → Fin p} {α : Fin p} {km kh : Key}
    (T : Twins S.E S.e S.second S.a (vals (shared β) α) km kh)
    (hr : ∀ r ∈ S.recs, r.id.length = S.a.length) {H : List U32} (hl : H.length = 5)
    (hH : ∀ j, j < 5 → (H.getD j 0).toNat = realSum S.E S.sn kh S.recs j) :
    H = simAnswer S km β α (hitAt S.E kh S.a) := by
  apply List.ext_getElem
  · simp [simAnswer, hl]
  · intro j h1 h2
    have hj : j < 5 := by omega
    apply BitVec.eq_of_toNat_eq
    have e1 := hH j hj
    rw [getD_of_lt _ h1] at e1
    rw [e1, ← sim_sum T hr hj, ← simAnswer_getD S km β α _ hj, getD_of_lt _ h2]

theorem sim_allowed {S : Setting} {β : Fin 3 → Fin p} {α : Fin p} {km kh : Key}
    (T : Twins S.E S.e S.second S.a (vals (shared β) α) km kh) (j : Fin 4) (h : hitAt S.E kh S.a j) :
    otherVal S km ((vals (shared β) α).getD j.1 0) j.1 = S.e.toNat := by
  have hv : otherVal S km ((vals (shared β) α).getD j.1 0) j.1
    = ((elems S.e (words S.E (endOf S.E kh S.a).1)).getD j.1 0).toNat := (T.val j.1 (by omega)).symm
  rw [hv, elems_getD _ _ j.2, orFresh, if_pos (by simpa [hitAt] using h)]

/-- When the client accepts a wrong number, key and MAC keys are such that this is possible. -/
theorem forgeable_of {S : Setting} {β : Fin 3 → Fin p} {α : Fin p} {km kh : Key}
    (T : Twins S.E S.e S.second S.a (vals (shared β) α) km kh)
    (hr : ∀ r ∈ S.recs, r.id.length = S.a.length) {A H : List U32} (hl : H.length = 5)
    (hH : ∀ j, j < 5 → (H.getD j 0).toNat = realSum S.E S.sn kh S.recs j)
    (ht : TagsMatch β α A H) (hw : Wrong S (dataOf A H)) : Forgeable S A km β α := by
  have e := sim_answer T hr hl hH
  subst e
  exact ⟨T.le, T.bit, _, sim_allowed T, ht, hw⟩

end Verif.Forge
