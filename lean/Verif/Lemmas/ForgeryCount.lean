import Verif.Lemmas.ForgeryGame
import Verif.Lemmas.Predicate
import Mathlib.Algebra.Field.ZMod
import Mathlib.Tactic.LinearCombination

/-! # How many MAC keys allow a forgery -/

namespace Verif.Forge
open Res Verif.Field Verif.Field.Spec Verif.Fss Verif.Fss.Spec Verif.Privacy Verif.Predicate Finset
set_option linter.constructorNameAsVariable false

theorem p_lt : p < 2 ^ 31 := by norm_num [p]
theorem p_pos : 0 < p := by norm_num [p]

theorem cast_mod (n : Nat) : ((n % p : Nat) : ZMod p) = n := ZMod.natCast_mod n p

theorem neg_cast {v : Nat} (h : v ≤ p) : ((p - v : Nat) : ZMod p) = -(v : ZMod p) := by
  rw [Nat.cast_sub h, ZMod.natCast_self, zero_sub]

theorem eq_of_cast {m n : Nat} (hm : m < p) (hn : n < p) (h : (m : ZMod p) = n) : m = n := by
  have := (ZMod.natCast_eq_natCast_iff' m n p).1 h
  rwa [Nat.mod_eq_of_lt hm, Nat.mod_eq_of_lt hn] at this

/-- The sign of a server's share. -/
def sgn (sn : Byte) : ZMod p := if sn = 0 then 1 else -1

theorem shareOf_cast {sn t : Byte} {x c : U32} (hx : Canonical x) (hc : c.toNat ≤ p) (ht : Bit t) :
    ((shareOf sn x c t).toNat : ZMod p) = sgn sn * (x.toNat + t.toNat * c.toNat) := by
  have e := out_toNat hx hc ht
  unfold shareOf sgn
  by_cases hs : sn = 0
  · simp only [hs, if_true]
    rw [e.1, cast_mod]
    push_cast
    ring
  · simp only [hs, if_false]
    rw [e.2, neg_cast (Nat.mod_lt _ p_pos).le, cast_mod]
    push_cast
    ring

instance : NeZero p := ⟨by norm_num [p]⟩

theorem val_canonical (v : ZMod p) : Canonical (BitVec.ofNat 32 v.val) ∧ (BitVec.ofNat 32 v.val).toNat = v.val := by
  have h1 := ZMod.val_lt v
  have h2 := p_lt
  have : (BitVec.ofNat 32 v.val).toNat = v.val := by rw [BitVec.toNat_ofNat, Nat.mod_eq_of_lt (by omega)]
  exact ⟨by unfold Canonical; rw [this]; exact h1, this⟩

theorem simWord_toNat (S : Setting) (k : Key) (b : U32) (pat : Fin 4 → Bool) (j : Nat) :
    (simWord S k b pat j).toNat = (S.recs.map (fun r => r.weight * (simShare S k b pat r j).toNat)).sum % p := by
  have h1 := Nat.mod_lt (S.recs.map (fun r => r.weight * (simShare S k b pat r j).toNat)).sum p_pos
  have h2 := p_lt
  unfold simWord
  rw [BitVec.toNat_ofNat, Nat.mod_eq_of_lt (by omega)]

theorem simWord_cast (S : Setting) (k : Key) (b : U32) (pat : Fin 4 → Bool) (j : Nat) :
    ((simWord S k b pat j).toNat : ZMod p)
      = ((S.recs.map (fun r => r.weight * (simShare S k b pat r j).toNat)).sum : Nat) := by
  rw [simWord_toNat, cast_mod]

/-- The share of a matching record for a component that the client has not replaced. -/
theorem simShare_on {S : Setting} {k : Key} (hk : ∀ j, (k.finalCW.getD j 0).toNat ≤ p) (ht : Bit (endOf S.E k S.a).2)
    {b : U32} {pat : Fin 4 → Bool} {j : Nat} (hj : ∀ h : j < 4, pat ⟨j, h⟩ = false) {r : Rec}
    (hr : clear256 r.id = S.a) :
    ((simShare S k b pat r j).toNat : ZMod p) = sgn S.sn *
      (((elems S.e (words S.E (endOf S.E k S.a).1)).getD j 0).toNat
        + (endOf S.E k S.a).2.toNat * (k.finalCW.getD j 0).toNat) + S.sign * b.toNat := by
  have hel : otherElem S k b pat r.fresh j = BitVec.ofNat 32 (otherVal S k b j).val := by
    unfold otherElem
    by_cases h : j < 4
    · rw [dif_pos h, hj h]; rfl
    · rw [dif_neg h]
  have hv := val_canonical (otherVal S k b j)
  have hb : Bit (otherBit S k) := (bit_flip ht).1
  unfold simShare
  rw [if_pos hr, hel, shareOf_cast hv.1 (hk j) hb, hv.2, ZMod.natCast_zmod_val]
  unfold otherVal Setting.sign sgn
  ring

theorem simShare_congr {S : Setting} {k : Key} {b b' : U32} {pat pat' : Fin 4 → Bool} {j : Nat} (hj : j < 4)
    (hp : pat ⟨j, hj⟩ = pat' ⟨j, hj⟩) (h : b = b' ∨ pat ⟨j, hj⟩ = true) (r : Rec) :
    simShare S k b pat r j = simShare S k b' pat' r j := by
  unfold simShare
  split
  · congr 1
    unfold otherElem
    rw [dif_pos hj, dif_pos hj, ← hp]
    rcases h with rfl | h
    · rfl
    · rw [if_pos h, if_pos h]
  · rfl

theorem simWord_congr {S : Setting} {k : Key} {b b' : U32} {pat pat' : Fin 4 → Bool} {j : Nat} (hj : j < 4)
    (hp : pat ⟨j, hj⟩ = pat' ⟨j, hj⟩) (h : b = b' ∨ pat ⟨j, hj⟩ = true) :
    simWord S k b pat j = simWord S k b' pat' j := by
  unfold simWord
  simp only [simShare_congr (S := S) (k := k) hj hp h]

/-- The honest answer as a function of the shared value. -/
theorem simWord_affine {S : Setting} {k : Key} (hk : ∀ j, (k.finalCW.getD j 0).toNat ≤ p) (ht : Bit (endOf S.E k S.a).2)
    (b : U32) {pat : Fin 4 → Bool} {j : Nat} (hj : ∀ h : j < 4, pat ⟨j, h⟩ = false) :
    ((simWord S k b pat j).toNat : ZMod p)
      = (simWord S k 0 (fun _ => false) j).toNat + S.sign * S.total * b.toNat := by
  rw [simWord_cast, simWord_cast]
  unfold Setting.total
  induction S.recs with
  | nil => simp
  | cons r l ih =>
    simp only [List.map_cons, List.sum_cons, Nat.cast_add, Nat.cast_mul]
    by_cases hr : clear256 r.id = S.a
    · rw [List.filter_cons_of_pos (by simpa using hr), List.map_cons, List.sum_cons, Nat.cast_add, ih,
        simShare_on hk ht hj hr, simShare_on hk ht (pat := fun _ => false) (fun _ => rfl) hr]
      have : (0 : U32).toNat = 0 := rfl
      rw [this]
      push_cast
      ring
    · rw [List.filter_cons_of_neg (by simpa using hr), ih]
      have : simShare S k b pat r j = simShare S k 0 (fun _ => false) r j := by
        unfold simShare; rw [if_neg hr, if_neg hr]
      rw [this]
      ring

theorem simAnswer_getD (S : Setting) (k : Key) (β : Fin 3 → Fin p) (α : Fin p) (pat : Fin 4 → Bool) {j : Nat} (hj : j < 5) :
    (simAnswer S k β α pat).getD j 0 = simWord S k ((vals (shared β) α).getD j 0) pat j := by
  unfold simAnswer
  rw [getD_of_lt _ (by simpa using hj), List.getElem_map, List.getElem_range]

theorem vals_first (β : Fin 3 → Fin p) (α : Fin p) : (vals (shared β) α).getD 0 0 = 1 := rfl

theorem vals_mac (β : Fin 3 → Fin p) (α : Fin p) (i : Fin 3) :
    (vals (shared β) α).getD (i.1 + 1) 0 = BitVec.ofNat 32 (β i).1 := by
  fin_cases i <;> rfl

theorem alphas_mac (β : Fin 3 → Fin p) (α : Fin p) (i : Fin 3) :
    (clientState β α).alphas.getD i.1 0 = BitVec.ofNat 32 (β i).1 := by
  fin_cases i <;> rfl

theorem mac_toNat (x : Fin p) : (BitVec.ofNat 32 x.1).toNat = x.1 := by
  have := x.2
  have := p_lt
  rw [BitVec.toNat_ofNat, Nat.mod_eq_of_lt (by omega)]

/-- A sum of two words of an answer, with the carry made explicit. -/
theorem sum_cast (x y : U32) : (((x + y) % modP).toNat : ZMod p)
    = x.toNat + y.toNat - 2 * (if 2 ^ 32 ≤ x.toNat + y.toNat then 1 else 0) := by
  rw [BitVec.toNat_umod, BitVec.toNat_add, modP_toNat, ← p_val, cast_mod]
  have hx := x.isLt
  have hy := y.isLt
  have h2 : ((2 ^ 32 : Nat) : ZMod p) = 2 := by
    have : (2 ^ 32 : Nat) = p + p + 2 := by norm_num [p]
    rw [this]
    push_cast
    rw [ZMod.natCast_self]
    ring
  split
  · rename_i h
    have : (x.toNat + y.toNat) % 2 ^ 32 = x.toNat + y.toNat - 2 ^ 32 := by omega
    rw [this, Nat.cast_sub h, h2]
    push_cast
    ring
  · rename_i h
    rw [Nat.mod_eq_of_lt (by omega)]
    push_cast
    ring

theorem sum_lt (x y : U32) : ((x + y) % modP).toNat < p := by
  rw [BitVec.toNat_umod, modP_toNat, ← p_val]
  exact Nat.mod_lt _ p_pos

/-- What a MAC key satisfies when the corresponding check succeeds. -/
theorem tag_cast {β : Fin 3 → Fin p} {α : Fin p} {A H : List U32} (h : TagsMatch β α A H) (i : Fin 3) :
    (dataOf A H : ZMod p) * (β i).1 = (((A.getD (i.1 + 1) 0 + H.getD (i.1 + 1) 0) % modP).toNat : ZMod p) := by
  have e := congrArg BitVec.toNat (h i.1 (by omega))
  have h1 := sum_lt (A.getD 0 0) (H.getD 0 0)
  have h2 := p_lt
  have h3 := (β i).2
  rw [alphas_mac, tagOf_toNat (by omega) (by rw [mac_toNat]; omega), mac_toNat] at e
  rw [← e, cast_mod]
  unfold dataOf
  push_cast
  rfl

/-- The part of a forgery that determines the MAC keys. -/
def code (S : Setting) (A : List U32) (k : Key) (β : Fin 3 → Fin p) (α : Fin p) (pat : Fin 4 → Bool) :
    Bool × (Fin 3 → Option Bool) :=
  (pat 0, fun i => if pat i.succ then none
    else some (decide (2 ^ 32 ≤ (A.getD (i.1 + 1) 0).toNat + ((simAnswer S k β α pat).getD (i.1 + 1) 0).toNat)))

theorem code_inj {S : Setting} {A : List U32} {k : Key} {α : Fin p} {β β' : Fin 3 → Fin p} {pat pat' : Fin 4 → Bool}
    (hk : ∀ j, (k.finalCW.getD j 0).toNat ≤ p) (ht : Bit (endOf S.E k S.a).2)
    (h1 : ∀ j : Fin 4, pat j → otherVal S k ((vals (shared β) α).getD j.1 0) j.1 = S.e.toNat)
    (h1' : ∀ j : Fin 4, pat' j → otherVal S k ((vals (shared β') α).getD j.1 0) j.1 = S.e.toNat)
    (h2 : TagsMatch β α A (simAnswer S k β α pat)) (h2' : TagsMatch β' α A (simAnswer S k β' α pat'))
    (h3 : Wrong S (dataOf A (simAnswer S k β α pat)))
    (hc : code S A k β α pat = code S A k β' α pat') : β = β' := by
  have hp0 : pat 0 = pat' 0 := congrArg Prod.fst hc
  have hci : ∀ i, (code S A k β α pat).2 i = (code S A k β' α pat').2 i := fun i => by rw [hc]
  have hd : dataOf A (simAnswer S k β α pat) = dataOf A (simAnswer S k β' α pat') := by
    unfold dataOf
    rw [simAnswer_getD _ _ _ _ _ (by norm_num), simAnswer_getD _ _ _ _ _ (by norm_num), vals_first, vals_first,
      simWord_congr (b := 1) (b' := 1) (pat := pat) (pat' := pat') (by norm_num) hp0 (Or.inl rfl)]
  funext i
  have hi5 : i.1 + 1 < 5 := by omega
  have hi4 : i.1 + 1 < 4 := by omega
  have t1 := tag_cast h2 i
  have t2 := tag_cast h2' i
  have hcode := hci i
  apply Fin.ext
  apply eq_of_cast (β i).2 (β' i).2
  simp only [code] at hcode
  by_cases hp : pat i.succ = true
  · rw [if_pos hp] at hcode
    have hp' : pat' i.succ = true := by
      by_contra hn
      rw [if_neg hn] at hcode
      cases hcode
    have v1 := h1 i.succ hp
    have v2 := h1' i.succ hp'
    rw [← v2] at v1
    simp only [Fin.val_succ, vals_mac] at v1
    unfold otherVal at v1
    rw [mac_toNat, mac_toNat] at v1
    cases hS : S.second
    · simp only [hS, Bool.false_eq_true, if_false] at v1
      linear_combination -v1
    · simp only [hS, if_true] at v1
      linear_combination v1
  · rw [if_neg hp] at hcode
    have hp' : ¬ pat' i.succ = true := by
      intro hn
      rw [if_pos hn] at hcode
      cases hcode
    rw [if_neg hp'] at hcode
    have hw := Option.some.inj hcode
    rw [sum_cast] at t1 t2
    have hw' : (2 ^ 32 ≤ (A.getD (i.1 + 1) 0).toNat + ((simAnswer S k β α pat).getD (i.1 + 1) 0).toNat)
        ↔ (2 ^ 32 ≤ (A.getD (i.1 + 1) 0).toNat + ((simAnswer S k β' α pat').getD (i.1 + 1) 0).toNat) := by
      rwa [decide_eq_decide] at hw
    have f1 := simWord_affine hk ht (BitVec.ofNat 32 (β i).1) (pat := pat) (j := i.1 + 1)
      (fun h => by have : pat i.succ = false := by simpa using hp
                   exact this)
    have f2 := simWord_affine hk ht (BitVec.ofNat 32 (β' i).1) (pat := pat') (j := i.1 + 1)
      (fun h => by have : pat' i.succ = false := by simpa using hp'
                   exact this)
    rw [← vals_mac β α, ← simAnswer_getD _ _ _ _ _ hi5, vals_mac, mac_toNat] at f1
    rw [← vals_mac β' α, ← simAnswer_getD _ _ _ _ _ hi5, vals_mac, mac_toNat] at f2
    rw [f1] at t1
    rw [f2, ← hd] at t2
    simp only [hw'] at t1
    have hne : ((dataOf A (simAnswer S k β α pat) : ZMod p) - S.sign * S.total) ≠ 0 := sub_ne_zero.2 h3
    apply mul_left_cancel₀ hne
    linear_combination t1 - t2

theorem forgeable_card (S : Setting) (A : List U32) (k : Key) (α : Fin p) (s : Finset (Fin 3 → Fin p))
    (hs : ∀ β ∈ s, Forgeable S A k β α) : s.card ≤ 54 := by
  have hex : ∀ β : s, ∃ pat : Fin 4 → Bool,
      (∀ j : Fin 4, pat j → otherVal S k ((vals (shared β.1) α).getD j.1 0) j.1 = S.e.toNat) ∧
      TagsMatch β.1 α A (simAnswer S k β.1 α pat) ∧ Wrong S (dataOf A (simAnswer S k β.1 α pat)) :=
    fun β => (hs β.1 β.2).2.2
  choose pat hpat using hex
  have hinj : Function.Injective (fun β : s => code S A k β.1 α (pat β)) := by
    intro β β' h
    have hf := hs β.1 β.2
    exact Subtype.ext (code_inj hf.1 hf.2.1 (hpat β).1 (hpat β').1 (hpat β).2.1 (hpat β').2.1 (hpat β).2.2 h)
  have := Fintype.card_le_of_injective _ hinj
  rw [Fintype.card_coe] at this
  refine this.trans (le_of_eq ?_)
  simp

theorem forgeTest_nonneg (S : Setting) (A : Key → List U32) (k : Res Key) (β : Fin 3 → Fin p) (α : Fin p) :
    0 ≤ forgeTest S A k β α := by
  unfold forgeTest
  split
  · split <;> norm_num
  · norm_num

theorem forgeTest_avg (S : Setting) (A : Key → List U32) (k : Key) (α : Fin p) :
    avg (fun β => forgeTest S A (ok k) β α) ≤ 54 / (p : ℚ) ^ 3 := by
  classical
  have h := forgeable_card S (A k) k α (Finset.univ.filter (fun β => Forgeable S (A k) k β α))
    (fun β hβ => (Finset.mem_filter.1 hβ).2)
  unfold avg forgeTest
  simp only [Fintype.card_fun, Fintype.card_fin]
  rw [Nat.cast_pow]
  refine div_le_div_of_nonneg_right ?_ (by positivity)
  rw [Finset.sum_ite, Finset.sum_const_zero, add_zero, Finset.sum_const, nsmul_eq_mul, mul_one]
  refine le_trans (le_of_eq ?_) (Nat.cast_le.2 h)
  congr

end Verif.Forge
