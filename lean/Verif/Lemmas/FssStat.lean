import Verif.Lemmas.FssFinal

/-! # Distribution of the final correction word, and the view of one party -/

namespace Verif.Fss
open Res Verif.Field Verif.Field.Spec Verif.Fss.Spec Verif.Privacy Finset
set_option linter.unusedSimpArgs false

/-- Component of the final correction word for a value `b`, the party's own element `c` and the other one's `x`. -/
def comp (second : Bool) (t1 : Byte) (b c x : U32) : U32 :=
  let val := if second then ((b + (modP - x)) % modP + c) % modP else ((b + (modP - c)) % modP + x) % modP
  if t1 = 1 then modP - val else val

/-- The component as a number, and the value that is not hit for the argument `p`. -/
def perm (second : Bool) (t1 : Byte) (b c : U32) (z : Nat) : Nat :=
  let v := if second then (b.toNat + (p - z) + c.toNat) % p else (b.toNat + (p - c.toNat) + z) % p
  if z = p then (if t1 = 1 then 0 else p) else if t1 = 1 then p - v else v

theorem perm_lt (second : Bool) (t1 : Byte) (b c : U32) (z : Nat) : perm second t1 b c z < 2 ^ 31 := by
  have hp : p < 2 ^ 31 := by norm_num [p]
  have hp0 : 0 < p := by norm_num [p]
  have := Nat.mod_lt (b.toNat + (p - z) + c.toNat) hp0
  have := Nat.mod_lt (b.toNat + (p - c.toNat) + z) hp0
  unfold perm
  simp only
  split_ifs <;> omega

theorem comp_perm {second : Bool} {t1 : Byte} {b c : U32} (hb : Canonical b) (hc : Canonical c) {z : Nat} (hz : z < p) :
    comp second t1 b c (BitVec.ofNat 32 z) = BitVec.ofNat 32 (perm second t1 b c z) := by
  have hp : p < 2 ^ 31 := by norm_num [p]
  have hzn : (BitVec.ofNat 32 z).toNat = z := by
    rw [BitVec.toNat_ofNat, Nat.mod_eq_of_lt]; omega
  have hzc : Canonical (BitVec.ofNat 32 z) := by unfold Canonical; rw [hzn]; exact hz
  have hl := perm_lt second t1 b c z
  apply BitVec.eq_of_toNat_eq
  rw [BitVec.toNat_ofNat, Nat.mod_eq_of_lt (by omega)]
  unfold comp perm
  have e1 := fcw_toNat hb hzc hc
  have e2 := fcw_toNat hb hc hzc
  rw [hzn] at e1 e2
  simp only
  rw [if_neg (show ¬ z = p by omega)]
  cases second <;> by_cases ht : t1 = 1 <;>
    simp only [ht, if_true, if_false, Bool.false_eq_true, e1.1, e1.2, e2.1, e2.2]

theorem perm_inj {second : Bool} {t1 : Byte} {b c : U32} (hc : Canonical c) {z z' : Nat}
    (hz : z ≤ p) (hz' : z' ≤ p) (h : perm second t1 b c z = perm second t1 b c z') : z = z' := by
  unfold Canonical at hc
  unfold perm at h
  rw [p_val] at *
  simp only at h
  cases second <;> simp only [Bool.false_eq_true, if_false, if_true] at h <;> split_ifs at h <;> omega

/-- The permutation of the 31-bit values. -/
noncomputable def permEquiv {second : Bool} {t1 : Byte} {b c : U32} (hc : Canonical c) :
    Fin (2 ^ 31) ≃ Fin (2 ^ 31) :=
  Equiv.ofBijective (fun z => ⟨perm second t1 b c z.1, perm_lt ..⟩) (by
    apply Finite.injective_iff_bijective.1
    intro z z' h
    have hp : p + 1 = 2 ^ 31 := by norm_num [p]
    exact Fin.ext (perm_inj (second := second) (t1 := t1) hc (by omega) (by omega) (Fin.mk.inj_iff.1 h)))

theorem permEquiv_val {second : Bool} {t1 : Byte} {b c : U32} (hc : Canonical c)
    (z : Fin (2 ^ 31)) :
    (permEquiv (second := second) (t1 := t1) (b := b) hc z).1 = perm second t1 b c z.1 := rfl

/-- Mean of a function of one coordinate. -/
theorem avg_coord {X : Type} [Fintype X] [Nonempty X] {n : Nat} (i : Fin n) (g : X → ℚ) :
    avg (fun z : Fin n → X => g (z i)) = avg g := by
  have : avg (fun z : Fin n → X => g (z i)) = avg (fun x : X × ({j : Fin n // j ≠ i} → X) => g x.1) := by
    rw [← avg_equiv (Equiv.funSplitAt i X)]
    rfl
  rw [this, avg_prod']
  exact avg_congr (fun x => avg_const (Ω := {j : Fin n // j ≠ i} → X) (g x))

theorem avg_indicator (v : Nat) (hv : v < 2 ^ 31) :
    avg (fun z : Fin (2 ^ 31) => if z.1 = v then (1 : ℚ) else 0) = 1 / 2 ^ 31 := by
  unfold avg
  have : ∑ z : Fin (2 ^ 31), (if z.1 = v then (1 : ℚ) else 0) = 1 := by
    rw [Finset.sum_eq_single (⟨v, hv⟩ : Fin (2 ^ 31))]
    · simp
    · intro z _ hz
      rw [if_neg (fun h => hz (Fin.ext h))]
    · intro h; exact absurd (Finset.mem_univ _) h
  rw [this, Fintype.card_fin]
  norm_num

/-- Injecting `n` values into `n + 1` changes the mean of a test by at most `1 / (n + 1)`. -/
theorem avg_inject {n : Nat} (hn : 0 < n) (f : Fin n → Fin (n + 1)) (hf : Function.Injective f) (G : Fin (n + 1) → ℚ)
    (h0 : ∀ y, 0 ≤ G y) (h1 : ∀ y, G y ≤ 1) :
    |avg (fun x => G (f x)) - avg G| ≤ 1 / ((n : ℚ) + 1) := by
  obtain ⟨m, hm⟩ : ∃ m, m ∉ Finset.univ.image f := by
    by_contra hall
    have hall' : ∀ m, m ∈ Finset.univ.image f := by
      intro m
      by_contra hm
      exact hall ⟨m, hm⟩
    have : Finset.univ.image f = Finset.univ := Finset.eq_univ_iff_forall.2 hall'
    have hc := congrArg Finset.card this
    rw [Finset.card_image_of_injective _ hf] at hc
    simp at hc
  have huniv : (Finset.univ : Finset (Fin (n + 1))) = insert m (Finset.univ.image f) := by
    symm
    apply Finset.eq_univ_of_card
    rw [Finset.card_insert_of_notMem hm, Finset.card_image_of_injective _ hf]
    simp
  have hs : ∑ y, G y = G m + ∑ x, G (f x) := by
    rw [huniv, Finset.sum_insert hm, Finset.sum_image (fun a _ b _ h => hf h)]
  have hS0 : 0 ≤ ∑ x, G (f x) := Finset.sum_nonneg (fun x _ => h0 _)
  have hS1 : ∑ x, G (f x) ≤ n := by
    calc ∑ x, G (f x) ≤ ∑ _x : Fin n, (1 : ℚ) := Finset.sum_le_sum (fun x _ => h1 _)
      _ = n := by simp
  unfold avg
  rw [hs, Fintype.card_fin, Fintype.card_fin]
  push_cast
  have hnq : (0 : ℚ) < n := by exact_mod_cast hn
  generalize ∑ x, G (f x) = S at *
  have e : S / n - (G m + S) / (n + 1) = (S - n * G m) / (n * (n + 1)) := by
    field_simp
    ring
  rw [e, abs_div, abs_of_pos (show (0 : ℚ) < n * (n + 1) by positivity), div_le_div_iff₀ (by positivity) (by positivity)]
  have : |S - n * G m| ≤ n := by
    rw [abs_le]
    have := h0 m
    have := h1 m
    constructor <;> nlinarith
  nlinarith

theorem avg_fin_cast {n m : Nat} (h : n = m) (G : Fin m → ℚ) : avg (fun y : Fin n => G (Fin.cast h y)) = avg G := by
  subst h
  rfl

theorem elems_getD_canonical {e : U32} (he : Canonical e) (z : Fin 4 → Fin (2 ^ 31)) (i : Fin 4) :
    Canonical (orFresh e (z i)) := by
  unfold orFresh
  split
  · exact he
  · rename_i h
    have hp : p + 1 = 2 ^ 31 := by norm_num [p]
    have := (z i).2
    unfold Canonical
    rw [BitVec.toNat_ofNat, Nat.mod_eq_of_lt (by omega)]
    omega

/-- The control bit that decides the sign of the final correction word. -/
def signBit (second : Bool) (own : Own) : Byte := if second then own.2 else own.2 ^^^ 1

theorem fcwOf_eq (E : Cipher) (e : U32) (second : Bool) (β : Fin 4 → U32) (α : Fin p) (own : Own)
    (z : Fin 4 → Fin (2 ^ 31)) :
    fcwOf E e second (vals β α) own z =
      [comp second (signBit second own) (β 0) (orFresh e (words E own.1 0)) (orFresh e (z 0)),
       comp second (signBit second own) (β 1) (orFresh e (words E own.1 1)) (orFresh e (z 1)),
       comp second (signBit second own) (β 2) (orFresh e (words E own.1 2)) (orFresh e (z 2)),
       comp second (signBit second own) (β 3) (orFresh e (words E own.1 3)) (orFresh e (z 3)),
       comp second (signBit second own) (BitVec.ofNat 32 α.1) 0 0] := by
  cases second <;> rfl

/-- The last component, which is not masked, as an injection of the random last value. -/
def lastVal (t1 : Byte) (α : Fin p) : Fin (p + 1) := if t1 = 1 then ⟨p - α.1, by omega⟩ else ⟨α.1, by omega⟩

theorem lastVal_inj (t1 : Byte) : Function.Injective (lastVal t1) := by
  intro x y h
  unfold lastVal at h
  have := x.2
  have := y.2
  split at h <;> (have := Fin.mk.inj_iff.1 h; exact Fin.ext (by omega))

theorem comp_last (second : Bool) (t1 : Byte) (α : Fin p) :
    comp second t1 (BitVec.ofNat 32 α.1) 0 0 = BitVec.ofNat 32 (lastVal t1 α).1 := by
  have hp : p + 1 = 2 ^ 31 := by norm_num [p]
  have hα := α.2
  have hn : (BitVec.ofNat 32 α.1).toNat = α.1 := by rw [BitVec.toNat_ofNat, Nat.mod_eq_of_lt (by omega)]
  have hc : Canonical (BitVec.ofNat 32 α.1) := by unfold Canonical; rw [hn]; exact hα
  have h0 : Canonical (0 : U32) := by simp [Canonical, p]
  have e := fcw_toNat hc h0 h0
  have hz : (0 : U32).toNat = 0 := rfl
  have hv : (α.1 + (p - 0) + 0) % p = α.1 := by
    rw [Nat.add_zero, Nat.sub_zero, Nat.add_mod_right, Nat.mod_eq_of_lt hα]
  rw [hn, hz, hv] at e
  apply BitVec.eq_of_toNat_eq
  have hl := (lastVal t1 α).2
  rw [BitVec.toNat_ofNat, Nat.mod_eq_of_lt (by omega)]
  unfold comp lastVal
  by_cases ht : t1 = 1
  · simp only [ht, if_true, ite_self]; exact e.2
  · simp only [ht, if_false, ite_self]; exact e.1

/-- The final correction word is within `5 / 2 ^ 31` of five random values. -/
theorem final_close (E : Cipher) {e : U32} (he : Canonical e) (second : Bool) {β : Fin 4 → U32}
    (hβ : ∀ i, Canonical (β i)) (own : Own) (K : List U32 → ℚ) (h0 : ∀ l, 0 ≤ K l) (h1 : ∀ l, K l ≤ 1) :
    |avg (fun z : Fin 4 → Fin (2 ^ 31) => avg (fun α : Fin p => K (fcwOf E e second (vals β α) own z)))
      - avg (fun z : Fin 4 → Fin (2 ^ 31) => avg (fun y : Fin (2 ^ 31) =>
        K [BitVec.ofNat 32 (z 0).1, BitVec.ofNat 32 (z 1).1, BitVec.ofNat 32 (z 2).1, BitVec.ofNat 32 (z 3).1,
          BitVec.ofNat 32 y.1]))| ≤ 5 / 2 ^ 31 := by
  have hp : p + 1 = 2 ^ 31 := by norm_num [p]
  set t1 := signBit second own with ht1
  have hc : ∀ i : Fin 4, Canonical (orFresh e (words E own.1 i)) := fun i => elems_getD_canonical he _ i
  let π : (i : Fin 4) → Fin (2 ^ 31) ≃ Fin (2 ^ 31) := fun i => permEquiv (second := second) (t1 := t1) (b := β i) (hc i)
  let G : (Fin 4 → Fin (2 ^ 31)) → Fin (p + 1) → ℚ := fun z y =>
    K [BitVec.ofNat 32 (z 0).1, BitVec.ofNat 32 (z 1).1, BitVec.ofNat 32 (z 2).1, BitVec.ofNat 32 (z 3).1,
          BitVec.ofNat 32 y.1]
  -- first step: values equal to the modulus
  have s1 : |avg (fun z : Fin 4 → Fin (2 ^ 31) => avg (fun α : Fin p => K (fcwOf E e second (vals β α) own z)))
      - avg (fun z : Fin 4 → Fin (2 ^ 31) => avg (fun α : Fin p => G (fun i => π i (z i)) (lastVal t1 α)))|
      ≤ 4 / 2 ^ 31 := by
    rw [avg_sub]
    have hpt : ∀ z : Fin 4 → Fin (2 ^ 31),
        |avg (fun α : Fin p => K (fcwOf E e second (vals β α) own z))
          - avg (fun α : Fin p => G (fun i => π i (z i)) (lastVal t1 α))|
        ≤ ∑ i : Fin 4, if (z i).1 = p then (1 : ℚ) else 0 := by
      intro z
      by_cases hz : ∀ i, (z i).1 ≠ p
      · have hval : ∀ i, comp second t1 (β i) (orFresh e (words E own.1 i)) (orFresh e (z i))
            = BitVec.ofNat 32 (π i (z i)).1 := by
          intro i
          have h1 : orFresh e (z i) = BitVec.ofNat 32 (z i).1 := by
            unfold orFresh; rw [if_neg (hz i)]
          have h2 : (z i).1 < p := by have := hz i; omega
          rw [h1, comp_perm (hβ i) (hc i) h2]
          rfl
        have : avg (fun α : Fin p => K (fcwOf E e second (vals β α) own z))
            = avg (fun α : Fin p => G (fun i => π i (z i)) (lastVal t1 α)) := by
          refine avg_congr (fun α => ?_)
          rw [fcwOf_eq, ← ht1, hval, hval, hval, hval, comp_last]
        rw [this, sub_self, abs_zero]
        exact Finset.sum_nonneg (fun i _ => by split <;> norm_num)
      · obtain ⟨i, hi⟩ : ∃ i, (z i).1 = p := by
          by_contra hno
          exact hz (fun i h => hno ⟨i, h⟩)
        have hone : (1 : ℚ) ≤ ∑ i : Fin 4, if (z i).1 = p then (1 : ℚ) else 0 := by
          have := Finset.single_le_sum (f := fun i : Fin 4 => if (z i).1 = p then (1 : ℚ) else 0)
            (fun j _ => by split <;> norm_num) (Finset.mem_univ i)
          simpa [hi] using this
        have a1 : 0 ≤ avg (fun α : Fin p => K (fcwOf E e second (vals β α) own z)) := avg_nonneg (fun _ => h0 _)
        have a2 : 0 ≤ avg (fun α : Fin p => G (fun i => π i (z i)) (lastVal t1 α)) := avg_nonneg (fun _ => h0 _)
        have : Nonempty (Fin p) := ⟨⟨0, by norm_num [p]⟩⟩
        have b1 : avg (fun α : Fin p => K (fcwOf E e second (vals β α) own z)) ≤ 1 := by
          have := avg_mono (f := fun α : Fin p => K (fcwOf E e second (vals β α) own z)) (g := fun _ => 1)
            (fun _ => h1 _)
          rwa [avg_const] at this
        have b2 : avg (fun α : Fin p => G (fun i => π i (z i)) (lastVal t1 α)) ≤ 1 := by
          have := avg_mono (f := fun α : Fin p => G (fun i => π i (z i)) (lastVal t1 α)) (g := fun _ => 1)
            (fun _ => h1 _)
          rwa [avg_const] at this
        refine le_trans ?_ hone
        rw [abs_le]
        constructor <;> linarith
    have hsum : avg (fun z : Fin 4 → Fin (2 ^ 31) => ∑ i : Fin 4, if (z i).1 = p then (1 : ℚ) else 0) = 4 / 2 ^ 31 := by
      have hx : ∀ i : Fin 4, avg (fun z : Fin 4 → Fin (2 ^ 31) => if (z i).1 = p then (1 : ℚ) else 0) = 1 / 2 ^ 31 := by
        intro i
        rw [avg_coord i (fun y : Fin (2 ^ 31) => if y.1 = p then (1 : ℚ) else 0)]
        exact avg_indicator p (by omega)
      have : (fun z : Fin 4 → Fin (2 ^ 31) => ∑ i : Fin 4, if (z i).1 = p then (1 : ℚ) else 0)
          = fun z => (if (z 0).1 = p then (1 : ℚ) else 0) + (if (z 1).1 = p then (1 : ℚ) else 0)
            + (if (z 2).1 = p then (1 : ℚ) else 0) + (if (z 3).1 = p then (1 : ℚ) else 0) := by
        funext z
        rw [Fin.sum_univ_four]
      rw [this, ← avg_add, ← avg_add, ← avg_add, hx, hx, hx, hx]
      norm_num
    rw [← hsum, abs_le]
    constructor
    · have := avg_mono (f := fun z : Fin 4 → Fin (2 ^ 31) => -∑ i : Fin 4, if (z i).1 = p then (1 : ℚ) else 0)
        (fun z => (abs_le.1 (hpt z)).1)
      have hneg : avg (fun z : Fin 4 → Fin (2 ^ 31) => -∑ i : Fin 4, if (z i).1 = p then (1 : ℚ) else 0)
          = -avg (fun z : Fin 4 → Fin (2 ^ 31) => ∑ i : Fin 4, if (z i).1 = p then (1 : ℚ) else 0) := by
        unfold avg
        rw [Finset.sum_neg_distrib, neg_div]
      rw [hneg] at this
      exact this
    · exact avg_mono (fun z => (abs_le.1 (hpt z)).2)
  -- second step: the permutations do not change the mean
  have s2 : avg (fun z : Fin 4 → Fin (2 ^ 31) => avg (fun α : Fin p => G (fun i => π i (z i)) (lastVal t1 α)))
      = avg (fun z : Fin 4 → Fin (2 ^ 31) => avg (fun α : Fin p => G z (lastVal t1 α))) :=
    avg_equiv (Equiv.piCongrRight π) (fun z => avg (fun α : Fin p => G z (lastVal t1 α)))
  -- third step: the last value
  have s3 : |avg (fun z : Fin 4 → Fin (2 ^ 31) => avg (fun α : Fin p => G z (lastVal t1 α)))
      - avg (fun z : Fin 4 → Fin (2 ^ 31) => avg (fun y : Fin (2 ^ 31) =>
        K [BitVec.ofNat 32 (z 0).1, BitVec.ofNat 32 (z 1).1, BitVec.ofNat 32 (z 2).1, BitVec.ofNat 32 (z 3).1,
          BitVec.ofNat 32 y.1]))| ≤ 1 / 2 ^ 31 := by
    rw [avg_sub]
    refine abs_avg_le (fun z => ?_)
    have := avg_inject (n := p) (by norm_num [p]) (lastVal t1) (lastVal_inj t1) (G z) (fun _ => h0 _) (fun _ => h1 _)
    have hq : (1 : ℚ) / ((p : ℚ) + 1) = 1 / 2 ^ 31 := by
      have : ((p : ℚ) + 1) = ((p + 1 : Nat) : ℚ) := by push_cast; rfl
      rw [this, hp]
      norm_num
    rw [hq] at this
    rw [← avg_fin_cast hp]
    exact this
  rw [← s2] at s3
  have : (5 : ℚ) / 2 ^ 31 = 4 / 2 ^ 31 + 1 / 2 ^ 31 := by norm_num
  rw [this]
  exact (abs_sub_le _ _ _).trans (add_le_add s1 s3)

end Verif.Fss
