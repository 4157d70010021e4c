import Verif.Spec.Forgery
import Verif.Lemmas.FssView

/-! # The mean of a test on a received key and the MAC keys -/

namespace Verif.Forge
open Res Verif.Field Verif.Field.Spec Verif.Fss Verif.Fss.Spec Verif.Privacy Verif.Predicate Finset

theorem shared_canonical (β : Fin 3 → Fin p) (i : Fin 4) : Canonical (shared β i) := by
  have hp : p < 2 ^ 31 := by norm_num [p]
  have h : ∀ x : Fin p, Canonical (BitVec.ofNat 32 x.1) := by
    intro x
    unfold Canonical
    rw [BitVec.toNat_ofNat, Nat.mod_eq_of_lt (by have := x.2; omega)]
    exact x.2
  fin_cases i
  · show (1 : U32).toNat < p
    rw [show (1 : U32).toNat = 1 from rfl]
    norm_num [p]
  · exact h _
  · exact h _
  · exact h _

theorem avg_le {Ω : Type} [Fintype Ω] [Nonempty Ω] {f : Ω → ℚ} {B : ℚ} (h : ∀ x, f x ≤ B) : avg f ≤ B := by
  have := avg_mono (f := f) (g := fun _ => B) h
  rwa [avg_const] at this

theorem avg_scale {Ω : Type} [Fintype Ω] (c : ℚ) (f : Ω → ℚ) : avg (fun x => c * f x) = c * avg f := by
  unfold avg
  rw [← Finset.mul_sum, mul_div_assoc]

theorem wordTest_le (E : Cipher) (B : ℚ) : ∀ (a : List Bool) (own : Own)
    (F : List (List Byte) → Own → (Fin 4 → Fin (2 ^ 31)) → ℚ), (∀ cws o, avg (F cws o) ≤ B) →
    avg (wordTest E a own F) ≤ B := by
  intro a
  induction a with
  | nil => intro own F h; exact h [] own
  | cons a as ih =>
    intro own F h
    have e1 : avg (wordTest E (a :: as) own F) = avg (fun v : Fin 48 → Byte =>
        avg (wordTest E as (evalStepC E a (cwOf v) own.1 own.2) (fun cws => F (cwOf v :: cws)))) := by
      rw [avg_comm]
      rfl
    rw [e1]
    have := avg_mono (f := fun v : Fin 48 → Byte =>
        avg (wordTest E as (evalStepC E a (cwOf v) own.1 own.2) (fun cws => F (cwOf v :: cws)))) (g := fun _ => B)
      (fun v => ih _ _ (fun cws o => h _ o))
    rwa [avg_const] at this

/-- Replacing the value equal to the modulus by another one at most doubles a mean. -/
theorem avg_replace {e c b : U32} {second : Bool} {t1 : Byte} (he : Canonical e) (hb : Canonical b) (hc : Canonical c)
    (g : U32 → ℚ) (h0 : ∀ x, 0 ≤ g x) :
    avg (fun z : Fin (2 ^ 31) => g (comp second t1 b c (orFresh e z)))
      ≤ 2 * avg (fun y : Fin (2 ^ 31) => g (BitVec.ofNat 32 y.1)) := by
  have hp : p + 1 = 2 ^ 31 := by norm_num [p]
  have he' : e.toNat < 2 ^ 31 := by unfold Canonical at he; omega
  let π := permEquiv (second := second) (t1 := t1) (b := b) hc
  have hperm : ∀ z : Nat, (hz : z < p) → comp second t1 b c (BitVec.ofNat 32 z)
      = BitVec.ofNat 32 (π ⟨z, by omega⟩).1 := by
    intro z hz
    rw [comp_perm hb hc hz]
    rfl
  have hee : comp second t1 b c e = BitVec.ofNat 32 (π ⟨e.toNat, he'⟩).1 := by
    have := hperm e.toNat he
    rwa [BitVec.ofNat_toNat, BitVec.setWidth_eq] at this
  have hS : ∑ y : Fin (2 ^ 31), g (BitVec.ofNat 32 y.1) = ∑ z : Fin (2 ^ 31), g (BitVec.ofNat 32 (π z).1) :=
    (Equiv.sum_comp π (fun y => g (BitVec.ofNat 32 y.1))).symm
  have hone : g (comp second t1 b c e) ≤ ∑ y : Fin (2 ^ 31), g (BitVec.ofNat 32 y.1) := by
    rw [hS, hee]
    exact Finset.single_le_sum (f := fun z : Fin (2 ^ 31) => g (BitVec.ofNat 32 (π z).1)) (fun _ _ => h0 _)
      (Finset.mem_univ _)
  have hle : ∑ z : Fin (2 ^ 31), g (comp second t1 b c (orFresh e z))
      ≤ ∑ z : Fin (2 ^ 31), (g (BitVec.ofNat 32 (π z).1)
        + if z = ⟨p, by omega⟩ then g (comp second t1 b c e) else 0) := by
    refine Finset.sum_le_sum (fun z _ => ?_)
    by_cases hz : z.1 = p
    · have hz' : z = ⟨p, by omega⟩ := Fin.ext hz
      rw [if_pos hz', orFresh, if_pos hz]
      linarith [h0 (BitVec.ofNat 32 (π z).1)]
    · have hz' : z ≠ ⟨p, by omega⟩ := fun h => hz (congrArg Fin.val h)
      have hlt : z.1 < p := by have := z.2; omega
      rw [if_neg hz', orFresh, if_neg hz, hperm z.1 hlt, add_zero]
  have htot : ∑ z : Fin (2 ^ 31), g (comp second t1 b c (orFresh e z))
      ≤ 2 * ∑ y : Fin (2 ^ 31), g (BitVec.ofNat 32 y.1) := by
    refine hle.trans ?_
    rw [Finset.sum_add_distrib, Finset.sum_ite_eq' Finset.univ, if_pos (Finset.mem_univ _), ← hS]
    linarith
  unfold avg
  rw [← mul_div_assoc]
  exact div_le_div_of_nonneg_right htot (by positivity)

/-- The same for `n` independent values. -/
theorem avg_replace_all {X Y : Type} [Fintype X] [Fintype Y] [Nonempty X] [Nonempty Y] {V : Type}
    (q : Y → V) : ∀ (n : Nat) (f : Fin n → X → V)
    (_ : ∀ i, ∀ g : V → ℚ, (∀ v, 0 ≤ g v) → avg (fun x => g (f i x)) ≤ 2 * avg (fun y => g (q y)))
    (G : (Fin n → V) → ℚ), (∀ v, 0 ≤ G v) →
    avg (fun z : Fin n → X => G (fun i => f i (z i))) ≤ 2 ^ n * avg (fun y : Fin n → Y => G (fun i => q (y i))) := by
  intro n
  induction n with
  | zero =>
    intro f _ G _
    rw [pow_zero, one_mul]
    unfold avg
    simp
    apply le_of_eq
    exact congrArg G (funext (fun i => i.elim0))
  | succ n ih =>
    intro f hf G h0
    have eX : avg (fun z : Fin (n + 1) → X => G (fun i => f i (z i)))
        = avg (fun x : X => avg (fun z : Fin n → X => G (Fin.cons (f 0 x) (fun i => f i.succ (z i))))) := by
      have := avg_prod' (fun w : X × (Fin n → X) => G (Fin.cons (f 0 w.1) (fun i => f i.succ (w.2 i))))
      refine Eq.trans ?_ this
      rw [← avg_equiv (Fin.consEquiv (fun _ => X))]
      refine avg_congr (fun z => congrArg G (funext (fun i => ?_)))
      refine Fin.cases rfl (fun i => rfl) i
    have eY : avg (fun y : Fin (n + 1) → Y => G (fun i => q (y i)))
        = avg (fun y0 : Y => avg (fun y : Fin n → Y => G (Fin.cons (q y0) (fun i => q (y i))))) := by
      have := avg_prod' (fun w : Y × (Fin n → Y) => G (Fin.cons (q w.1) (fun i => q (w.2 i))))
      refine Eq.trans ?_ this
      rw [← avg_equiv (Fin.consEquiv (fun _ => Y))]
      refine avg_congr (fun z => congrArg G (funext (fun i => ?_)))
      refine Fin.cases rfl (fun i => rfl) i
    rw [eX, eY]
    have s1 : ∀ v : V, avg (fun z : Fin n → X => G (Fin.cons v (fun i => f i.succ (z i))))
        ≤ 2 ^ n * avg (fun y : Fin n → Y => G (Fin.cons v (fun i => q (y i)))) := fun v =>
      ih (fun i => f i.succ) (fun i => hf i.succ) (fun w => G (Fin.cons v w)) (fun w => h0 _)
    have s2 := hf 0 (fun v => 2 ^ n * avg (fun y : Fin n → Y => G (Fin.cons v (fun i => q (y i)))))
      (fun v => mul_nonneg (by positivity) (avg_nonneg (fun _ => h0 _)))
    refine (avg_mono (fun x => s1 (f 0 x))).trans (s2.trans (le_of_eq ?_))
    have : avg (fun y0 : Y => 2 ^ n * avg (fun y : Fin n → Y => G (Fin.cons (q y0) (fun i => q (y i)))))
        = 2 ^ n * avg (fun y0 : Y => avg (fun y : Fin n → Y => G (Fin.cons (q y0) (fun i => q (y i))))) := by
      unfold avg
      rw [← Finset.mul_sum, mul_div_assoc]
    rw [this, pow_succ]
    ring

/-- The mean over the other party's values and the MAC keys, when the MAC keys other than the last are hidden. -/
theorem macCont_le (E : Cipher) {e : U32} (he : Canonical e) (second : Bool)
    (T : Res Key → (Fin 3 → Fin p) → Fin p → ℚ) (h0 : ∀ k β α, 0 ≤ T k β α) {B : ℚ}
    (hB : ∀ k α, avg (fun β => T (ok k) β α) ≤ B) (init : Own) (cws : List (List Byte)) (own : Own) :
    avg (macCont E e second T init cws own) ≤ 16 * B := by
  have hne : Nonempty (Fin p) := ⟨⟨0, by norm_num [p]⟩⟩
  have hc : ∀ i : Fin 4, Canonical (orFresh e (words E own.1 i)) := fun i => elems_getD_canonical he _ i
  let t1 := signBit second own
  let K : (Fin 4 → U32) → Fin p → Key := fun v α =>
    ⟨init.1, init.2, cws, [v 0, v 1, v 2, v 3, BitVec.ofNat 32 (lastVal t1 α).1]⟩
  have e1 : avg (macCont E e second T init cws own) = avg (fun β : Fin 3 → Fin p => avg (fun α : Fin p =>
      avg (fun z : Fin 4 → Fin (2 ^ 31) =>
        T (ok (K (fun i => comp second t1 (shared β i) (orFresh e (words E own.1 i)) (orFresh e (z i))) α)) β α))) := by
    unfold macCont
    rw [avg_comm]
    refine avg_congr (fun β => ?_)
    rw [avg_comm]
    refine avg_congr (fun α => avg_congr (fun z => ?_))
    rw [fcwOf_eq, comp_last]
  have e2 : ∀ β α, avg (fun z : Fin 4 → Fin (2 ^ 31) =>
        T (ok (K (fun i => comp second t1 (shared β i) (orFresh e (words E own.1 i)) (orFresh e (z i))) α)) β α)
      ≤ 2 ^ 4 * avg (fun y : Fin 4 → Fin (2 ^ 31) => T (ok (K (fun i => BitVec.ofNat 32 (y i).1) α)) β α) := by
    intro β α
    exact avg_replace_all (X := Fin (2 ^ 31)) (Y := Fin (2 ^ 31)) (fun y => BitVec.ofNat 32 y.1) 4
      (fun i z => comp second t1 (shared β i) (orFresh e (words E own.1 i)) (orFresh e z))
      (fun i g hg => avg_replace he (shared_canonical β i) (hc i) g hg)
      (fun v => T (ok (K v α)) β α) (fun v => h0 _ _ _)
  have e3 : avg (fun β : Fin 3 → Fin p => avg (fun α : Fin p =>
      2 ^ 4 * avg (fun y : Fin 4 → Fin (2 ^ 31) => T (ok (K (fun i => BitVec.ofNat 32 (y i).1) α)) β α)))
      = 16 * avg (fun α : Fin p => avg (fun y : Fin 4 → Fin (2 ^ 31) =>
        avg (fun β : Fin 3 → Fin p => T (ok (K (fun i => BitVec.ofNat 32 (y i).1) α)) β α))) := by
    rw [avg_comm]
    have : ∀ α : Fin p, avg (fun β : Fin 3 → Fin p =>
        2 ^ 4 * avg (fun y : Fin 4 → Fin (2 ^ 31) => T (ok (K (fun i => BitVec.ofNat 32 (y i).1) α)) β α))
        = 16 * avg (fun y : Fin 4 → Fin (2 ^ 31) =>
          avg (fun β : Fin 3 → Fin p => T (ok (K (fun i => BitVec.ofNat 32 (y i).1) α)) β α)) := by
      intro α
      rw [avg_comm (fun (y : Fin 4 → Fin (2 ^ 31)) (β : Fin 3 → Fin p) =>
        T (ok (K (fun i => BitVec.ofNat 32 (y i).1) α)) β α), avg_scale]
      norm_num
    rw [avg_congr this, avg_scale]
  have e4 : avg (fun α : Fin p => avg (fun y : Fin 4 → Fin (2 ^ 31) =>
        avg (fun β : Fin 3 → Fin p => T (ok (K (fun i => BitVec.ofNat 32 (y i).1) α)) β α))) ≤ B := by
    refine avg_le (fun α => avg_le (fun y => hB _ _))
  rw [e1]
  refine (avg_mono (fun β => avg_mono (fun α => e2 β α))).trans ?_
  rw [e3]
  linarith

/-- The mean of a test on the received key and the MAC keys, when a key hides all MAC keys but the last. -/
theorem mean_le {env : Env} (hE : BlockCipher env.E) {e : U32} (he : resample env.fresh env.fuel 0 modP = ok e)
    (hc : Canonical e) (second : Bool) (a : List Bool) (T : Res Key → (Fin 3 → Fin p) → Fin p → ℚ)
    (h0 : ∀ k β α, 0 ≤ T k β α) {B : ℚ} (hB : ∀ k α, avg (fun β => T (ok k) β α) ≤ B) :
    runMean (fun β α s0 s1 tb => T (received env second a (shared β) s0 s1 tb α) β α)
      ≤ ∑ k ∈ range a.length, |prgGap env.E (macLevelTest env.E e second a T k)|
        + |convGap env.E (macWordTest env.E e second a T)| + 16 * B := by
  have e0 : runMean (fun β α s0 s1 tb => T (received env second a (shared β) s0 s1 tb α) β α)
      = avg (fun s : Fin 16 → Byte => avg (fun tb : Byte => avg (fun so : Fin 16 → Byte =>
          avg (fun β : Fin 3 → Fin p => avg (fun α : Fin p =>
        T (received env second a (shared β) (if second then so else s) (if second then s else so) tb α) β α))))) := by
    unfold runMean
    cases second
    · rw [avg_comm]
      refine avg_congr (fun s => ?_)
      rw [avg_comm, avg_comm (fun (tb : Byte) (so : Fin 16 → Byte) => _)]
      refine avg_congr (fun so => ?_)
      rw [avg_comm]
      rfl
    · rw [avg_comm, avg_congr (fun s => avg_comm _), avg_comm]
      refine avg_congr (fun s => ?_)
      rw [avg_comm (fun (tb : Byte) (so : Fin 16 → Byte) => _)]
      refine avg_congr (fun so => ?_)
      rw [avg_comm]
      rfl
  have e1 : ∀ (s : Fin 16 → Byte) (tb : Byte), avg (fun so : Fin 16 → Byte => avg (fun β : Fin 3 → Fin p => avg (fun α : Fin p =>
        T (received env second a (shared β) (if second then so else s) (if second then s else so) tb α) β α)))
      = avg (wordTest env.E a (ownOf second s tb) (macCont env.E e second T (ownOf second s tb)))
        + convGap env.E (wordTest env.E a (ownOf second s tb) (macCont env.E e second T (ownOf second s tb)))
        + ∑ k ∈ range a.length, prgGap env.E (levelTest env.E a k (ownOf second s tb)
          (fun cws own so => macCont env.E e second T (ownOf second s tb) cws own (words env.E so))) := by
    intro s tb
    rw [← ideal_words, ← hybrid hE a _ (ownOf_ok second s tb).1 (ownOf_ok second s tb).2]
    refine avg_congr (fun so => avg_congr (fun β => avg_congr (fun α => ?_)))
    rw [received_eq hE he]
  have e2 : runMean (fun β α s0 s1 tb => T (received env second a (shared β) s0 s1 tb α) β α)
      = avg (fun s : Fin 16 → Byte => avg (fun tb : Byte =>
          avg (wordTest env.E a (ownOf second s tb) (macCont env.E e second T (ownOf second s tb)))))
        + convGap env.E (macWordTest env.E e second a T)
        + ∑ k ∈ range a.length, prgGap env.E (macLevelTest env.E e second a T k) := by
    have hcv : convGap env.E (macWordTest env.E e second a T) = avg (fun s : Fin 16 → Byte => avg (fun tb : Byte =>
        convGap env.E (wordTest env.E a (ownOf second s tb) (macCont env.E e second T (ownOf second s tb))))) := by
      unfold macWordTest
      rw [convGap_avg]
      exact avg_congr (fun s => convGap_avg _ _)
    have hpg : ∀ k, prgGap env.E (macLevelTest env.E e second a T k) = avg (fun s : Fin 16 → Byte => avg (fun tb : Byte =>
        prgGap env.E (levelTest env.E a k (ownOf second s tb)
          (fun cws own so => macCont env.E e second T (ownOf second s tb) cws own (words env.E so))))) := by
      intro k
      unfold macLevelTest
      rw [prgGap_avg]
      exact avg_congr (fun s => prgGap_avg _ _)
    rw [e0, avg_congr (fun s => avg_congr (fun tb => e1 s tb)), hcv]
    simp only [hpg]
    rw [← avg_sum, avg_add, avg_add]
    refine avg_congr (fun s => ?_)
    rw [← avg_sum, avg_add, avg_add]
  have e3 : avg (fun s : Fin 16 → Byte => avg (fun tb : Byte =>
          avg (wordTest env.E a (ownOf second s tb) (macCont env.E e second T (ownOf second s tb))))) ≤ 16 * B :=
    avg_le (fun s => avg_le (fun tb => wordTest_le env.E _ a _ _ (fun cws o =>
      macCont_le env.E hc second T h0 hB _ cws o)))
  rw [e2]
  have e4 : |∑ k ∈ range a.length, prgGap env.E (macLevelTest env.E e second a T k)|
      ≤ ∑ k ∈ range a.length, |prgGap env.E (macLevelTest env.E e second a T k)| := Finset.abs_sum_le_sum_abs _ _
  have e5 := le_abs_self (∑ k ∈ range a.length, prgGap env.E (macLevelTest env.E e second a T k))
  have e6 := le_abs_self (convGap env.E (macWordTest env.E e second a T))
  linarith

end Verif.Forge
