import Verif.Spec.Chance
import Verif.Lemmas.FssView
import Verif.Lemmas.PredicateCore

/-! # Bounding the chance that an honest predicate query is disturbed -/

namespace Verif.Chance
open Res Verif.Field Verif.Field.Spec Verif.Fss Verif.Fss.Spec Verif.Privacy Verif.Query Verif.Predicate
  Verif.Predicate.Spec Finset

/-! ### A walk with random correction words -/

/-- Where the seed part of a half begins. -/
def off (x : Bool) : Nat := if x then 17 else 0

theorem off_le (x : Bool) : off x ≤ 17 := by cases x <;> simp [off]

/-- Exchanges the seed part of a half with another seed, both shifted by `m`. -/
def swapHalf (x : Bool) (m : Fin 16 → Byte) (y : (Fin 48 → Byte) × (Fin 16 → Byte)) :
    (Fin 48 → Byte) × (Fin 16 → Byte) :=
  (fun i => if h : off x ≤ i.1 ∧ i.1 < off x + 16 then y.2 ⟨i.1 - off x, by omega⟩ ^^^ m ⟨i.1 - off x, by omega⟩ else y.1 i,
   fun j => y.1 ⟨off x + j.1, by have := off_le x; omega⟩ ^^^ m j)

theorem swapHalf_involutive (x : Bool) (m : Fin 16 → Byte) : Function.Involutive (swapHalf x m) := by
  intro y
  refine Prod.ext ?_ ?_
  · funext i
    simp only [swapHalf]
    split
    · rename_i h
      rw [BitVec.xor_assoc, BitVec.xor_self, BitVec.xor_zero]
      exact congrArg y.1 (Fin.ext (by simp only; omega))
    · rfl
  · funext j
    have h1 : off x ≤ off x + j.1 ∧ off x + j.1 < off x + 16 := ⟨by omega, by omega⟩
    simp only [swapHalf, h1, and_self, dif_pos, Nat.add_sub_cancel_left]
    rw [BitVec.xor_assoc, BitVec.xor_self, BitVec.xor_zero]

theorem swapHalf_ctl (x : Bool) (m : Fin 16 → Byte) (y : (Fin 48 → Byte) × (Fin 16 → Byte)) :
    ctlU x (List.ofFn (swapHalf x m y).1) = ctlU x (List.ofFn y.1) := by
  cases x
  · simp only [ctlU, Bool.false_eq_true, if_false]
    rw [List.getD_eq_getElem?_getD, List.getD_eq_getElem?_getD, List.getElem?_ofFn, List.getElem?_ofFn]
    simp [swapHalf, off]
  · simp only [ctlU, if_true]
    rw [List.getD_eq_getElem?_getD, List.getD_eq_getElem?_getD, List.getElem?_ofFn, List.getElem?_ofFn]
    simp [swapHalf, off]

theorem corr_half (x : Bool) (w v : Fin 48 → Byte) (t : Byte) :
    corr (halfU x (List.ofFn w)) t ((cwOf v).take 16)
      = List.ofFn (swapHalf x (fun j => t * v ⟨j.1, by omega⟩) (w, 0)).2 := by
  rw [halfU_ofFn, cwOf_take]
  apply List.ext_getElem (by simp [corr])
  intro j h1 h2
  have hj : j < 16 := by simpa using h2
  simp only [corr, List.getElem_zipWith, List.getElem_map, List.getElem_ofFn, swapHalf, off]

/-- One step whose expanded seed is random leads to a random seed. -/
theorem step_uniform (x : Bool) (v : Fin 48 → Byte) (t : Byte) (G : Own → ℚ) :
    avg (fun w : Fin 48 → Byte => G (stepOn x (List.ofFn w) (cwOf v) t))
      = avg (fun w : Fin 48 → Byte => avg (fun s : Fin 16 → Byte =>
          G (List.ofFn s, (stepOn x (List.ofFn w) (cwOf v) t).2))) := by
  set m : Fin 16 → Byte := fun j => t * v ⟨j.1, by omega⟩ with hm
  have h1 : avg (fun w : Fin 48 → Byte => G (stepOn x (List.ofFn w) (cwOf v) t))
      = avg (fun y : (Fin 48 → Byte) × (Fin 16 → Byte) => G (stepOn x (List.ofFn y.1) (cwOf v) t)) := by
    rw [avg_prod']
    exact avg_congr (fun w => (avg_const _).symm)
  have h2 : avg (fun w : Fin 48 → Byte => avg (fun s : Fin 16 → Byte =>
          G (List.ofFn s, (stepOn x (List.ofFn w) (cwOf v) t).2)))
      = avg (fun y : (Fin 48 → Byte) × (Fin 16 → Byte) =>
          G (List.ofFn y.2, (stepOn x (List.ofFn y.1) (cwOf v) t).2)) :=
    (avg_prod' (fun y : (Fin 48 → Byte) × (Fin 16 → Byte) =>
          G (List.ofFn y.2, (stepOn x (List.ofFn y.1) (cwOf v) t).2))).symm
  rw [h1, h2, ← avg_equiv (swapHalf_involutive x m).toPerm (fun y : (Fin 48 → Byte) × (Fin 16 → Byte) =>
          G (List.ofFn y.2, (stepOn x (List.ofFn y.1) (cwOf v) t).2))]
  refine avg_congr (fun y => ?_)
  show _ = G (List.ofFn (swapHalf x m y).2, (stepOn x (List.ofFn (swapHalf x m y).1) (cwOf v) t).2)
  unfold stepOn
  rw [swapHalf_ctl, corr_half]
  rfl

theorem walk_hybrid (E : Cipher) : ∀ (x : List Bool) (t : Byte),
    avg (fun s : Fin 16 → Byte => walkMean E x (List.ofFn s, t))
      = avg (fun s : Fin 16 → Byte => seedHit E (List.ofFn s)) + ∑ k ∈ range x.length, prgGap E (walkTest E x k t) := by
  intro x
  induction x with
  | nil => intro t; simp [walkMean]
  | cons x xs ih =>
    intro t
    have e0 : avg (fun s : Fin 16 → Byte => walkMean E (x :: xs) (List.ofFn s, t))
        = prgGap E (walkTest E (x :: xs) 0 t)
          + avg (fun w : Fin 48 → Byte => walkTest E (x :: xs) 0 t (List.ofFn w)) := by
      unfold prgGap
      rw [sub_add_cancel]
      rfl
    have e1 : avg (fun w : Fin 48 → Byte => walkTest E (x :: xs) 0 t (List.ofFn w))
        = avg (fun v : Fin 48 → Byte => avg (fun w : Fin 48 → Byte => avg (fun s : Fin 16 → Byte =>
            walkMean E xs (List.ofFn s, (stepOn x (List.ofFn w) (cwOf v) t).2)))) := by
      unfold walkTest
      rw [avg_comm]
      exact avg_congr (fun v => step_uniform x v t (walkMean E xs))
    have e3 : ∀ k, prgGap E (walkTest E (x :: xs) (k + 1) t) = avg (fun v : Fin 48 → Byte => avg (fun w : Fin 48 → Byte =>
        prgGap E (walkTest E xs k (stepOn x (List.ofFn w) (cwOf v) t).2))) := by
      intro k
      have : walkTest E (x :: xs) (k + 1) t = fun u => avg (fun v : Fin 48 → Byte => avg (fun w : Fin 48 → Byte =>
        walkTest E xs k (stepOn x (List.ofFn w) (cwOf v) t).2 u)) := rfl
      rw [this, prgGap_avg]
      exact avg_congr (fun v => prgGap_avg _ _)
    rw [e0, e1, avg_congr (fun v => avg_congr (fun w => ih _)), List.length_cons, Finset.sum_range_succ']
    have e4 : avg (fun v : Fin 48 → Byte => avg (fun w : Fin 48 → Byte =>
        avg (fun s : Fin 16 → Byte => seedHit E (List.ofFn s))
          + ∑ k ∈ range xs.length, prgGap E (walkTest E xs k (stepOn x (List.ofFn w) (cwOf v) t).2)))
        = avg (fun s : Fin 16 → Byte => seedHit E (List.ofFn s))
          + ∑ k ∈ range xs.length, prgGap E (walkTest E (x :: xs) (k + 1) t) := by
      have : ∀ v : Fin 48 → Byte, avg (fun w : Fin 48 → Byte =>
        avg (fun s : Fin 16 → Byte => seedHit E (List.ofFn s))
          + ∑ k ∈ range xs.length, prgGap E (walkTest E xs k (stepOn x (List.ofFn w) (cwOf v) t).2))
          = avg (fun s : Fin 16 → Byte => seedHit E (List.ofFn s))
            + ∑ k ∈ range xs.length, avg (fun w : Fin 48 → Byte =>
                prgGap E (walkTest E xs k (stepOn x (List.ofFn w) (cwOf v) t).2)) := by
        intro v
        rw [← avg_add, avg_const, avg_sum]
      rw [avg_congr this, ← avg_add, avg_const, avg_sum]
      simp only [e3]
    rw [e4]
    ring

/-! ### The end of a walk -/

theorem seedHit_words (E : Cipher) (s : List Byte) : seedHit E s = valueHit (words E s) := by
  have h : NoHit E 5 s ↔ ¬ ∃ i, (words E s i).1 = p := by
    constructor
    · rintro h ⟨i, hi⟩
      exact h i.1 (by omega) hi
    · intro h i hi hp
      exact h ⟨⟨i, by omega⟩, hp⟩
  unfold seedHit valueHit
  by_cases hn : NoHit E 5 s
  · rw [if_pos hn, if_neg (h.1 hn)]
  · rw [if_neg hn, if_pos (by by_contra hc; exact hn (h.2 hc))]

theorem valueHit_le : avg valueHit ≤ 4 / 2 ^ 31 := by
  have h1 : ∀ z : Fin 4 → Fin (2 ^ 31), valueHit z ≤ ((if (z 0).1 = p then (1 : ℚ) else 0)
      + (if (z 1).1 = p then (1 : ℚ) else 0)) + ((if (z 2).1 = p then (1 : ℚ) else 0)
      + (if (z 3).1 = p then (1 : ℚ) else 0)) := by
    intro z
    unfold valueHit
    split
    · rename_i h
      obtain ⟨i, hi⟩ := h
      have hn : ∀ j : Fin 4, (0 : ℚ) ≤ if (z j).1 = p then 1 else 0 := fun j => by split <;> norm_num
      have h0 := hn 0
      have h1 := hn 1
      have h2 := hn 2
      have h3 := hn 3
      have hj : (if (z i).1 = p then (1 : ℚ) else 0) = 1 := if_pos hi
      fin_cases i <;> simp only [Fin.zero_eta, Fin.mk_one, Fin.reduceFinMk] at hj <;> linarith
    · have hn : ∀ j : Fin 4, (0 : ℚ) ≤ if (z j).1 = p then 1 else 0 := fun j => by split <;> norm_num
      linarith [hn 0, hn 1, hn 2, hn 3]
  have h2 : ∀ j : Fin 4, avg (fun z : Fin 4 → Fin (2 ^ 31) => if (z j).1 = p then (1 : ℚ) else 0) = 1 / 2 ^ 31 := by
    intro j
    rw [avg_coord j (fun z : Fin (2 ^ 31) => if z.1 = p then (1 : ℚ) else 0), avg_indicator p (by norm_num [p])]
  refine (avg_mono h1).trans ?_
  rw [← avg_add, ← avg_add, ← avg_add, h2, h2, h2, h2]
  norm_num

theorem seedHit_mean (E : Cipher) :
    avg (fun s : Fin 16 → Byte => seedHit E (List.ofFn s)) ≤ |convGap E valueHit| + 4 / 2 ^ 31 := by
  have : avg (fun s : Fin 16 → Byte => seedHit E (List.ofFn s)) = convGap E valueHit + avg valueHit := by
    unfold convGap
    rw [sub_add_cancel]
    exact avg_congr (fun s => seedHit_words E _)
  rw [this]
  exact add_le_add (le_abs_self _) valueHit_le

/-! ### One key, one selector -/

theorem ideal_walk (E : Cipher) : ∀ (a : List Bool) (own : Own) (H : List (List Byte) → ℚ),
    idealMean E a own (fun cws _ _ => H cws) = wordsMean a.length H := by
  intro a
  induction a with
  | nil => intro own H; exact avg_const _
  | cons a as ih =>
    intro own H
    have e1 : idealMean E (a :: as) own (fun cws _ _ => H cws) = avg (fun v : Fin 48 → Byte =>
      idealMean E as (evalStepC E a (cwOf v) own.1 own.2) (fun cws _ _ => H (cwOf v :: cws))) := rfl
    rw [e1, avg_congr (fun v => ih _ (fun cws => H (cwOf v :: cws)))]
    rfl

theorem words_walk (E : Cipher) : ∀ (x : List Bool) (own : Own),
    wordsMean x.length (keyHit E x own) = walkMean E x own := by
  intro x
  induction x with
  | nil => intro own; rfl
  | cons x xs ih =>
    intro own
    have e : wordsMean (x :: xs).length (keyHit E (x :: xs) own)
      = avg (fun v : Fin 48 → Byte => wordsMean xs.length (keyHit E xs (evalStepC E x (cwOf v) own.1 own.2))) := rfl
    rw [e, avg_congr (fun v => ih _)]
    rfl

/-- The part of all seeds for which the key of party `second` for the point `a` disturbs the evaluation at `x`. -/
def keyChance (E : Cipher) (second : Bool) (a x : List Bool) : ℚ :=
  avg (fun s : Fin 16 → Byte => avg (fun tb : Byte => avg (fun so : Fin 16 → Byte =>
    keyHit E x (ownOf second s tb) (runReal E a (ownOf second s tb) (List.ofFn so)).1)))

theorem keyChance_eq {E : Cipher} (hE : BlockCipher E) (second : Bool) {a x : List Bool} (hx : x.length = a.length) :
    keyChance E second a x = avg (fun s : Fin 16 → Byte => seedHit E (List.ofFn s))
      + ∑ k ∈ range a.length, prgGap E (upperTest E second a x k)
      + ∑ k ∈ range a.length, prgGap E (lowerTest E second x k) := by
  have e1 : ∀ (s : Fin 16 → Byte) (tb : Byte), avg (fun so : Fin 16 → Byte =>
      keyHit E x (ownOf second s tb) (runReal E a (ownOf second s tb) (List.ofFn so)).1)
      = walkMean E x (ownOf second s tb) + ∑ k ∈ range a.length, prgGap E (levelTest E a k (ownOf second s tb)
          (fun cws _ _ => keyHit E x (ownOf second s tb) cws)) := by
    intro s tb
    have := hybrid hE a (fun cws _ _ => keyHit E x (ownOf second s tb) cws) (ownOf_ok second s tb).1 (ownOf_ok second s tb).2
    rw [ideal_walk E a _ (keyHit E x (ownOf second s tb)), ← hx, words_walk, hx] at this
    exact this
  have hup : ∀ k, prgGap E (upperTest E second a x k) = avg (fun s : Fin 16 → Byte => avg (fun tb : Byte =>
      prgGap E (levelTest E a k (ownOf second s tb) (fun cws _ _ => keyHit E x (ownOf second s tb) cws)))) := by
    intro k
    unfold upperTest
    rw [prgGap_avg]
    exact avg_congr (fun s => prgGap_avg _ _)
  have hlo : avg (fun s : Fin 16 → Byte => avg (fun tb : Byte => walkMean E x (ownOf second s tb)))
      = avg (fun s : Fin 16 → Byte => seedHit E (List.ofFn s)) + ∑ k ∈ range a.length, prgGap E (lowerTest E second x k) := by
    rw [avg_comm]
    have e2 : ∀ tb : Byte, avg (fun s : Fin 16 → Byte => walkMean E x (ownOf second s tb))
        = avg (fun s : Fin 16 → Byte => seedHit E (List.ofFn s))
          + ∑ k ∈ range a.length, prgGap E (walkTest E x k (ownOf second 0 tb).2) := by
      intro tb
      rw [← hx]
      exact walk_hybrid E x _
    rw [avg_congr e2, ← avg_add, avg_const, avg_sum]
    congr 1
    refine Finset.sum_congr rfl (fun k _ => ?_)
    unfold lowerTest
    rw [prgGap_avg]
  unfold keyChance
  rw [avg_congr (fun s => avg_congr (fun tb => e1 s tb))]
  have e4 : avg (fun s : Fin 16 → Byte => avg (fun tb : Byte => walkMean E x (ownOf second s tb)
      + ∑ k ∈ range a.length, prgGap E (levelTest E a k (ownOf second s tb)
          (fun cws _ _ => keyHit E x (ownOf second s tb) cws))))
      = avg (fun s : Fin 16 → Byte => avg (fun tb : Byte => walkMean E x (ownOf second s tb)))
        + ∑ k ∈ range a.length, prgGap E (upperTest E second a x k) := by
    simp only [hup]
    rw [← avg_sum, avg_add]
    refine avg_congr (fun s => ?_)
    rw [← avg_sum, avg_add]
  rw [e4, hlo]
  ring

theorem keyChance_le {E : Cipher} (hE : BlockCipher E) (second : Bool) {a x : List Bool} (hx : x.length = a.length) :
    keyChance E second a x ≤ hitBound E second a x := by
  rw [keyChance_eq hE second hx]
  unfold hitBound
  have h1 := seedHit_mean E
  have h2 : ∑ k ∈ range a.length, prgGap E (upperTest E second a x k)
      ≤ ∑ k ∈ range a.length, |prgGap E (upperTest E second a x k)| := Finset.sum_le_sum (fun k _ => le_abs_self _)
  have h3 : ∑ k ∈ range a.length, prgGap E (lowerTest E second x k)
      ≤ ∑ k ∈ range a.length, |prgGap E (lowerTest E second x k)| := Finset.sum_le_sum (fun k _ => le_abs_self _)
  linarith

/-! ### A whole run -/

theorem generate_keys {env : Env} (hE : BlockCipher env.E) {ocb : List Byte} {s0 s1 : Fin 16 → Byte} {tb : Byte}
    {a : List Bool} {b : List U32} {k0 k1 : Key} {ocb' : List Byte}
    (h : generateTreePF env ocb (List.ofFn s0 ++ [tb]) (List.ofFn s1) a b = ok (k0, k1, ocb')) :
    let r := genRec env.E a (List.ofFn s0) (List.ofFn s1) (tb % 2) (tb % 2 ^^^ 1)
    (k0.sInit = List.ofFn s0 ∧ k0.tInit = tb % 2 ∧ k0.cw = r.1) ∧
      (k1.sInit = List.ofFn s1 ∧ k1.tInit = tb % 2 ^^^ 1 ∧ k1.cw = r.1) := by
  obtain ⟨c0, c1, cne⟩ := init_bits tb
  have ht : (List.ofFn s0 ++ [tb]).take 16 = List.ofFn s0 := by
    rw [List.take_append_of_le_length (by simp), List.take_of_length_le (by simp)]
  have hg : (List.ofFn s0 ++ [tb]).getD 16 0 = tb := by
    rw [List.getD_eq_getElem?_getD, List.getElem?_append_right (by simp)]
    simp
  have hgl := genLoop_eq hE a (s0 := List.ofFn s0) (s1 := List.ofFn s1) (by simp) (by simp) c0 c1 cne
  unfold generateTreePF at h
  rw [slice_of_le (by omega) (by simp), idx_getD 0 (by simp), hg] at h
  simp only [ok_bind, List.drop_zero, Nat.sub_zero] at h
  rw [ht, copyAt_of_le (by simp), copyAt_of_le (by simp)] at h
  simp only [ok_bind, List.take_zero, List.nil_append, Nat.zero_add, List.drop_replicate, List.length_ofFn, Nat.sub_self,
    List.replicate_zero, List.append_nil] at h
  rw [hgl] at h
  simp only [ok_bind] at h
  rw [bind_eq_ok] at h
  obtain ⟨⟨tmp0, o1⟩, e1, h⟩ := h
  simp only [bind_eq_ok] at h
  obtain ⟨⟨tmp1, o2⟩, e2, fcw, e3, h⟩ := h
  simp only [ok.injEq, Prod.mk.injEq] at h
  obtain ⟨rfl, rfl, -⟩ := h
  exact ⟨⟨rfl, rfl, rfl⟩, ⟨rfl, rfl, rfl⟩⟩

theorem keyHit_nonneg (E : Cipher) (x : List Bool) (own : Own) (cws : List (List Byte)) : 0 ≤ keyHit E x own cws := by
  unfold keyHit seedHit
  split <;> norm_num

theorem keyHit_one {E : Cipher} {x : List Bool} {own : Own} {cws : List (List Byte)}
    (h : ¬ NoHit E 5 (evalRec E (x.zip cws) own).1) : keyHit E x own cws = 1 := if_neg h

/-- The correction words of a run. -/
def cwsOf (E : Cipher) (a : List Bool) (s0 s1 : Fin 16 → Byte) (tb : Byte) : List (List Byte) :=
  (genRec E a (List.ofFn s0) (List.ofFn s1) (tb % 2) (tb % 2 ^^^ 1)).1

/-- The number of hits counted by the bound. -/
def hits (E : Cipher) (a : List Bool) (xs : List (List Bool)) (s0 s1 : Fin 16 → Byte) (tb : Byte) : ℚ :=
  keyHit E a (ownOf false s0 tb) (cwsOf E a s0 s1 tb) + keyHit E a (ownOf true s1 tb) (cwsOf E a s0 s1 tb)
    + (xs.map (fun x => keyHit E x (ownOf false s0 tb) (cwsOf E a s0 s1 tb))).sum

theorem sum_nonneg {f : List Bool → ℚ} (h : ∀ x, 0 ≤ f x) (xs : List (List Bool)) : 0 ≤ (xs.map f).sum := by
  apply List.sum_nonneg
  intro y hy
  obtain ⟨x, -, rfl⟩ := List.mem_map.1 hy
  exact h x

theorem le_sum {f : List Bool → ℚ} (h : ∀ x, 0 ≤ f x) {xs : List (List Bool)} {x : List Bool} (hx : x ∈ xs) :
    f x ≤ (xs.map f).sum := by
  induction xs with
  | nil => simp at hx
  | cons y ys ih =>
    rw [List.map_cons, List.sum_cons]
    rcases List.mem_cons.1 hx with rfl | hx
    · linarith [sum_nonneg h ys]
    · linarith [ih hx, h y]

theorem hits_nonneg (E : Cipher) (a : List Bool) (xs : List (List Bool)) (s0 s1 : Fin 16 → Byte) (tb : Byte) :
    0 ≤ hits E a xs s0 s1 tb := by
  unfold hits
  have := sum_nonneg (fun x => keyHit_nonneg E x (ownOf false s0 tb) (cwsOf E a s0 s1 tb)) xs
  linarith [keyHit_nonneg E a (ownOf false s0 tb) (cwsOf E a s0 s1 tb),
    keyHit_nonneg E a (ownOf true s1 tb) (cwsOf E a s0 s1 tb)]

/-- A disturbed run has a hit. -/
theorem disturbed_hit {W : World} (hE : BlockCipher W.env.E) {db : KeyDB} {q : ClientFSS} (h256 : q.input.length ≤ 256)
    (hlen : ∀ ki ∈ db.keys, ∀ id, keyId W.hash q.info ki = ok (some id) → id.length = q.input.length)
    (s0 s1 : Fin 16 → Byte) (tb : Byte) (h : ¬ NoHits (seeded W s0 s1 tb) 5 db q) :
    1 ≤ hits W.env.E q.input (selectors W.hash db q) s0 s1 tb := by
  set E := W.env.E with hEd
  set a := q.input with ha
  obtain ⟨c0, c1, cne⟩ := init_bits tb
  have hcw := genRec_cw hE a (s0 := List.ofFn s0) (s1 := List.ofFn s1) (by simp) (by simp) c0 c1 cne
  have hon := evalRec_on hE a (s0 := List.ofFn s0) (s1 := List.ofFn s1) (by simp) (by simp) c0 c1 cne
  have hoff := fun x hl hx => evalRec_off hE a x (s0 := List.ofFn s0) (s1 := List.ofFn s1) (by simp) (by simp) c0 c1 cne hl hx
  have hgl := genLoop_eq hE a (s0 := List.ofFn s0) (s1 := List.ofFn s1) (by simp) (by simp) c0 c1 cne
  by_contra hc
  rw [not_le] at hc
  have hs := sum_nonneg (fun x => keyHit_nonneg E x (ownOf false s0 tb) (cwsOf E a s0 s1 tb)) (selectors W.hash db q)
  have k0 := keyHit_nonneg E a (ownOf false s0 tb) (cwsOf E a s0 s1 tb)
  have k1 := keyHit_nonneg E a (ownOf true s1 tb) (cwsOf E a s0 s1 tb)
  unfold hits at hc
  have n0 : NoHit E 5 (evalRec E (a.zip (cwsOf E a s0 s1 tb)) (ownOf false s0 tb)).1 := by
    by_contra hn
    rw [keyHit_one hn] at hc
    linarith
  have n1 : NoHit E 5 (evalRec E (a.zip (cwsOf E a s0 s1 tb)) (ownOf true s1 tb)).1 := by
    by_contra hn
    rw [keyHit_one hn] at hc
    linarith
  have nx : ∀ x ∈ selectors W.hash db q, NoHit E 5 (evalRec E (x.zip (cwsOf E a s0 s1 tb)) (ownOf false s0 tb)).1 := by
    intro x hx
    by_contra hn
    have := le_sum (fun x => keyHit_nonneg E x (ownOf false s0 tb) (cwsOf E a s0 s1 tb)) hx
    simp only [keyHit_one hn] at this
    linarith
  apply h
  refine ⟨?_, ?_⟩
  · intro g hg
    have ht : (List.ofFn s0 ++ [tb]).take 16 = List.ofFn s0 := by
      rw [List.take_append_of_le_length (by simp), List.take_of_length_le (by simp)]
    have hgd : (List.ofFn s0 ++ [tb]).getD 16 0 = tb := by
      rw [List.getD_eq_getElem?_getD, List.getElem?_append_right (by simp)]
      simp
    simp only [seeded] at hg
    rw [ht, hgd, hgl] at hg
    simp only [ok.injEq] at hg
    subst hg
    have e0 : evalRec E (a.zip (cwsOf E a s0 s1 tb)) (ownOf false s0 tb) = _ := hon.1
    have e1 : evalRec E (a.zip (cwsOf E a s0 s1 tb)) (ownOf true s1 tb) = _ := hon.2
    rw [e0] at n0
    rw [e1] at n1
    exact ⟨n0, n1⟩
  · intro ms st rnd' buf' hq m hm ki hki id hid
    unfold Predicate.query at hq
    rw [if_neg (by norm_num)] at hq
    simp only [seeded, bind_eq_ok] at hq
    obtain ⟨⟨st', rd⟩, e1, ⟨k0', k1', b'⟩, e2, h3⟩ := hq
    simp only [ok.injEq, Prod.mk.injEq] at h3
    obtain ⟨rfl, -, -, -⟩ := h3
    obtain ⟨⟨a1, a2, a3⟩, b1, b2, b3⟩ := generate_keys hE e2
    have hl := hlen ki hki id hid
    have hmem : id ∈ selectors W.hash db q := by
      unfold selectors
      rw [List.mem_dedup, List.mem_filterMap]
      have hid' : keyId W.hash q.info ki = ok (some id) := hid
      exact ⟨ki, hki, by rw [hid']⟩
    intro s t he
    have hcl : clear256 id = id := clear256_of_le (by omega)
    simp only [List.mem_cons, List.not_mem_nil, or_false] at hm
    rcases hm with rfl | rfl
    · simp only [seeded] at he
      rw [evalPath_eq hE _ id (by rw [a1]; simp) (by rw [a3, hcw.1, hl]) (by rw [a3]; exact hcw.2), hcl, a1, a2, a3] at he
      simp only [ok.injEq] at he
      have := nx id hmem
      have e : evalRec E (id.zip (cwsOf E a s0 s1 tb)) (ownOf false s0 tb) = (s, t) := he
      rw [e] at this
      exact this
    · simp only [seeded] at he
      rw [evalPath_eq hE _ id (by rw [b1]; simp) (by rw [b3, hcw.1, hl]) (by rw [b3]; exact hcw.2), hcl, b1, b2, b3] at he
      simp only [ok.injEq] at he
      have e : evalRec E (id.zip (cwsOf E a s0 s1 tb)) (ownOf true s1 tb) = (s, t) := he
      by_cases hx : id = a
      · rw [hx] at e
        rw [e] at n1
        exact n1
      · have := nx id hmem
        have e' : evalRec E (id.zip (cwsOf E a s0 s1 tb)) (ownOf false s0 tb)
          = evalRec E (id.zip (cwsOf E a s0 s1 tb)) (ownOf true s1 tb) := hoff id hl hx
        rw [e', e] at this
        exact this

theorem mean_first {E : Cipher} (hE : BlockCipher E) (a x : List Bool) :
    avg (fun s0 : Fin 16 → Byte => avg (fun s1 : Fin 16 → Byte => avg (fun tb : Byte =>
      keyHit E x (ownOf false s0 tb) (cwsOf E a s0 s1 tb)))) = keyChance E false a x := by
  unfold keyChance
  refine avg_congr (fun s0 => ?_)
  rw [avg_comm]
  refine avg_congr (fun tb => avg_congr (fun s1 => ?_))
  obtain ⟨c0, c1, cne⟩ := init_bits tb
  have := genRec_first hE a (s0 := List.ofFn s0) (s1 := List.ofFn s1) (by simp) (by simp) c0 c1 cne
  simp only at this
  rw [show ownOf false s0 tb = (List.ofFn s0, tb % 2) from rfl, this]
  rfl

theorem mean_second {E : Cipher} (hE : BlockCipher E) (a x : List Bool) :
    avg (fun s0 : Fin 16 → Byte => avg (fun s1 : Fin 16 → Byte => avg (fun tb : Byte =>
      keyHit E x (ownOf true s1 tb) (cwsOf E a s0 s1 tb)))) = keyChance E true a x := by
  unfold keyChance
  rw [avg_comm]
  refine avg_congr (fun s1 => ?_)
  rw [avg_comm]
  refine avg_congr (fun tb => avg_congr (fun s0 => ?_))
  obtain ⟨c0, c1, cne⟩ := init_bits tb
  have := genRec_second hE a (s0 := List.ofFn s0) (s1 := List.ofFn s1) (by simp) (by simp) c0 c1 cne
  simp only at this
  rw [show ownOf true s1 tb = (List.ofFn s1, tb % 2 ^^^ 1) from rfl, this]
  rfl

/-- The mean over all seeds and control bytes. -/
def mean (f : (Fin 16 → Byte) → (Fin 16 → Byte) → Byte → ℚ) : ℚ :=
  avg (fun s0 : Fin 16 → Byte => avg (fun s1 : Fin 16 → Byte => avg (fun tb : Byte => f s0 s1 tb)))

theorem mean_mono {f g : (Fin 16 → Byte) → (Fin 16 → Byte) → Byte → ℚ} (h : ∀ s0 s1 tb, f s0 s1 tb ≤ g s0 s1 tb) :
    mean f ≤ mean g :=
  avg_mono (fun s0 => avg_mono (fun s1 => avg_mono (fun tb => h s0 s1 tb)))

theorem mean_add (f g : (Fin 16 → Byte) → (Fin 16 → Byte) → Byte → ℚ) :
    mean (fun s0 s1 tb => f s0 s1 tb + g s0 s1 tb) = mean f + mean g := by
  unfold mean
  rw [avg_add]
  refine avg_congr (fun s0 => ?_)
  rw [avg_add]
  refine avg_congr (fun s1 => ?_)
  rw [avg_add]

theorem avg3_const {A B C : Type} [Fintype A] [Fintype B] [Fintype C] [Nonempty A] [Nonempty B] [Nonempty C] (c : ℚ) :
    avg (fun _ : A => avg (fun _ : B => avg (fun _ : C => c))) = c := by
  simp only [avg_const]

theorem avg3_sum {A B C : Type} [Fintype A] [Fintype B] [Fintype C] [Nonempty A] [Nonempty B] [Nonempty C]
    (f : List Bool → A → B → C → ℚ) (xs : List (List Bool)) :
    avg (fun a : A => avg (fun b : B => avg (fun c : C => (xs.map (fun x => f x a b c)).sum)))
      = (xs.map (fun x => avg (fun a : A => avg (fun b : B => avg (fun c : C => f x a b c))))).sum := by
  induction xs with
  | nil =>
    simp only [List.map_nil, List.sum_nil]
    exact avg3_const 0
  | cons x xs ih =>
    simp only [List.map_cons, List.sum_cons]
    rw [← ih]
    simp only [avg_add]

theorem mean_sum (f : List Bool → (Fin 16 → Byte) → (Fin 16 → Byte) → Byte → ℚ) (xs : List (List Bool)) :
    mean (fun s0 s1 tb => (xs.map (fun x => f x s0 s1 tb)).sum) = (xs.map (fun x => mean (f x))).sum :=
  avg3_sum f xs

/-- The mean number of hits. -/
theorem hits_mean {E : Cipher} (hE : BlockCipher E) (a : List Bool) (xs : List (List Bool)) :
    mean (hits E a xs) = keyChance E false a a + keyChance E true a a + (xs.map (keyChance E false a)).sum := by
  have e : mean (hits E a xs) = mean (fun s0 s1 tb => keyHit E a (ownOf false s0 tb) (cwsOf E a s0 s1 tb)
      + keyHit E a (ownOf true s1 tb) (cwsOf E a s0 s1 tb)
      + (xs.map (fun x => keyHit E x (ownOf false s0 tb) (cwsOf E a s0 s1 tb))).sum) := rfl
  rw [e, mean_add, mean_add, mean_sum (fun x s0 s1 tb => keyHit E x (ownOf false s0 tb) (cwsOf E a s0 s1 tb))]
  have h1 : mean (fun s0 s1 tb => keyHit E a (ownOf false s0 tb) (cwsOf E a s0 s1 tb)) = keyChance E false a a :=
    mean_first hE a a
  have h2 : mean (fun s0 s1 tb => keyHit E a (ownOf true s1 tb) (cwsOf E a s0 s1 tb)) = keyChance E true a a :=
    mean_second hE a a
  have h3 : ∀ x, mean (fun s0 s1 tb => keyHit E x (ownOf false s0 tb) (cwsOf E a s0 s1 tb)) = keyChance E false a x :=
    fun x => mean_first hE a x
  rw [h1, h2]
  simp only [h3]

theorem chance_mono {A B : (Fin 16 → Byte) → (Fin 16 → Byte) → Byte → Prop} (h : ∀ s0 s1 tb, A s0 s1 tb → B s0 s1 tb) :
    chance A ≤ chance B := by
  classical
  refine avg_mono (fun s0 => avg_mono (fun s1 => avg_mono (fun tb => ?_)))
  by_cases ha : A s0 s1 tb
  · rw [if_pos ha, if_pos (h s0 s1 tb ha)]
  · rw [if_neg ha]
    split <;> norm_num

theorem disturbed_chance {W : World} (hE : BlockCipher W.env.E) {db : KeyDB} {q : ClientFSS} (h256 : q.input.length ≤ 256)
    (hlen : ∀ ki ∈ db.keys, ∀ id, keyId W.hash q.info ki = ok (some id) → id.length = q.input.length) :
    chance (fun s0 s1 tb => ¬ NoHits (seeded W s0 s1 tb) 5 db q) ≤ runBound W.env.E W.hash db q := by
  classical
  have h1 : chance (fun s0 s1 tb => ¬ NoHits (seeded W s0 s1 tb) 5 db q)
      ≤ mean (hits W.env.E q.input (selectors W.hash db q)) := by
    refine avg_mono (fun s0 => avg_mono (fun s1 => avg_mono (fun tb => ?_)))
    by_cases hd : ¬ NoHits (seeded W s0 s1 tb) 5 db q
    · rw [if_pos hd]
      exact disturbed_hit hE h256 hlen s0 s1 tb hd
    · rw [if_neg hd]
      exact hits_nonneg _ _ _ _ _ _
  refine h1.trans ?_
  rw [hits_mean hE]
  unfold runBound
  have hsel : ∀ x ∈ selectors W.hash db q, x.length = q.input.length := by
    intro x hx
    unfold selectors at hx
    rw [List.mem_dedup, List.mem_filterMap] at hx
    obtain ⟨ki, hki, he⟩ := hx
    split at he
    · rename_i id hid
      subst he
      exact hlen ki hki x hid
    · simp at he
  have h2 : ((selectors W.hash db q).map (keyChance W.env.E false q.input)).sum
      ≤ ((selectors W.hash db q).map (hitBound W.env.E false q.input)).sum := by
    apply List.sum_le_sum
    intro x hx
    exact keyChance_le hE false (hsel x hx)
  linarith [keyChance_le hE false (a := q.input) (x := q.input) rfl, keyChance_le hE true (a := q.input) (x := q.input) rfl]

end Verif.Chance
