import Verif.Spec.AmplifyBound
import Verif.Lemmas.Votes
import Verif.Props.Amplify
import Mathlib.Data.Fintype.Fin

/-! # Forgeries of one repetition, by the drawn multiplier -/

set_option linter.unusedSimpArgs false

namespace Verif.Lwe
open Res Verif.Matrix Verif.Utils Finset Verif.Votes

/-- The multiplier as a 32-bit word. -/
def word (x : Fin (2 ^ 32)) : U32 := BitVec.ofFin x

theorem coinT_with (c : Coins) (x : Fin (2 ^ 32)) : coinT lwe32 (withMultiplier c x.val) = word x := by
  unfold coinT withMultiplier word
  have h : (leBytes 4 x.val).take lwe32.k = leBytes 4 x.val := by
    apply List.take_of_length_le
    rw [leBytes_length]
    exact le_refl 4
  apply BitVec.eq_of_toNat_eq
  simp only [h, ofLE_leBytes, BitVec.toNat_ofNat]
  have := x.isLt
  show x.val % 256 ^ 4 % 2 ^ 32 = x.val
  omega

theorem multiplier_with (c : Coins) (x : Fin (2 ^ 32)) : multiplier 4 (withMultiplier c x.val) = x.val := by
  unfold multiplier withMultiplier
  have h : (leBytes 4 x.val).take 4 = leBytes 4 x.val := by
    apply List.take_of_length_le
    rw [leBytes_length]
  simp only [h, ofLE_leBytes]
  have := x.isLt
  omega

theorem setup_with {aesctr : List Byte → Nat → Byte} {p : Params} {db : Db 32} {c : Coins}
    (h : Setup lwe32 aesctr p db c) (x : Nat) : Setup lwe32 aesctr p db (withMultiplier c x) :=
  ⟨h.valid, h.params, h.digest, h.fits, h.noiseLen, h.noise⟩

/-- Words accepted as next to zero. -/
theorem near_zero_card (b : U32) (h0 : 0 < b.toNat) :
    (univ.filter (fun y : Fin (2 ^ 32) => inRange32 b (word y) = true)).card ≤ 2 * b.toNat - 1 ∧
    (b.toNat ≤ 2 ^ 31 →
      (univ.filter (fun y : Fin (2 ^ 32) => inRange32 b (word y) = true)).card = 2 * b.toNat - 1) := by
  have hb := b.isLt
  have hmap : (univ.filter (fun y : Fin (2 ^ 32) => inRange32 b (word y) = true)).map Fin.valEmbedding =
      (Finset.range b.toNat ∪ Finset.Ioo ((-b).toNat) (2 ^ 32)) := by
    ext v
    simp only [mem_map, mem_filter, mem_univ, true_and, Fin.valEmbedding_apply, mem_union, Finset.mem_range,
      Finset.mem_Ioo]
    unfold inRange32 word
    constructor
    · rintro ⟨y, hy, rfl⟩
      have := y.isLt
      simp only [Bool.or_eq_true, decide_eq_true_iff, BitVec.toNat_ofFin] at hy
      omega
    · rintro h
      refine ⟨⟨v, by omega⟩, ?_, rfl⟩
      simp only [Bool.or_eq_true, decide_eq_true_iff, BitVec.toNat_ofFin]
      omega
  have hc := congrArg card hmap
  rw [card_map] at hc
  have hneg : (-b).toNat = (2 ^ 32 - b.toNat) % 2 ^ 32 := BitVec.toNat_neg b
  constructor
  · rw [hc]
    refine (card_union_le _ _).trans ?_
    rw [card_range, Nat.card_Ioo]
    omega
  · intro h2
    rw [hc, card_union_of_disjoint, card_range, Nat.card_Ioo]
    · omega
    · rw [disjoint_left]
      intro v h3 h4
      rw [Finset.mem_range] at h3
      rw [Finset.mem_Ioo] at h4
      omega

theorem word_toFin (v : U32) : word v.toFin = v := rfl

theorem toFin_word (x : Fin (2 ^ 32)) : (word x).toFin = x := rfl

/-- Multipliers `x` with `d - x` next to zero. -/
def nearMinus (b d : U32) : Finset (Fin (2 ^ 32)) := univ.filter (fun x => inRange32 b (d - word x) = true)

/-- Multipliers `x` with `d + x` next to zero. -/
def nearPlus (b d : U32) : Finset (Fin (2 ^ 32)) := univ.filter (fun x => inRange32 b (d + word x) = true)

theorem nearMinus_card (b d : U32) :
    (nearMinus b d).card = (univ.filter (fun y : Fin (2 ^ 32) => inRange32 b (word y) = true)).card := by
  unfold nearMinus
  refine card_bij' (fun x _ => (d - word x).toFin) (fun y _ => (d - word y).toFin) ?_ ?_ ?_ ?_
  · intro x hx
    rw [mem_filter] at hx ⊢
    refine ⟨mem_univ _, ?_⟩
    rw [word_toFin]
    exact hx.2
  · intro y hy
    rw [mem_filter] at hy ⊢
    refine ⟨mem_univ _, ?_⟩
    rw [word_toFin, sub_sub_cancel]
    exact hy.2
  · intro x _
    rw [word_toFin, sub_sub_cancel, toFin_word]
  · intro y _
    rw [word_toFin, sub_sub_cancel, toFin_word]

theorem nearPlus_card (b d : U32) :
    (nearPlus b d).card = (univ.filter (fun y : Fin (2 ^ 32) => inRange32 b (word y) = true)).card := by
  unfold nearPlus
  refine card_bij' (fun x _ => (d + word x).toFin) (fun y _ => (word y - d).toFin) ?_ ?_ ?_ ?_
  · intro x hx
    rw [mem_filter] at hx ⊢
    refine ⟨mem_univ _, ?_⟩
    rw [word_toFin]
    exact hx.2
  · intro y hy
    rw [mem_filter] at hy ⊢
    refine ⟨mem_univ _, ?_⟩
    rw [word_toFin, add_sub_cancel]
    exact hy.2
  · intro x _
    rw [word_toFin, add_sub_cancel_left, toFin_word]
  · intro y _
    rw [word_toFin, add_sub_cancel, toFin_word]

/-- What the client of one repetition has left of the queried column apart from the multiplier: noise and deviation. -/
def residue (db : Db 32) (c : Coins) (j : Nat) (δ : U32) : U32 :=
  BitVec.ofInt 32 (columnNoise (fun r => c.noise.getD r 0) db.matrix db.numRows j) + δ

/-- The bits one repetition can accept, by the drawn multiplier. -/
theorem rep_cases (aesctr : List Byte → Nat → Byte) (p : Params) (db : Db 32) (c : Coins)
    (hs : Setup lwe32 aesctr p db c) (x : Fin (2 ^ 32)) (i j : Nat) (hi : i < db.numRows) (hj : j < db.numColumns)
    (hB : 0 < p.b.toNat) (st : State 32) (q h a : Mat 32) (b δ : U32)
    (hq : query lwe32 aesctr p db.digest (withMultiplier c x.val) i j = ok (st, q)) (hh : binaryMul q db.matrix = ok h)
    (ha : a.entry 0 j = h.entry 0 j + δ) (hr : reconstruct lwe32 p st a = ok b) :
    (storedBit db.matrix i j = 0 ∧ ((b = 0 ∧ inRange32 p.b (residue db c j δ) = true) ∨
      (b = 1 ∧ inRange32 p.b (residue db c j δ) = false ∧ x ∈ nearMinus p.b (residue db c j δ)))) ∨
    (storedBit db.matrix i j = 1 ∧ ((b = 0 ∧ x ∈ nearPlus p.b (residue db c j δ)) ∨
      (b = 1 ∧ inRange32 p.b (residue db c j δ) = true))) := by
  have hs' := setup_with hs x.val
  obtain ⟨st', q', h', std, h1, h2, h3, h4, h5, h6, h7, -, rq, cq, wq, rh, ch, wh, rs, cs, ws, hval⟩ :=
    honest_values aesctr p (good32 p.b hB) db hs'.valid hs'.params hs'.digest hs'.fits (withMultiplier c x.val)
      hs'.noiseLen hs'.noise i j hi
  rw [hq] at h1
  simp only [ok.injEq, Prod.mk.injEq] at h1
  obtain ⟨rfl, rfl⟩ := h1
  have hh' : answer lwe32 db q = ok h := hh
  rw [hh'] at h2
  simp only [ok.injEq] at h2
  subst h2
  obtain ⟨-, -, -, hacc, hb'⟩ := reconstruct_ok p st a std b h3 hr
  rw [h6] at hb'
  have hm : p.m = db.numColumns := hs.params.m
  have hac := (hacc j (by omega)).2
  have hv := hval j hj
  rw [← data_entry (m := a), ← data_entry (m := std)] at hac hb'
  rw [h4] at hac
  rw [coinT_with] at hac hv
  have hres : a.entry 0 j - std.entry 0 j = residue db c j δ + word x * bitAs 32 db.matrix i j := by
    unfold residue
    have e : a.entry 0 j - std.entry 0 j = (h.entry 0 j - std.entry 0 j) + δ := by rw [ha]; ring
    rw [e, hv]
    show BitVec.ofInt 32 (columnNoise (fun r => c.noise.getD r 0) db.matrix db.numRows j) + _ + δ = _
    ring
  rw [hres] at hac hb'
  unfold verdict at hb'
  unfold nearMinus nearPlus
  simp only [mem_filter, mem_univ, true_and]
  have hir : lwe32.inRange = inRange32 := rfl
  rw [hir] at hac hb'
  rcases bit_cases (w := 32) hs.valid.bin i j with ⟨e1, e2⟩ | ⟨e1, e2⟩
  · rw [e2, mul_zero, add_zero] at hac hb'
    refine Or.inl ⟨e1, ?_⟩
    by_cases hd : inRange32 p.b (residue db c j δ) = true
    · rw [if_pos hd] at hb'
      exact Or.inl ⟨hb', hd⟩
    · rw [if_neg hd] at hb'
      exact Or.inr ⟨hb', by simpa using hd, hac.resolve_left hd⟩
  · rw [e2, mul_one, add_sub_cancel_right] at hac
    rw [e2, mul_one] at hb'
    refine Or.inr ⟨e1, ?_⟩
    by_cases hd : inRange32 p.b (residue db c j δ + word x) = true
    · rw [if_pos hd] at hb'
      exact Or.inl ⟨hb', hd⟩
    · rw [if_neg hd] at hb'
      exact Or.inr ⟨hb', hac.resolve_left hd⟩

/-- The states, queries and honest answers of all repetitions, one by one. -/
theorem mapM_get {α β : Type} {f : α → Res β} : ∀ {l : List α} {r : List β}, l.mapM f = ok r →
    r.length = l.length ∧ ∀ (k : Nat) a b, l[k]? = some a → r[k]? = some b → f a = ok b
  | [], r, h => by
    rw [List.mapM_nil] at h
    cases h
    simp
  | x :: l, r, h => by
    rw [List.mapM_cons, Res.bind_eq_ok] at h
    obtain ⟨y, hy, h⟩ := h
    rw [Res.bind_eq_ok] at h
    obtain ⟨ys, hys, h⟩ := h
    cases h
    obtain ⟨i1, i2⟩ := mapM_get hys
    refine ⟨by simp [i1], fun k a b ha hb => ?_⟩
    cases k with
    | zero =>
      simp only [List.getElem?_cons_zero, Option.some.injEq] at ha hb
      subst ha hb
      exact hy
    | succ k =>
      simp only [List.getElem?_cons_succ] at ha hb
      exact i2 k a b ha hb

theorem count_ofFn {n : Nat} (f : Fin n → U32) (b : U32) :
    (List.ofFn f).count b = (univ.filter (fun k => f k = b)).card := by
  induction n with
  | zero => simp
  | succ n ih =>
    rw [List.ofFn_succ, List.count_cons, ih, Fin.card_filter_univ_succ]
    by_cases h : f 0 = b <;> simp [h]

/-- Everything an accepted forgery says about the single repetitions. -/
theorem forged_votes {t : Nat} (aesctr : List Byte → Nat → Byte) (p : Params) (db : Db 32)
    (base : Fin (2 * t + 1) → Coins) (hs : ∀ k, Setup lwe32 aesctr p db (base k)) (i j : Nat) (hi : i < db.numRows)
    (hj : j < db.numColumns) (hB : 0 < p.b.toNat) (δ : Fin (2 * t + 1) → U32) (T : Draws (2 * t + 1))
    (h : Forged aesctr p db base i j δ T) :
    (storedBit db.matrix i j = 0 ∧
      t < (univ.filter (fun k => inRange32 p.b (residue db (base k) j (δ k)) = false)).card ∧
      ∀ k, inRange32 p.b (residue db (base k) j (δ k)) = false →
        T k ∈ nearMinus p.b (residue db (base k) j (δ k))) ∨
    (storedBit db.matrix i j = 1 ∧ Outvoted (fun k => nearPlus p.b (residue db (base k) j (δ k))) T) := by
  obtain ⟨ms, hons, answers, b, hq, hh, ha, hr, hb⟩ := h
  obtain ⟨outs, o1, o2, o3, o4⟩ := amplify_ok p _ answers b hr
  obtain ⟨m1, m2⟩ := mapM_get (show (coinsOf base T).mapM _ = ok ms from hq)
  obtain ⟨n1, n2⟩ := mapM_get (show (ms.map (·.2)).mapM _ = ok hons from hh)
  have hlen : ms.length = 2 * t + 1 := by rw [m1]; simp [coinsOf]
  rw [List.length_map] at o1 o2 n1
  have hcase : ∀ k : Fin (2 * t + 1), 
    (storedBit db.matrix i j = 0 ∧ ((outs.getD k.val 0 = 0 ∧ inRange32 p.b (residue db (base k) j (δ k)) = true) ∨
      (outs.getD k.val 0 = 1 ∧ inRange32 p.b (residue db (base k) j (δ k)) = false ∧
        T k ∈ nearMinus p.b (residue db (base k) j (δ k))))) ∨
    (storedBit db.matrix i j = 1 ∧ ((outs.getD k.val 0 = 0 ∧ T k ∈ nearPlus p.b (residue db (base k) j (δ k))) ∨
      (outs.getD k.val 0 = 1 ∧ inRange32 p.b (residue db (base k) j (δ k)) = true))) := by
    intro k
    have hk := k.isLt
    have e1 : (coinsOf base T)[k.val]? = some (withMultiplier (base k) (T k).val) := by
      unfold coinsOf
      rw [List.getElem?_ofFn, dif_pos hk]
    have e2 : ms[k.val]? = some ms[k.val] := List.getElem?_eq_getElem (by omega)
    have e3 : hons[k.val]? = some hons[k.val] := List.getElem?_eq_getElem (by omega)
    have e4 : answers[k.val]? = some answers[k.val] := List.getElem?_eq_getElem (by omega)
    have q1 := m2 k.val _ _ e1 e2
    have q2 := n2 k.val ms[k.val].2 _ (by simp [e2]) e3
    have q3 := o3 k.val ms[k.val].1 _ (by simp [e2]) e4
    exact rep_cases aesctr p db (base k) (hs k) (T k) i j hi hj hB _ _ _ _ _ (δ k) q1 q2 (ha k _ _ e3 e4) q3
  have houts : outs = List.ofFn (fun k : Fin (2 * t + 1) => outs.getD k.val 0) := by
    apply List.ext_getElem
    · simp [o1, hlen]
    · intro k h1 h2
      rw [List.getElem_ofFn]
      simp only [List.getD, List.getElem?_eq_getElem h1, Option.getD_some]
  have hmaj := Ecc.C35_decode_majority outs b o4
  unfold Ecc.Spec.Majority at hmaj
  have hhead : outs.getD 0 0 = b := by
    match outs, o4 with
    | [], o4 => rw [Ecc.decode_nil] at o4; cases o4
    | a :: l, o4 =>
      rw [Ecc.decode_eq] at o4
      split at o4
      · simpa using o4
      · cases o4
  rw [houts, count_ofFn] at hmaj
  rw [List.length_ofFn] at hmaj
  rcases hcase 0 with ⟨hz, -⟩ | ⟨hz, h0⟩
  · refine Or.inl ⟨hz, ?_, ?_⟩
    · refine lt_of_lt_of_le (show t < (univ.filter (fun k : Fin (2 * t + 1) => outs.getD k.val 0 = b)).card by omega) ?_
      refine card_le_card fun k hk => ?_
      rw [mem_filter] at hk ⊢
      refine ⟨mem_univ _, ?_⟩
      rcases hcase k with ⟨-, ⟨e, -⟩ | ⟨-, e, -⟩⟩ | ⟨e, -⟩
      · rw [hk.2] at e
        rw [e] at hb
        exact absurd hz.symm hb
      · exact e
      · omega
    · intro k hk
      rcases hcase k with ⟨-, ⟨-, e⟩ | ⟨-, -, e⟩⟩ | ⟨e, -⟩
      · rw [hk] at e; cases e
      · exact e
      · omega
  · have key : ∀ k : Fin (2 * t + 1), outs.getD k.val 0 = b → T k ∈ nearPlus p.b (residue db (base k) j (δ k)) := by
      intro k hk
      rcases hcase k with ⟨e, -⟩ | ⟨-, ⟨-, e⟩ | ⟨e, -⟩⟩
      · omega
      · exact e
      · rw [hk] at e
        rw [e] at hb
        exact absurd hz.symm hb
    refine Or.inr ⟨hz, key 0 hhead, ?_⟩
    refine lt_of_lt_of_le (show t < (univ.filter (fun k : Fin (2 * t + 1) => outs.getD k.val 0 = b)).card by omega) ?_
    refine card_le_card fun k hk => ?_
    rw [mem_filter] at hk ⊢
    exact ⟨mem_univ _, key k hk.2⟩

/-- The bit the honest exchange of one repetition returns, whatever the multiplier. -/
def honestBit (p : Params) (db : Db 32) (i j : Nat) (c : Coins) : U32 :=
  verdict lwe32 p.b (seen 32 id (coinT lwe32 c) db c i j)

/-- One repetition with the honest server is accepted for every multiplier if the noise is within the bound. -/
theorem honest_rep (aesctr : List Byte → Nat → Byte) (p : Params) (db : Db 32) (c : Coins)
    (hs : Setup lwe32 aesctr p db c) (i j : Nat) (hi : i < db.numRows) (hj : j < db.numColumns) (hB : 0 < p.b.toNat)
    (hcol : ∀ k, k < db.numColumns → |columnNoise (fun r => c.noise.getD r 0) db.matrix db.numRows k| < p.b.toNat) :
    ∃ st q h, query lwe32 aesctr p db.digest c i j = ok (st, q) ∧ binaryMul q db.matrix = ok h ∧
      (q.rows = 1 ∧ q.cols = db.numRows ∧ q.WellFormed) ∧ (h.rows = 1 ∧ h.cols = db.numColumns ∧ h.WellFormed) ∧
      reconstruct lwe32 p st h = ok (honestBit p db i j c) := by
  obtain ⟨st, q, h, std, h1, h2, h3, h4, h5, h6, h7, -, rq, cq, wq, rh, ch, wh, rs, cs, ws, hval⟩ :=
    honest_values aesctr p (good32 p.b hB) db hs.valid hs.params hs.digest hs.fits c hs.noiseLen hs.noise i j hi
  refine ⟨st, q, h, h1, h2, ⟨rq, cq, wq⟩, ⟨rh, ch, wh⟩, ?_⟩
  obtain ⟨d, hdd, rd, cd, wd, ed⟩ := sub_spec h std (by omega) (by omega) wh ws
  have hm : p.m = db.numColumns := hs.params.m
  have hseen : ∀ k, k < db.numColumns → d.data.getD k 0 = seen 32 id (coinT lwe32 c) db c i k := by
    intro k hk
    have e := ed 0 k (by omega) (by omega)
    rw [hval k hk, data_entry] at e
    exact e
  have hlen : p.m ≤ d.data.length := by rw [wd, rd, cd, rh, ch, hm]; omega
  have hnear : ∀ k, k < db.numColumns → lwe32.inRange p.b
      (BitVec.ofInt 32 (columnNoise (fun r => id (c.noise.getD r 0)) db.matrix db.numRows k)) = true := by
    intro k hk
    have := abs_lt.mp (hcol k hk)
    exact ((good32 p.b hB).range _).mpr ⟨columnNoise (fun r => c.noise.getD r 0) db.matrix db.numRows k,
      by omega, by omega, rfl⟩
  obtain ⟨outs, ho, hol, hoe⟩ := decide_spec lwe32 p.b st.t d p.m hlen (fun k hk => by
    rw [hseen k (by omega), h4]
    unfold seen
    rcases bit_cases (w := 32) hs.valid.bin i k with ⟨-, e⟩ | ⟨-, e⟩
    · left
      rw [e, mul_zero, add_zero]
      exact hnear k (by omega)
    · right
      rw [e, mul_one, add_sub_cancel_right]
      exact hnear k (by omega))
  unfold reconstruct
  rw [h3, ok_bind, hdd, ok_bind, ho, ok_bind, h6, idx_getD 0 (by omega), hoe _ (by omega), hseen _ hj]
  rfl

/-- The amplified exchange from what the single repetitions return. -/
theorem amplify_of_reps (aesctr : List Byte → Nat → Byte) (p : Params) (db : Db 32) (i j : Nat) (val : Coins → U32)
    (coins : List Coins)
    (hone : ∀ c ∈ coins, ∃ st q h, query lwe32 aesctr p db.digest c i j = ok (st, q) ∧ binaryMul q db.matrix = ok h ∧
      (q.rows = 1 ∧ q.cols = db.numRows ∧ q.WellFormed) ∧ (h.rows = 1 ∧ h.cols = db.numColumns ∧ h.WellFormed) ∧
      reconstruct lwe32 p st h = ok (val c)) :
    ∃ (ms : List (State 32 × Mat 32)) (as : List (Mat 32)),
      amplifyQuery aesctr p db.digest coins i j = ok ms ∧ amplifyAnswer db (ms.map (·.2)) = ok as ∧
      ms.length = coins.length ∧ as.length = coins.length ∧
      (∀ q ∈ ms.map (·.2), q.rows = 1 ∧ q.cols = db.numRows ∧ q.WellFormed) ∧
      (∀ h ∈ as, h.rows = 1 ∧ h.cols = db.numColumns ∧ h.WellFormed) ∧
      amplifyReconstruct p (ms.map (·.1)) as = Ecc.decode (coins.map val) := by
  obtain ⟨ms, as, hm1, ha1, hl2, hl3, hq, ha2, hr⟩ :
      ∃ (ms : List (State 32 × Mat 32)) (as : List (Mat 32)),
      amplifyQuery aesctr p db.digest coins i j = ok ms ∧ amplifyAnswer db (ms.map (·.2)) = ok as ∧
      ms.length = coins.length ∧ as.length = coins.length ∧
      (∀ q ∈ ms.map (·.2), q.rows = 1 ∧ q.cols = db.numRows ∧ q.WellFormed) ∧
      (∀ h ∈ as, h.rows = 1 ∧ h.cols = db.numColumns ∧ h.WellFormed) ∧
      (∀ (k : Nat) st a, (ms.map (·.1))[k]? = some st → as[k]? = some a → reconstruct lwe32 p st a =
        ok ((coins.map val).getD k 0)) := by
    unfold amplifyQuery amplifyAnswer
    induction coins with
    | nil => exact ⟨[], [], rfl, rfl, rfl, rfl, by simp, by simp, by simp⟩
    | cons c cs ih =>
      obtain ⟨st, q, h, e1, e2, e3, e4, e5⟩ := hone c (by simp)
      obtain ⟨ms, as, i2, i8, i5, i6, i7, i9, i10⟩ := ih (fun c hc => hone c (List.mem_cons_of_mem _ hc))
      refine ⟨(st, q) :: ms, h :: as, by rw [List.mapM_cons, e1, i2]; rfl,
        by rw [List.map_cons, List.mapM_cons, e2, i8]; rfl, by simp [i5], by simp [i6], ?_, ?_, ?_⟩
      · intro x hx
        rw [List.map_cons] at hx
        rcases List.mem_cons.mp hx with rfl | hx
        · exact e3
        · exact i7 x hx
      · intro x hx
        rcases List.mem_cons.mp hx with rfl | hx
        · exact e4
        · exact i9 x hx
      · intro k st' a' hs' ha'
        cases k with
        | zero =>
          simp only [List.map_cons, List.getElem?_cons_zero, Option.some.injEq] at hs' ha'
          subst hs' ha'
          exact e5
        | succ k =>
          simp only [List.map_cons, List.getElem?_cons_succ] at hs' ha'
          exact i10 k st' a' hs' ha'
  refine ⟨ms, as, hm1, ha1, hl2, hl3, hq, ha2, ?_⟩
  have hl1 : (ms.map (·.1)).length = coins.length := by simpa using hl2
  unfold amplifyReconstruct
  rw [forLoop_set_all (ms.map (·.1)).length (fun k => (coins.map val).getD k 0) _ _ ?_ (by simp)]
  · rw [ok_bind, hl1]
    congr 1
    apply List.ext_getElem
    · simp
    · intro k h1 h2
      rw [List.length_map] at h2
      simp [List.getD, h2]
  · intro k outs hi ho
    have hia : k < as.length := by omega
    have ea : as[k]? = some as[k] := List.getElem?_eq_getElem hia
    have es : (ms.map (·.1))[k]? = some (ms.map (·.1))[k] := List.getElem?_eq_getElem hi
    have e := hr k _ _ es ea
    rw [idx_of_lt hia, ok_bind, idx_of_lt hi, ok_bind, repetition_ok.mpr e, ok_bind]

/-- Over the wire, the honest amplified exchange decodes what the single repetitions return. -/
theorem retrieve_of_reps (aesctr : List Byte → Nat → Byte) (p : Params) (db : Db 32) (coins : List Coins)
    (hne : coins ≠ []) (hn32 : coins.length < 2 ^ 32) (hs : ∀ c ∈ coins, Setup lwe32 aesctr p db c) (index : Nat)
    (hidx : index < db.numRows * db.numColumns) (hB : 0 < p.b.toNat) (hR : 8 + 4 * db.numRows < 2 ^ 32)
    (hC : 8 + 4 * db.numColumns < 2 ^ 32)
    (hcol : ∀ c ∈ coins, ∀ k, k < db.numColumns →
      |columnNoise (fun r => c.noise.getD r 0) db.matrix db.numRows k| < p.b.toNat) :
    amplifyRetrieve aesctr p db.numColumns db.digest coins index (amplifyAnswerBytes db) =
      Ecc.decode (coins.map (honestBit p db (index / db.numColumns) (index % db.numColumns))) := by
  obtain ⟨c0, hc0⟩ := List.exists_mem_of_ne_nil _ hne
  have hC0 : 0 < db.numColumns := (hs c0 hc0).fits.2.2.1
  have hlen : 0 < coins.length := List.length_pos_iff.mpr hne
  obtain ⟨ms, as, hm1, ha1, hl2, hl3, hq, ha2, hr⟩ := amplify_of_reps aesctr p db (index / db.numColumns)
    (index % db.numColumns) _ coins (fun c hc => honest_rep aesctr p db c (hs c hc) _ _
    ((Nat.div_lt_iff_lt_mul hC0).mpr hidx) (Nat.mod_lt _ hC0) hB (hcol c hc))
  have ne_of : ∀ {l : List (Mat 32)}, l.length = coins.length → l ≠ [] := by
    intro l h e
    rw [e] at h
    simp at h
    omega
  have hl2' : (ms.map (·.2)).length = coins.length := by simpa using hl2
  have wq := C37_matrices_round_trip_partial (ms.map (·.2)) 1 db.numRows (ne_of hl2') (by omega) (by omega) (by omega)
    (by omega) hq
  have wa := C37_matrices_round_trip_partial as 1 db.numColumns (ne_of hl3) (by omega) (by omega) (by omega) (by omega) ha2
  rw [Res.bind_eq_ok] at wq wa
  obtain ⟨qb, wq1, wq2⟩ := wq
  obtain ⟨ab, wa1, wa2⟩ := wa
  unfold amplifyRetrieve amplifyQueryBytes
  rw [if_neg (by omega), hm1, ok_bind]
  dsimp only
  rw [wq1, ok_bind, ok_bind]
  dsimp only
  unfold amplifyAnswerBytes
  rw [wq2, ok_bind, ha1, ok_bind, wa1, ok_bind]
  unfold amplifyReconstructBytes
  rw [wa2, ok_bind, hr]

/-- The multipliers for which the exchange with the honest server misreads a stored one. -/
theorem misread_iff {t : Nat} (ht : 2 * t + 1 < 2 ^ 32) (aesctr : List Byte → Nat → Byte) (p : Params) (db : Db 32)
    (base : Fin (2 * t + 1) → Coins) (hs : ∀ k, Setup lwe32 aesctr p db (base k)) (index : Nat)
    (hidx : index < db.numRows * db.numColumns) (hB : 0 < p.b.toNat) (hR : 8 + 4 * db.numRows < 2 ^ 32)
    (hC : 8 + 4 * db.numColumns < 2 ^ 32)
    (hcol : ∀ k, ∀ l, l < db.numColumns →
      |columnNoise (fun r => (base k).noise.getD r 0) db.matrix db.numRows l| < p.b.toNat)
    (h1 : storedBit db.matrix (index / db.numColumns) (index % db.numColumns) = 1) (T : Draws (2 * t + 1)) :
    Misread aesctr p db base index T ↔
      Outvoted (fun k => nearPlus p.b (residue db (base k) (index % db.numColumns) 0)) T := by
  have hmem : ∀ c ∈ coinsOf base T, ∃ k, c = withMultiplier (base k) (T k).val := by
    intro c hc
    unfold coinsOf at hc
    obtain ⟨k, rfl⟩ := (List.mem_ofFn' _ _).mp hc
    exact ⟨k, rfl⟩
  have hrun := retrieve_of_reps aesctr p db (coinsOf base T)
    (by intro h; have := congrArg List.length h; simp [coinsOf] at this) (by simp [coinsOf]; omega)
    (fun c hc => by obtain ⟨k, rfl⟩ := hmem c hc; exact setup_with (hs k) _) index hidx hB hR hC
    (fun c hc => by obtain ⟨k, rfl⟩ := hmem c hc; exact hcol k)
  unfold Misread
  rw [hrun, h1]
  have hbit : ∀ k, honestBit p db (index / db.numColumns) (index % db.numColumns) (withMultiplier (base k) (T k).val) =
      if T k ∈ nearPlus p.b (residue db (base k) (index % db.numColumns) 0) then 0 else 1 := by
    intro k
    unfold honestBit verdict
    rw [coinT_with]
    have e : seen 32 id (word (T k)) db (withMultiplier (base k) (T k).val) (index / db.numColumns)
        (index % db.numColumns) = residue db (base k) (index % db.numColumns) 0 + word (T k) := by
      unfold seen residue
      rcases bit_cases (w := 32) (hs k).valid.bin (index / db.numColumns) (index % db.numColumns) with ⟨e, -⟩ | ⟨-, e⟩
      · omega
      · rw [e, mul_one, add_zero]
        rfl
    rw [e]
    have hir : lwe32.inRange = inRange32 := rfl
    rw [hir]
    have hm : T k ∈ nearPlus p.b (residue db (base k) (index % db.numColumns) 0) ↔
        inRange32 p.b (residue db (base k) (index % db.numColumns) 0 + word (T k)) = true := by
      unfold nearPlus
      rw [mem_filter]
      exact ⟨And.right, fun h => ⟨mem_univ _, h⟩⟩
    by_cases hin : inRange32 p.b (residue db (base k) (index % db.numColumns) 0 + word (T k)) = true
    · rw [if_pos hin, if_pos (hm.mpr hin)]
    · rw [if_neg hin, if_neg (fun h => hin (hm.mp h))]
  have hlist : (coinsOf base T).map (honestBit p db (index / db.numColumns) (index % db.numColumns)) =
      List.ofFn (fun k => if T k ∈ nearPlus p.b (residue db (base k) (index % db.numColumns) 0) then (0 : U32) else 1) := by
    unfold coinsOf
    rw [List.map_ofFn]
    exact congrArg List.ofFn (funext hbit)
  rw [hlist]
  generalize hbad : (fun k => nearPlus p.b (residue db (base k) (index % db.numColumns) 0)) = bad
  have hbk : ∀ k, nearPlus p.b (residue db (base k) (index % db.numColumns) 0) = bad k := fun k => by rw [← hbad]
  simp only [hbk]
  clear hlist hbit hbk hbad hrun
  have hcount := count_ofFn (fun k => if T k ∈ bad k then (0 : U32) else 1)
  have hsucc : List.ofFn (fun k => if T k ∈ bad k then (0 : U32) else 1) =
      (if T 0 ∈ bad 0 then (0 : U32) else 1) :: List.ofFn (fun k : Fin (2 * t) =>
        if T k.succ ∈ bad k.succ then (0 : U32) else 1) := List.ofFn_succ
  have hdec := Ecc.decode_eq (if T 0 ∈ bad 0 then (0 : U32) else 1) (List.ofFn (fun k : Fin (2 * t) =>
        if T k.succ ∈ bad k.succ then (0 : U32) else 1))
  rw [← hsucc, List.length_ofFn] at hdec
  rw [hdec, hcount]
  unfold Outvoted
  by_cases h0 : T 0 ∈ bad 0
  · simp only [h0, if_true, true_and]
    have hf : univ.filter (fun k => (if T k ∈ bad k then (0 : U32) else 1) = 0) = univ.filter (fun k => T k ∈ bad k) := by
      ext k
      simp only [mem_filter, mem_univ, true_and]
      by_cases hk : T k ∈ bad k <;> simp [hk]
    rw [hf]
    constructor
    · rintro ⟨b, hb, -⟩
      split at hb
      · omega
      · cases hb
    · intro h
      exact ⟨0, if_pos (by omega), by decide⟩
  · simp only [h0, if_false, false_and, iff_false]
    rintro ⟨b, hb, hne⟩
    split at hb
    · cases hb
      exact hne rfl
    · cases hb

/-- A misreading of the honest exchange is a forgery without deviation. -/
theorem forged_of_misread {t : Nat} (ht : 2 * t + 1 < 2 ^ 32) (aesctr : List Byte → Nat → Byte) (p : Params) (db : Db 32)
    (base : Fin (2 * t + 1) → Coins) (hs : ∀ k, Setup lwe32 aesctr p db (base k)) (index : Nat)
    (hidx : index < db.numRows * db.numColumns) (hB : 0 < p.b.toNat) (hR : 8 + 4 * db.numRows < 2 ^ 32)
    (hC : 8 + 4 * db.numColumns < 2 ^ 32)
    (hcol : ∀ k, ∀ l, l < db.numColumns →
      |columnNoise (fun r => (base k).noise.getD r 0) db.matrix db.numRows l| < p.b.toNat) (T : Draws (2 * t + 1))
    (h : Misread aesctr p db base index T) :
    Forged aesctr p db base (index / db.numColumns) (index % db.numColumns) (fun _ => 0) T := by
  have hmem : ∀ c ∈ coinsOf base T, ∃ k, c = withMultiplier (base k) (T k).val := by
    intro c hc
    unfold coinsOf at hc
    obtain ⟨k, rfl⟩ := (List.mem_ofFn' _ _).mp hc
    exact ⟨k, rfl⟩
  have hrun := retrieve_of_reps aesctr p db (coinsOf base T)
    (by intro h; have := congrArg List.length h; simp [coinsOf] at this) (by simp [coinsOf]; omega)
    (fun c hc => by obtain ⟨k, rfl⟩ := hmem c hc; exact setup_with (hs k) _) index hidx hB hR hC
    (fun c hc => by obtain ⟨k, rfl⟩ := hmem c hc; exact hcol k)
  have hC0 : 0 < db.numColumns := (hs 0).fits.2.2.1
  obtain ⟨ms, as, hm1, ha1, hl2, hl3, hq, ha2, hr⟩ := amplify_of_reps aesctr p db (index / db.numColumns)
    (index % db.numColumns) _ (coinsOf base T) (fun c hc => honest_rep aesctr p db c
      (by obtain ⟨k, rfl⟩ := hmem c hc; exact setup_with (hs k) _) _ _
      ((Nat.div_lt_iff_lt_mul hC0).mpr hidx) (Nat.mod_lt _ hC0) hB
      (by obtain ⟨k, rfl⟩ := hmem c hc; exact hcol k))
  obtain ⟨b, hb, hne⟩ := h
  rw [hrun] at hb
  refine ⟨ms, as, as, b, hm1, ha1, ?_, by rw [hr, hb], hne⟩
  intro k h a e1 e2
  rw [e1] at e2
  cases e2
  exact (BitVec.add_zero _).symm

end Verif.Lwe
