import Verif.Spec.Lwe
import Verif.Props.Matrix
import Verif.Lemmas.Rand

set_option linter.unusedSimpArgs false

namespace Verif.Lwe
open Res Verif.Matrix Verif.Utils Finset

variable {w : Nat}

/-! ### Sums and matrices -/

theorem pos_lt {i j r c : Nat} (hi : i < r) (hj : j < c) : i * c + j < r * c := by
  calc i * c + j < i * c + c := by omega
    _ = (i + 1) * c := by ring
    _ ≤ r * c := Nat.mul_le_mul_right c hi

theorem add_spec (a b : Mat w) (hc : a.cols = b.cols) (hr : a.rows = b.rows)
    (ha : a.WellFormed) (hb : b.WellFormed) :
    ∃ c, a.add b = ok c ∧ c.rows = a.rows ∧ c.cols = a.cols ∧ c.WellFormed ∧
      ∀ i j, i < a.rows → j < a.cols → c.entry i j = a.entry i j + b.entry i j := by
  have hlen : a.data.length = b.data.length := by rw [ha, hb, hc, hr]
  have key : ∃ t, forLoop a.data.length (fun i d => do
      let x ← idx d i
      let y ← idx b.data i
      setAt d i (x + y)) a.data = ok t ∧ (t.length = a.data.length ∧
        ∀ p, t.getD p 0 = if p < a.data.length then a.data.getD p 0 + b.data.getD p 0
          else a.data.getD p 0) := by
    refine forLoop_inv (n := a.data.length) (s := a.data) (body := fun i d => do
      let x ← idx d i
      let y ← idx b.data i
      setAt d i (x + y)) (fun n t => t.length = a.data.length ∧
        ∀ p, t.getD p 0 = if p < n then a.data.getD p 0 + b.data.getD p 0
          else a.data.getD p 0) ⟨rfl, fun p => by simp⟩ ?_
    rintro n t hn ⟨h1, h2⟩
    refine ⟨t.set n (t.getD n 0 + b.data.getD n 0), ?_, by simpa using h1, fun p => ?_⟩
    · rw [idx_getD 0 (by omega), ok_bind, idx_getD 0 (by omega), ok_bind, setAt_of_lt (by omega)]
    · rw [getD_set _ _ _ _ (by omega)]
      by_cases hp : p = n
      · subst hp
        rw [if_pos rfl, if_pos (by omega), h2, if_neg (by omega)]
      · rw [if_neg hp, h2]
        by_cases hp' : p < n
        · rw [if_pos hp', if_pos (by omega)]
        · rw [if_neg hp', if_neg (by omega)]
  obtain ⟨t, ht, hl, hp⟩ := key
  refine ⟨⟨a.rows, a.cols, t⟩, ?_, rfl, rfl, ?_, ?_⟩
  · unfold Mat.add
    rw [if_neg (by simp [hc, hr]), ht]
    rfl
  · show t.length = a.rows * a.cols
    rw [hl, ha]
  · intro i j hi hj
    unfold Mat.entry
    have := pos_lt hi hj
    rw [← hc, hp, if_pos (by rw [ha]; exact this)]

/-- What a returned difference contains, for operands of any shape. -/
theorem sub_ok (a b d : Mat w) (h : a.sub b = ok d) :
    a.cols = b.cols ∧ a.rows = b.rows ∧ d.rows = a.rows ∧ d.cols = a.cols ∧
      d.data.length = a.data.length ∧
      ∀ p, p < a.data.length → d.data.getD p 0 = a.data.getD p 0 - b.data.getD p 0 := by
  unfold Mat.sub at h
  by_cases hd : a.cols ≠ b.cols ∨ a.rows ≠ b.rows
  · rw [if_pos hd] at h; cases h
  rw [if_neg hd] at h
  rw [Res.bind_eq_ok] at h
  obtain ⟨t, ht, h⟩ := h
  simp only [ok.injEq] at h
  subst h
  have key := forLoop_inv_ok (fun n t => t.length = a.data.length ∧
        ∀ p, t.getD p 0 = if p < n then a.data.getD p 0 - b.data.getD p 0
          else a.data.getD p 0) ⟨rfl, fun p => by simp⟩ ?_ ht
  · obtain ⟨h1, h2⟩ := key
    refine ⟨by tauto, by tauto, rfl, rfl, h1, fun p hp => ?_⟩
    have := h2 p
    rw [if_pos hp] at this
    exact this
  · rintro n t t' hn ⟨h1, h2⟩ hb
    rw [idx_getD 0 (by omega), ok_bind, Res.bind_eq_ok] at hb
    obtain ⟨y, hy, hb⟩ := hb
    rw [setAt_of_lt (by omega)] at hb
    simp only [ok.injEq] at hb
    subst hb
    have hy' : b.data.getD n 0 = y := by
      rw [idx_eq_ok] at hy
      simp [List.getD, hy]
    refine ⟨by simpa using h1, fun p => ?_⟩
    rw [getD_set _ _ _ _ (by omega)]
    by_cases hp : p = n
    · subst hp
      rw [if_pos rfl, if_pos (by omega), h2, if_neg (by omega), hy']
    · rw [if_neg hp, h2]
      by_cases hp' : p < n
      · rw [if_pos hp', if_pos (by omega)]
      · rw [if_neg hp', if_neg (by omega)]

/-- Subtraction of well-formed matrices of equal dimensions succeeds. -/
theorem sub_spec (a b : Mat w) (hc : a.cols = b.cols) (hr : a.rows = b.rows)
    (ha : a.WellFormed) (hb : b.WellFormed) :
    ∃ d, a.sub b = ok d ∧ d.rows = a.rows ∧ d.cols = a.cols ∧ d.WellFormed ∧
      ∀ i j, i < a.rows → j < a.cols → d.entry i j = a.entry i j - b.entry i j := by
  have hlen : a.data.length = b.data.length := by rw [ha, hb, hc, hr]
  have key : ∃ t, forLoop a.data.length (fun i d => do
      let x ← idx d i
      let y ← idx b.data i
      setAt d i (x - y)) a.data = ok t ∧ t.length = a.data.length := by
    refine forLoop_inv (n := a.data.length) (s := a.data) (body := fun i d => do
      let x ← idx d i
      let y ← idx b.data i
      setAt d i (x - y)) (fun n t => t.length = a.data.length) rfl ?_
    rintro n t hn h1
    refine ⟨t.set n (t.getD n 0 - b.data.getD n 0), ?_, by simpa using h1⟩
    rw [idx_getD 0 (by omega), ok_bind, idx_getD 0 (by omega), ok_bind, setAt_of_lt (by omega)]
  obtain ⟨t, ht, hl⟩ := key
  have hs : a.sub b = ok ⟨a.rows, a.cols, t⟩ := by
    unfold Mat.sub
    rw [if_neg (by simp [hc, hr]), ht]
    rfl
  obtain ⟨-, -, -, -, h5, h6⟩ := sub_ok a b _ hs
  refine ⟨_, hs, rfl, rfl, ?_, ?_⟩
  · show t.length = a.rows * a.cols
    rw [hl, ha]
  · intro i j hi hj
    have := h6 (i * a.cols + j) (by rw [ha]; exact pos_lt hi hj)
    unfold Mat.entry
    rw [this, hc]

theorem ofRandom_wf (k r c : Nat) (b : List Byte) : (ofRandom w k r c b).WellFormed := by
  simp [ofRandom, Mat.WellFormed]

theorem seedMatrix_wf (aesctr : List Byte → Nat → Byte) (k : Nat) (seed : List Byte) (r c : Nat) :
    (seedMatrix aesctr w k seed r c).WellFormed := ofRandom_wf k r c _

/-! ### The unit message -/

theorem msg_spec (l i : Nat) (t : BitVec w) (hi : i < l) :
    ∃ m, (new w 1 l).set 0 i t = ok m ∧ m.rows = 1 ∧ m.cols = l ∧ m.WellFormed ∧
      ∀ r, r < l → m.entry 0 r = if r = i then t else 0 := by
  refine ⟨⟨1, l, (List.replicate (1 * l) 0).set i t⟩, ?_, rfl, rfl, by simp [Mat.WellFormed], ?_⟩
  · unfold Mat.set
    simp only [new]
    rw [Nat.mul_zero, Nat.zero_add, setAt_of_lt (by simpa using hi)]
    rfl
  · intro r hr
    unfold Mat.entry
    simp only [Nat.zero_mul, Nat.zero_add]
    rw [getD_set _ _ _ _ (by simpa using hi)]
    by_cases h : r = i
    · rw [if_pos h, if_pos h]
    · rw [if_neg h, if_neg h, getD_zeros]

/-! ### What the proofs need of a scheme -/

/-- Facts about the operations of a scheme: `lo`, `hi` are the ends of the acceptance interval for bound `b`,
`nz g` is the integer the noise encoding of `g` stands for. -/
structure Good (S : Scheme w) (lo hi : Int) (nz : Int → Int) (b : U32) : Prop where
  mul : ∀ x y : Mat w, x.WellFormed → y.WellFormed → x.cols = y.rows → FitsInt x.rows x.cols y.cols →
    ∃ c, S.mul x y = ok c ∧ c.rows = x.rows ∧ c.cols = y.cols ∧ c.WellFormed ∧
      IsProduct x.rows x.cols y.cols x.entry y.entry c.entry
  bin : ∀ (x : Mat w) (y : Mat 8), x.WellFormed → y.WellFormed → y.Binary → x.cols = y.rows →
    FitsInt x.rows x.cols y.cols →
    ∃ c, S.binMul x y = ok c ∧ c.rows = x.rows ∧ c.cols = y.cols ∧ c.WellFormed ∧
      IsProduct x.rows x.cols y.cols x.entry (bitAs w y) c.entry
  gauss : ∀ g : Int, |g| ≤ 128 → S.gauss g = BitVec.ofInt w (nz g)
  wire : ∀ m : Mat w, m.rows < 2 ^ 32 → m.cols < 2 ^ 32 → (S.toBytes m >>= S.ofBytes) = ok m
  enc : ∀ m : Mat w, ∃ bs, S.toBytes m = ok bs
  range : ∀ v : BitVec w, S.inRange b v = true ↔ ∃ x : Int, -lo ≤ x ∧ x ≤ hi ∧ v = BitVec.ofInt w x

theorem range32 (b : U32) (hb : 0 < b.toNat) (v : U32) :
    inRange32 b v = true ↔ ∃ x : Int, -((b.toNat : Int) - 1) ≤ x ∧ x ≤ (b.toNat : Int) - 1 ∧ v = BitVec.ofInt 32 x := by
  have hbl := b.isLt
  have hvl := v.isLt
  have hneg : (-b).toNat = 2 ^ 32 - b.toNat := by
    rw [BitVec.toNat_neg]; omega
  unfold inRange32
  rw [Bool.or_eq_true, decide_eq_true_iff, decide_eq_true_iff, hneg]
  constructor
  · rintro (h | h)
    · refine ⟨v.toNat, by omega, by omega, ?_⟩
      apply BitVec.eq_of_toNat_eq
      rw [BitVec.toNat_ofInt]
      omega
    · refine ⟨(v.toNat : Int) - 2 ^ 32, by omega, by omega, ?_⟩
      apply BitVec.eq_of_toNat_eq
      rw [BitVec.toNat_ofInt]
      omega
  · rintro ⟨x, h1, h2, h3⟩
    have h4 := congrArg BitVec.toNat h3
    rw [BitVec.toNat_ofInt] at h4
    omega

theorem range128 (b : U32) (hb : b.toNat < 2 ^ 32 - 1) (v : U128) :
    inRange128 b v = true ↔ ∃ x : Int, -((b.toNat : Int) + 1) ≤ x ∧ x ≤ (b.toNat : Int) - 1 ∧
      v = BitVec.ofInt 128 x := by
  have hvl := v.isLt
  have hb1 : (b + 1).toNat = b.toNat + 1 := by
    rw [BitVec.toNat_add, show (1 : U32).toNat = 1 from rfl]; omega
  unfold inRange128
  simp only [hb1]
  rw [Bool.or_eq_true, decide_eq_true_iff, decide_eq_true_iff]
  constructor
  · rintro (h | h)
    · refine ⟨v.toNat, by omega, by omega, ?_⟩
      apply BitVec.eq_of_toNat_eq
      rw [BitVec.toNat_ofInt]
      omega
    · refine ⟨(v.toNat : Int) - 2 ^ 128, by omega, by omega, ?_⟩
      apply BitVec.eq_of_toNat_eq
      rw [BitVec.toNat_ofInt]
      omega
  · rintro ⟨x, h1, h2, h3⟩
    have h4 := congrArg BitVec.toNat h3
    rw [BitVec.toNat_ofInt] at h4
    omega

theorem good32 (b : U32) (hb : 0 < b.toNat) :
    Good lwe32 ((b.toNat : Int) - 1) ((b.toNat : Int) - 1) id b where
  mul x y hx hy h hf := C36_mul_partial x y hx hy h hf
  bin x y hx hy hb h hf := C36_binaryMul_partial x y hx hy hb h hf
  gauss _ _ := rfl
  wire m hr hc := C37_matrix_round_trip m hr hc
  enc m := ⟨_, matrixToBytes_eq m⟩
  range v := range32 b hb v

theorem good128 (b : U32) (hb : b.toNat < 2 ^ 32 - 1) :
    Good lwe128 ((b.toNat : Int) + 1) ((b.toNat : Int) - 1) noise128 b where
  mul x y hx hy h hf := C36_mul128_partial x y hx hy h hf
  bin x y hx hy hb h hf := C36_binaryMul128_partial x y hx hy hb h hf
  gauss g h := (C38_encodings g h).2
  wire m hr hc := C37_matrix128_round_trip m hr hc
  enc m := ⟨_, matrix128ToBytes_eq m⟩
  range v := range128 b hb v

/-! ### The decision loop -/

/-- The bit column value `v` is read as. -/
def verdict (S : Scheme w) (b : U32) (v : BitVec w) : U32 := if S.inRange b v = true then 0 else 1

theorem get_of_lt (d : Mat w) (i : Nat) (h : i < d.data.length) : d.get 0 i = ok (d.data.getD i 0) := by
  unfold Mat.get
  rw [Nat.mul_zero, Nat.zero_add]
  exact idx_getD 0 h

theorem decide_spec (S : Scheme w) (b : U32) (t : BitVec w) (d : Mat w) (m : Nat) (hl : m ≤ d.data.length)
    (hacc : ∀ k, k < m → S.inRange b (d.data.getD k 0) = true ∨ S.inRange b (d.data.getD k 0 - t) = true) :
    ∃ outs, forLoop m (fun i outs => decide1 S b t d i outs) (List.replicate m 0) = ok outs ∧
      outs.length = m ∧ ∀ k, k < m → outs.getD k 0 = verdict S b (d.data.getD k 0) := by
  obtain ⟨outs, h1, h2, h3⟩ := forLoop_inv (n := m) (body := fun i outs => decide1 S b t d i outs)
    (s := List.replicate m 0)
    (fun i outs => outs.length = m ∧ ∀ k, k < i → outs.getD k 0 = verdict S b (d.data.getD k 0))
    ⟨by simp, fun k hk => by omega⟩ (by
      rintro i outs hi ⟨h1, h2⟩
      refine ⟨outs.set i (verdict S b (d.data.getD i 0)), ?_, by simpa using h1, ?_⟩
      · unfold decide1 verdict
        rw [get_of_lt d i (by omega), ok_bind]
        by_cases hr : S.inRange b (d.data.getD i 0) = true
        · rw [if_pos hr, if_pos hr, setAt_of_lt (by omega)]
        · rw [if_neg hr, if_neg hr, if_pos ((hacc i hi).resolve_left hr), setAt_of_lt (by omega)]
      · intro k hk
        rw [getD_set _ _ _ _ (by omega)]
        by_cases hki : k = i
        · rw [if_pos hki, hki]
        · rw [if_neg hki]; exact h2 k (by omega))
  exact ⟨outs, h1, h2, h3⟩

theorem decide_ok (S : Scheme w) (b : U32) (t : BitVec w) (d : Mat w) (m : Nat) (outs : List U32)
    (h : forLoop m (fun i outs => decide1 S b t d i outs) (List.replicate m 0) = ok outs) :
    outs.length = m ∧ ∀ k, k < m → k < d.data.length ∧ outs.getD k 0 = verdict S b (d.data.getD k 0) ∧
      (S.inRange b (d.data.getD k 0) = true ∨ S.inRange b (d.data.getD k 0 - t) = true) := by
  refine forLoop_inv_ok (fun i outs => outs.length = m ∧ ∀ k, k < i → k < d.data.length ∧
      outs.getD k 0 = verdict S b (d.data.getD k 0) ∧
      (S.inRange b (d.data.getD k 0) = true ∨ S.inRange b (d.data.getD k 0 - t) = true))
    ⟨by simp, fun k hk => by omega⟩ ?_ h
  rintro i outs outs' hi ⟨h1, h2⟩ hb
  unfold decide1 at hb
  rw [Res.bind_eq_ok] at hb
  obtain ⟨v, hv, hb⟩ := hb
  have hlen : i < d.data.length := by
    unfold Mat.get at hv
    rw [Nat.mul_zero, Nat.zero_add, idx_eq_ok] at hv
    by_contra hc
    rw [List.getElem?_eq_none (by omega)] at hv
    cases hv
  rw [get_of_lt d i hlen] at hv
  simp only [ok.injEq] at hv
  subst hv
  have step : ∀ x, outs' = outs.set i x → x = verdict S b (d.data.getD i 0) →
      (S.inRange b (d.data.getD i 0) = true ∨ S.inRange b (d.data.getD i 0 - t) = true) →
      outs'.length = m ∧ ∀ k, k < i + 1 → k < d.data.length ∧
      outs'.getD k 0 = verdict S b (d.data.getD k 0) ∧
      (S.inRange b (d.data.getD k 0) = true ∨ S.inRange b (d.data.getD k 0 - t) = true) := by
    intro x hx hx' hor
    subst hx
    refine ⟨by simpa using h1, fun k hk => ?_⟩
    rw [getD_set _ _ _ _ (by omega)]
    by_cases hki : k = i
    · subst hki
      rw [if_pos rfl]
      exact ⟨hlen, hx', hor⟩
    · rw [if_neg hki]
      exact h2 k (by omega)
  by_cases hr : S.inRange b (d.data.getD i 0) = true
  · rw [if_pos hr, setAt_of_lt (by omega)] at hb
    simp only [ok.injEq] at hb
    exact step 0 hb.symm (by unfold verdict; rw [if_pos hr]) (Or.inl hr)
  · rw [if_neg hr] at hb
    by_cases hr' : S.inRange b (d.data.getD i 0 - t) = true
    · rw [if_pos hr', setAt_of_lt (by omega)] at hb
      simp only [ok.injEq] at hb
      exact step 1 hb.symm (by unfold verdict; rw [if_neg hr]) (Or.inr hr')
    · rw [if_neg hr'] at hb
      cases hb

end Verif.Lwe
