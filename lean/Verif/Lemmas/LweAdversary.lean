import Verif.Lemmas.LweCore
import Mathlib.Data.Finset.Image
import Mathlib.Order.Interval.Finset.Defs
import Mathlib.Data.Int.Interval
import Mathlib.Data.Fintype.Defs
import Mathlib.Data.Fintype.BigOperators

set_option linter.unusedSimpArgs false

namespace Verif.Lwe
open Res Verif.Matrix Verif.Utils Finset

variable {w : Nat}

theorem ofInt_sub (x y : Int) : BitVec.ofInt w (x - y) = BitVec.ofInt w x - BitVec.ofInt w y := by
  rw [sub_eq_add_neg x y, BitVec.ofInt_add, BitVec.ofInt_neg, BitVec.sub_eq_add_neg]

/-- What an accepted answer of any shape says about the queried column. -/
theorem reconstruct_ok {S : Scheme w} (p : Params) (st : State w) (ans std : Mat w) (b : U32)
    (hs : S.mul st.secret st.digest = ok std) (h : reconstruct S p st ans = ok b) :
    st.j < p.m ∧ ans.cols = std.cols ∧ ans.rows = std.rows ∧
    (∀ k, k < p.m → k < ans.data.length ∧
      (S.inRange p.b (ans.data.getD k 0 - std.data.getD k 0) = true ∨
        S.inRange p.b (ans.data.getD k 0 - std.data.getD k 0 - st.t) = true)) ∧
    b = verdict S p.b (ans.data.getD st.j 0 - std.data.getD st.j 0) := by
  unfold reconstruct at h
  rw [hs, ok_bind, Res.bind_eq_ok] at h
  obtain ⟨d, hd, h⟩ := h
  rw [Res.bind_eq_ok] at h
  obtain ⟨outs, ho, h⟩ := h
  obtain ⟨c1, c2, c3, c4, c5, c6⟩ := sub_ok ans std d hd
  obtain ⟨o1, o2⟩ := decide_ok S p.b st.t d p.m outs ho
  have hj : st.j < p.m := by
    rw [idx_eq_ok] at h
    by_contra hc
    rw [List.getElem?_eq_none (by omega)] at h
    cases h
  rw [idx_getD 0 (by omega)] at h
  simp only [ok.injEq] at h
  refine ⟨hj, c1, c2, fun k hk => ?_, ?_⟩
  · obtain ⟨a1, -, a3⟩ := o2 k hk
    rw [c5] at a1
    rw [c6 k a1] at a3
    exact ⟨a1, a3⟩
  · obtain ⟨a1, a2, -⟩ := o2 st.j hj
    rw [c5] at a1
    rw [← h, a2, c6 _ a1]

/-- Integrity, for any scheme: an accepted wrong bit needs a deviation next to plus or minus the multiplier. -/
theorem integrity {S : Scheme w} {lo hi : Int} {nz : Int → Int} (aesctr : List Byte → Nat → Byte)
    (p : Params) (G : Good S lo hi nz p.b) (db : Db w) (coins : Coins) (hs : Setup S aesctr p db coins)
    (i j : Nat) (hi' : i < db.numRows) (hj : j < db.numColumns)
    (hcol : -lo ≤ columnNoise (fun r => nz (coins.noise.getD r 0)) db.matrix db.numRows j ∧
      columnNoise (fun r => nz (coins.noise.getD r 0)) db.matrix db.numRows j ≤ hi)
    (st : State w) (q h ans : Mat w) (b : U32)
    (hq : query S aesctr p db.digest coins i j = ok (st, q)) (hh : answer S db q = ok h)
    (hr : reconstruct S p st ans = ok b) (hb : b ≠ BitVec.ofNat 32 (storedBit db.matrix i j)) :
    Within (lo + hi) (ans.entry 0 j - h.entry 0 j - coinT S coins) ∨
      Within (lo + hi) (ans.entry 0 j - h.entry 0 j + coinT S coins) := by
  obtain ⟨st', q', h', std, h1, h2, h3, h4, h5, h6, h7, -, rq, cq, wq, rh, ch, wh, rs, cs, ws, hval⟩ :=
    honest_values aesctr p G db hs.valid hs.params hs.digest hs.fits coins hs.noiseLen hs.noise i j hi'
  rw [hq] at h1
  simp only [ok.injEq, Prod.mk.injEq] at h1
  obtain ⟨rfl, rfl⟩ := h1
  rw [hh] at h2
  simp only [ok.injEq] at h2
  subst h2
  obtain ⟨-, -, -, hacc, hb'⟩ := reconstruct_ok p st ans std b h3 hr
  rw [h6] at hb'
  have hm : p.m = db.numColumns := hs.params.m
  have ha := (hacc j (by omega)).2
  have hv := hval j hj
  generalize columnNoise (fun r => nz (coins.noise.getD r 0)) db.matrix db.numRows j = x at hcol hv
  rw [← data_entry (m := ans), ← data_entry (m := std)] at ha hb'
  rw [h4] at ha
  generalize coinT S coins = t at ha hv ⊢
  generalize ans.entry 0 j = a at ha hb' ⊢
  generalize std.entry 0 j = s at ha hb' hv
  generalize h.entry 0 j = y at hv ⊢
  rcases bit_cases (w := w) hs.valid.bin i j with ⟨e1, e2⟩ | ⟨e1, e2⟩
  · rw [e1] at hb
    rw [e2, mul_zero, add_zero] at hv
    have hn : ¬ S.inRange p.b (a - s) = true := by
      intro hc
      unfold verdict at hb'
      rw [if_pos hc] at hb'
      exact hb hb'
    obtain ⟨z, hz1, hz2, hz⟩ := (G.range _).mp (ha.resolve_left hn)
    left
    refine ⟨z - x, by rw [abs_le]; omega, ?_⟩
    rw [ofInt_sub, ← hz, ← hv]
    ring
  · rw [e1] at hb
    rw [e2, mul_one] at hv
    have hn : S.inRange p.b (a - s) = true := by
      by_contra hc
      unfold verdict at hb'
      rw [if_neg hc] at hb'
      exact hb hb'
    obtain ⟨z, hz1, hz2, hz⟩ := (G.range _).mp hn
    right
    refine ⟨z - x, by rw [abs_le]; omega, ?_⟩
    have hx : BitVec.ofInt w x = y - s - t := by rw [hv]; ring
    rw [ofInt_sub, ← hz, hx]
    ring

/-- Few multipliers let a fixed deviation pass. -/
theorem near_card (d : Nat) (δ : BitVec w) (s : Finset (BitVec w))
    (h : ∀ t ∈ s, Within (d : Int) (δ - t) ∨ Within (d : Int) (δ + t)) : s.card ≤ 2 * (2 * d + 1) := by
  have hsub : s ⊆ (Finset.Icc (-(d : Int)) d).image (fun y => δ - BitVec.ofInt w y) ∪
      (Finset.Icc (-(d : Int)) d).image (fun y => BitVec.ofInt w y - δ) := by
    intro t ht
    rw [Finset.mem_union, Finset.mem_image, Finset.mem_image]
    rcases h t ht with ⟨y, h1, h2⟩ | ⟨y, h1, h2⟩
    · left
      refine ⟨y, by rw [Finset.mem_Icc]; exact abs_le.mp h1, ?_⟩
      rw [← h2]; ring
    · right
      refine ⟨y, by rw [Finset.mem_Icc]; exact abs_le.mp h1, ?_⟩
      rw [← h2]; ring
  have hc : (Finset.Icc (-(d : Int)) d).card = 2 * d + 1 := by
    rw [Int.card_Icc]; omega
  calc s.card ≤ _ := Finset.card_le_card hsub
    _ ≤ _ := Finset.card_union_le _ _
    _ ≤ (2 * d + 1) + (2 * d + 1) := by
      refine Nat.add_le_add ?_ ?_ <;> exact Finset.card_image_le.trans (le_of_eq hc)
    _ = 2 * (2 * d + 1) := by ring

/-! ### Databases made of random bytes -/

theorem bit_lt (x : Byte) (i : Nat) : ((x >>> i) &&& 1) = 0 ∨ ((x >>> i) &&& 1) = 1 := by
  have : ∀ y : Byte, (y &&& 1) = 0 ∨ (y &&& 1) = 1 := by decide
  exact this _

theorem fillBits_spec (data : List Byte) (R C : Nat) (hd : R * C ≤ data.length * 8) :
    ∃ m, fillBits data (new 8 R C) = ok m ∧ m.rows = R ∧ m.cols = C ∧ m.WellFormed ∧ m.Binary ∧
      ∀ i j, i < R → j < C → m.entry i j = (data.getD ((i * C + j) / 8) 0 >>> ((i * C + j) % 8)) &&& 1 := by
  have key : fillBits data (new 8 R C) = ok ⟨R, C, (List.range (R * C)).map
      (fun i => (data.getD (i / 8) 0 >>> (i % 8)) &&& 1)⟩ := by
    unfold fillBits
    simp only [new, List.length_replicate]
    rw [forLoop_set_all (R * C) (fun i => (data.getD (i / 8) 0 >>> (i % 8)) &&& 1) _ _ ?_ (by simp)]
    · rfl
    · intro i t hi ht
      rw [idx_getD 0 (by omega), ok_bind, if_neg]
      rcases bit_lt (data.getD (i / 8) 0) (i % 8) with h | h <;> rw [h] <;> decide
  refine ⟨_, key, rfl, rfl, by simp [Mat.WellFormed], ?_, ?_⟩
  · intro x hx
    simp only [List.mem_map] at hx
    obtain ⟨i, -, rfl⟩ := hx
    exact bit_lt _ _
  · intro i j hi hj
    unfold Mat.entry
    simp only [List.getD, List.getElem?_map, List.getElem?_range (pos_lt hi hj)]
    rfl

end Verif.Lwe
