import Verif.Spec.ReactionLwe
import Verif.Lemmas.Reaction
import Verif.Lemmas.LweAdversary

/-! # Lemmas about lying servers of the LWE schemes -/

namespace Verif.Lwe
open Res Verif.Matrix Verif.Privacy Verif.Reaction Finset Verif.Lwe.Spec

variable {w : Nat}

/-- Subtraction from a matrix with too much data. -/
theorem sub_long (a b : Mat w) (hc : a.cols = b.cols) (hr : a.rows = b.rows) (hl : b.data.length < a.data.length) :
    a.sub b = crash "index out of range" := by
  have key : forLoop a.data.length (fun i d => do
      let x ← idx d i
      let y ← idx b.data i
      setAt d i (x - y)) a.data = crash "index out of range" := by
    obtain ⟨t, ht, hlt⟩ := forLoop_inv (n := b.data.length) (s := a.data) (body := fun i d => do
      let x ← idx d i
      let y ← idx b.data i
      setAt d i (x - y)) (fun n t => t.length = a.data.length) rfl (by
        rintro n t hn h1
        refine ⟨t.set n (t.getD n 0 - b.data.getD n 0), ?_, by simpa using h1⟩
        rw [idx_getD 0 (by omega), ok_bind, idx_getD 0 (by omega), ok_bind, setAt_of_lt (by omega)])
    obtain ⟨r, hr'⟩ : ∃ r, a.data.length = b.data.length + (r + 1) := ⟨a.data.length - b.data.length - 1, by omega⟩
    rw [hr', forLoop_append, ht, ok_bind, forLoop_succ', Nat.add_zero, idx_getD 0 (by omega), ok_bind]
    unfold idx
    rw [List.getElem?_eq_none (le_refl _)]
    rfl
  unfold Mat.sub
  rw [if_neg (by simp [hc, hr]), key]
  rfl

/-- Subtraction from a matrix with too little or just enough data. -/
theorem sub_short (a b : Mat w) (hc : a.cols = b.cols) (hr : a.rows = b.rows) (hl : a.data.length ≤ b.data.length) :
    ∃ d, a.sub b = ok d := by
  obtain ⟨t, ht, -⟩ := forLoop_inv (n := a.data.length) (s := a.data) (body := fun i d => do
      let x ← idx d i
      let y ← idx b.data i
      setAt d i (x - y)) (fun n t => t.length = a.data.length) rfl (by
        rintro n t hn h1
        refine ⟨t.set n (t.getD n 0 - b.data.getD n 0), ?_, by simpa using h1⟩
        rw [idx_getD 0 (by omega), ok_bind, idx_getD 0 (by omega), ok_bind, setAt_of_lt (by omega)])
  exact ⟨_, by unfold Mat.sub; rw [if_neg (by simp [hc, hr]), ht]; rfl⟩

/-- The decision loop, without its result, when each column is fine exactly if it is near enough to the wanted one. -/
theorem loop_scan (S : Scheme w) (b : U32) (t : BitVec w) (d m : Mat w) (near : Nat → BitVec w → Bool)
    (want : Nat → BitVec w) (hlen : d.data.length = m.data.length)
    (n k : Nat) (outs : List U32) (hk : k + n ≤ outs.length)
    (h : ∀ i, k ≤ i → i < k + n → i < m.data.length →
      ((S.inRange b (d.data.getD i 0) = true ∨ S.inRange b (d.data.getD i 0 - t) = true) ↔
        near i (m.data.getD i 0 - want i) = true)) :
    ending (forLoop n (fun i outs => decide1 S b t d (k + i) outs) outs) = scan near want n k (m.data.drop k) ∧
    ∀ outs', forLoop n (fun i outs => decide1 S b t d (k + i) outs) outs = ok outs' → outs'.length = outs.length := by
  induction n generalizing k outs with
  | zero => exact ⟨rfl, by rintro _ ⟨⟩; rfl⟩
  | succ n ih =>
    rw [forLoop_succ', Nat.add_zero]
    by_cases hkm : k < m.data.length
    · rw [List.drop_eq_getElem_cons hkm]
      have e : m.data[k] = m.data.getD k 0 := by simp [List.getD, hkm]
      unfold scan
      rw [e]
      have hb : decide1 S b t d k outs = if S.inRange b (d.data.getD k 0) = true then ok (outs.set k 0) else
          if S.inRange b (d.data.getD k 0 - t) = true then ok (outs.set k 1) else err "REJECT" := by
        unfold decide1
        rw [get_of_lt d k (by omega), ok_bind, setAt_of_lt (by omega), setAt_of_lt (by omega)]
      have hiff := h k (le_refl _) (by omega) hkm
      have cont : ∀ x, ending (ok (outs.set k x) >>= forLoop n (fun i outs => decide1 S b t d (k + (i + 1)) outs)) =
          scan near want n (k + 1) (m.data.drop (k + 1)) ∧
          ∀ outs', (ok (outs.set k x) >>= forLoop n (fun i outs => decide1 S b t d (k + (i + 1)) outs)) = ok outs' →
            outs'.length = outs.length := by
        intro x
        rw [ok_bind]
        have := ih (k + 1) (outs.set k x) (by rw [List.length_set]; omega) (fun i h1 h2 h3 => h i (by omega) (by omega) h3)
        rw [List.length_set] at this
        have e : (fun i outs => decide1 S b t d (k + (i + 1)) outs) = fun i outs => decide1 S b t d (k + 1 + i) outs := by
          funext i outs
          congr 1
          omega
        rw [e]
        exact this
      rw [hb]
      by_cases h1 : S.inRange b (d.data.getD k 0) = true
      · rw [if_pos h1, if_pos (hiff.mp (Or.inl h1))]
        exact cont 0
      · rw [if_neg h1]
        by_cases h2 : S.inRange b (d.data.getD k 0 - t) = true
        · rw [if_pos h2, if_pos (hiff.mp (Or.inr h2))]
          exact cont 1
        · rw [if_neg h2, if_neg (fun hn => (hiff.mpr hn).elim h1 h2)]
          exact ⟨rfl, by rintro _ ⟨⟩⟩
    · rw [List.drop_eq_nil_of_le (by omega)]
      have hb : decide1 S b t d k outs = crash "index out of range" := by
        unfold decide1 Mat.get idx
        rw [Nat.mul_zero, Nat.zero_add, List.getElem?_eq_none (by omega)]
        rfl
      rw [hb]
      exact ⟨rfl, by rintro _ ⟨⟩⟩

/-- The query as a matrix. -/
theorem query_row {S : Scheme w} {lo hi : Int} {nz : Int → Int} (aesctr : List Byte → Nat → Byte) (p : Params)
    (G : Good S lo hi nz p.b) (dg : Mat w) (coins : Coins) (i j : Nat) (hf : FitsInt 1 p.n p.l)
    (hlen : coins.noise.length = p.l) (hno : ∀ g ∈ coins.noise, |g| ≤ 128) (hi' : i < p.l) :
    query S aesctr p dg coins i j = ok (⟨seedMatrix aesctr w S.k p.seedA p.n p.l, dg,
        ofRandom w S.k 1 p.n coins.sBytes, i, j, coinT S coins⟩,
      ⟨1, p.l, List.ofFn (shifted (secretVector S aesctr p nz coins.sBytes coins.noise) i (wordAt w S.k coins.tBytes 0))⟩) := by
  obtain ⟨q, h1, h2, h3, h4, h5⟩ := query_spec aesctr p G dg coins i j hf hlen hno hi'
  rw [h1]
  congr 2
  obtain ⟨rows, cols, data⟩ := q
  simp only at h2 h3
  subst h2 h3
  congr 1
  unfold Mat.WellFormed at h4
  simp only [Nat.one_mul] at h4
  apply List.ext_getElem (by simp [h4])
  intro r hr1 hr2
  have hr : r < p.l := by simpa using hr2
  have e := h5 r hr
  unfold Mat.entry queryEntry at e
  simp only [Nat.zero_mul, Nat.zero_add, List.getD_eq_getElem?_getD, List.getElem?_eq_getElem hr1,
    Option.getD_some] at e
  rw [e, List.getElem_ofFn]
  unfold shifted secretVector lweVector
  simp only
  congr 2
  · apply sum_congr rfl
    intro k hk
    have hk : k < p.n := mem_range.1 hk
    congr 1
    unfold ofRandom wordAt
    simp [hk]

/-- One decoding ends as a comparison of the answer with the honest one, unless the answer carries the multiplier or the
noise is too large. -/
theorem reconstruct_compare {S : Scheme w} {lo hi : Int} {nz : Int → Int} (aesctr : List Byte → Nat → Byte) (p : Params)
    (G : Good S lo hi nz p.b) (db : Db w) (coins : Coins) (hs : Setup S aesctr p db coins) (row col : Nat)
    (hrow : row < db.numRows) (hj : col < db.numColumns) (st : State w) (q h m : Mat w)
    (hq : query S aesctr p db.digest coins row col = ok (st, q)) (hh : answer S db q = ok h)
    (hno : ∀ i, i < db.numColumns → ¬ (Within (lo + hi) (m.entry 0 i - h.entry 0 i - coinT S coins) ∨
      Within (lo + hi) (m.entry 0 i - h.entry 0 i + coinT S coins)))
    (hov : ¬ Overflow lo hi nz db (range db.numColumns) coins.noise) :
    ending (reconstruct S p st m) = Spec.compare (tolerance S p.b db (fun r => nz (coins.noise.getD r 0))) h m := by
  have hm : p.m = db.numColumns := hs.params.m
  obtain ⟨st', q', h', std, h1, h2, h3, h4, h5, h6, h7, -, rq, cq, wq, rh, ch, wh, rs, cs, ws, hval⟩ :=
    honest_values aesctr p G db hs.valid hs.params hs.digest hs.fits coins hs.noiseLen hs.noise row col hrow
  rw [hq] at h1
  simp only [ok.injEq, Prod.mk.injEq] at h1
  obtain ⟨rfl, rfl⟩ := h1
  rw [hh, ok.injEq] at h2
  subst h2
  unfold reconstruct Spec.compare
  rw [h3, ok_bind, ending_bind]
  have hstdlen : std.data.length = db.numColumns := by rw [ws, rs, cs, Nat.one_mul]
  by_cases hdim : m.cols ≠ h.cols ∨ m.rows ≠ 1
  · rw [if_pos hdim]
    unfold Mat.sub
    rw [if_pos (by rw [cs, ← ch, rs]; exact hdim)]
    rfl
  · rw [if_neg hdim]
    rw [not_or, not_not, not_not] at hdim
    by_cases hlong : h.cols < m.data.length
    · rw [if_pos hlong, sub_long m std (by omega) (by omega) (by omega)]
      rfl
    · rw [if_neg hlong]
      obtain ⟨d, hd⟩ := sub_short m std (by omega) (by omega) (by omega)
      rw [hd, ok_bind, ending_bind]
      obtain ⟨-, -, -, -, c5, c6⟩ := sub_ok m std d hd
      have ls := loop_scan S p.b st.t d m (tolerance S p.b db (fun r => nz (coins.noise.getD r 0))) (h.entry 0) c5
        h.cols 0 (List.replicate p.m 0) (by rw [List.length_replicate]; omega) (by
        intro i _ hi1 hi2
        rw [Nat.zero_add, ch] at hi1
        rw [c6 i hi2, h4]
        have hvi := hval i hi1
        have hN : -lo ≤ columnNoise (fun r => nz (coins.noise.getD r 0)) db.matrix db.numRows i ∧
            columnNoise (fun r => nz (coins.noise.getD r 0)) db.matrix db.numRows i ≤ hi := by
          by_contra hc
          exact hov ⟨i, mem_range.mpr hi1, hc⟩
        have hno' : ¬ (Within (lo + hi) (m.entry 0 i - h.entry 0 i - coinT S coins) ∨
            Within (lo + hi) (m.entry 0 i - h.entry 0 i + coinT S coins)) := by
          intro hc
          exact hno i hi1 hc
        unfold tolerance
        rw [← data_entry (m := m), ← data_entry (m := std)]
        generalize columnNoise (fun r => nz (coins.noise.getD r 0)) db.matrix db.numRows i = x at hN hvi ⊢
        generalize coinT S coins = t at hvi hno' ⊢
        generalize m.entry 0 i = a at hno' ⊢
        generalize std.entry 0 i = s at hvi ⊢
        generalize h.entry 0 i = y at hvi hno' ⊢
        rcases bit_cases (w := w) hs.valid.bin (row) i with ⟨-, e2⟩ | ⟨-, e2⟩
        · rw [e2, mul_zero, add_zero] at hvi
          rw [show BitVec.ofInt w x + (a - y) = a - s by rw [← hvi]; ring]
          constructor
          · rintro (hc | hc)
            · exact hc
            · exfalso
              obtain ⟨z, hz1, hz2, hz⟩ := (G.range _).mp hc
              apply hno'
              left
              refine ⟨z - x, by rw [abs_le]; omega, ?_⟩
              rw [ofInt_sub, ← hz, ← hvi]
              ring
          · exact Or.inl
        · rw [e2, mul_one] at hvi
          have hx : BitVec.ofInt w x = y - s - t := by rw [hvi]; ring
          rw [show BitVec.ofInt w x + (a - y) = a - s - t by rw [hx]; ring]
          constructor
          · rintro (hc | hc)
            · exfalso
              obtain ⟨z, hz1, hz2, hz⟩ := (G.range _).mp hc
              apply hno'
              right
              refine ⟨z - x, by rw [abs_le]; omega, ?_⟩
              rw [ofInt_sub, ← hz, hx]
              ring
            · exact hc
          · exact Or.inr)
      obtain ⟨ls1, ls2⟩ := ls
      simp only [Nat.zero_add, List.drop_zero, List.length_replicate] at ls1 ls2
      rw [show p.m = h.cols by omega] at ls1 ls2 ⊢
      rw [← ls1]
      cases hloop : forLoop h.cols (fun i outs => decide1 S p.b st.t d i outs) (List.replicate h.cols 0) with
      | err e => rfl
      | crash e => rfl
      | ok outs =>
        rw [ok_bind, h6, idx_getD 0 (by rw [ls2 _ hloop]; omega)]
        rfl

/-- The client ends as if it compared the answer with the honest one, unless the server has found the multiplier or the
noise is too large. -/
theorem reaction_eq {S : Scheme w} {lo hi : Int} {nz : Int → Int} (aesctr : List Byte → Nat → Byte) (p : Params)
    (G : Good S lo hi nz p.b) (db : Db w) (coins : Coins) (hs : Setup S aesctr p db coins)
    (F : List Byte → Res (List Byte)) (index : Nat) (hidx : index < db.numRows * db.numColumns)
    (v : Fin p.l → BitVec w)
    (hv : v = shifted (secretVector S aesctr p nz coins.sBytes coins.noise) (index / db.numColumns)
      (wordAt w S.k coins.tBytes 0))
    (hno : ¬ Hits S db F (lo + hi) (range db.numColumns) v (wordAt w S.k coins.tBytes 0))
    (hov : ¬ Overflow lo hi nz db (range db.numColumns) coins.noise) :
    view S aesctr p db F index coins =
      (rowMessage S.toBytes v, expected S db F v (tolerance S p.b db (fun r => nz (coins.noise.getD r 0)))) := by
  have hnc : 0 < db.numColumns := by
    rcases Nat.eq_zero_or_pos db.numColumns with h | h
    · rw [h] at hidx; omega
    · exact h
  have hrow : index / db.numColumns < db.numRows := by
    rw [Nat.div_lt_iff_lt_mul hnc]; exact hidx
  have hj := Nat.mod_lt index hnc
  have hl : p.l = db.numRows := hs.params.l
  have hm : p.m = db.numColumns := hs.params.m
  obtain ⟨f1, -, -⟩ := fits_1nl hs.fits
  have hqr := query_row aesctr p G db.digest coins (index / db.numColumns) (index % db.numColumns) (by rw [hl]; exact f1)
    (by rw [hl]; exact hs.noiseLen) hs.noise (by omega)
  rw [← hv] at hqr
  obtain ⟨st, q, h, std, h1, h2, h3, h4, h5, h6, h7, -, rq, cq, wq, rh, ch, wh, rs, cs, ws, hval⟩ :=
    honest_values aesctr p G db hs.valid hs.params hs.digest hs.fits coins hs.noiseLen hs.noise (index / db.numColumns)
      (index % db.numColumns) hrow
  have hqr' := hqr
  rw [h1] at hqr'
  simp only [ok.injEq, Prod.mk.injEq] at hqr'
  obtain ⟨-, hq⟩ := hqr'
  rw [hq] at h2
  obtain ⟨qb, hqb⟩ := G.enc q
  have hview : view S aesctr p db F index coins = (ok qb, ending (F qb >>= reconstructBytes S p st)) := by
    unfold view queryBytes
    rw [if_neg (by omega), h1, ok_bind]
    dsimp only
    rw [hqb, ok_bind]
  have hmsg : rowMessage S.toBytes v = ok qb := by
    unfold rowMessage
    rw [← hq]; exact hqb
  rw [hview, hmsg]
  congr 1
  unfold expected
  rw [hmsg, ok_bind, ending_bind]
  cases hF : F qb with
  | err m => rfl
  | crash m => rfl
  | ok a =>
    rw [ok_bind, ok_bind]
    unfold reconstructBytes
    rw [ending_bind]
    cases ha : S.ofBytes a with
    | err m => rfl
    | crash m => rfl
    | ok m =>
      rw [ok_bind, ok_bind, h2, ok_bind]
      exact reconstruct_compare aesctr p G db coins hs _ _ hrow hj st q h m h1 (by rw [hq]; exact h2)
        (fun i hi1 hc => hno ⟨qb, a, m, h, hmsg, hF, ha, h2, i, mem_range.mpr hi1, hc⟩) hov

/-! ### Probabilities -/

/-- Replacing `s A + e` with a uniform vector, when the noise is used otherwise, too. -/
theorem hop_hint {Ω T H : Type} [Fintype Ω] [Fintype T] {l : Nat} (v : Ω → Fin l → BitVec w) (hint : Ω → H) (y : Nat)
    (z : T → BitVec w) (f : (Fin l → BitVec w) → BitVec w → H → ℚ) :
    |avg (fun x : T × Ω => f (shifted (v x.2) y (z x.1)) (z x.1) (hint x.2)) -
        avg (fun x : T × (Fin l → BitVec w) × Ω => f x.2.1 (z x.1) (hint x.2.2))| =
      advantage (fun ω => (v ω, hint ω)) (fun x : (Fin l → BitVec w) × Ω => (x.1, hint x.2))
        (fun u => avg (fun τ => f (shifted u.1 y (z τ)) (z τ) u.2)) := by
  unfold advantage
  congr 1
  congr 1
  · rw [avg_prod]
  · rw [avg_prod']
    have : avg (fun x : (Fin l → BitVec w) × Ω => avg (fun τ => f (shifted x.1 y (z τ)) (z τ) (hint x.2))) =
        avg (fun τ => avg (fun x : (Fin l → BitVec w) × Ω => f (shifted x.1 y (z τ)) (z τ) (hint x.2))) := by
      exact (avg_prod (fun x : T × (Fin l → BitVec w) × Ω =>
        f (shifted x.2.1 y (z x.1)) (z x.1) (hint x.2.2))).symm.trans (avg_prod' _)
    rw [this]
    apply avg_congr
    intro τ
    rw [avg_prod, avg_prod]
    apply avg_congr
    intro ω
    exact (avg_equiv (shiftEquiv y (z τ)) (fun u => f u (z τ) (hint ω))).symm

/-- The chance that a random multiplier is near a given word or its negative. -/
theorem near_chance {T : Type} [Fintype T] (t : T → BitVec w) (ε : ℚ) (hε : Spread t ε) (d : Nat) (δ : BitVec w) :
    avg (fun τ => indicator (Within (d : Int) (δ - t τ) ∨ Within (d : Int) (δ + t τ))) ≤ 2 * (2 * d + 1) * ε := by
  have key : ∀ τ : T, indicator (Within (d : Int) (δ - t τ) ∨ Within (d : Int) (δ + t τ)) ≤
      ∑ y ∈ Finset.Icc (-(d : Int)) d, (indicator (t τ = δ - BitVec.ofInt w y) + indicator (t τ = BitVec.ofInt w y - δ)) := by
    intro τ
    refine le_trans (le_trans (indicator_mono ?_) (indicator_exists (Finset.Icc (-(d : Int)) d)
      (fun y => t τ = δ - BitVec.ofInt w y ∨ t τ = BitVec.ofInt w y - δ)))
      (Finset.sum_le_sum fun y _ => indicator_or _ _)
    rintro (⟨y, h1, h2⟩ | ⟨y, h1, h2⟩)
    · exact ⟨y, by rw [Finset.mem_Icc]; exact abs_le.mp h1, Or.inl (by rw [← h2]; ring)⟩
    · exact ⟨y, by rw [Finset.mem_Icc]; exact abs_le.mp h1, Or.inr (by rw [← h2]; ring)⟩
  refine le_trans (avg_mono key) ?_
  rw [avg_sum]
  refine le_trans (Finset.sum_le_card_nsmul _ _ (ε + ε) ?_) ?_
  · intro y _
    rw [← avg_add]
    exact add_le_add (hε _) (hε _)
  · have hc : (Finset.Icc (-(d : Int)) d).card = 2 * d + 1 := by
      rw [Int.card_Icc]; omega
    rw [hc, nsmul_eq_mul]
    push_cast
    linarith

/-- The probability of finding the multiplier added to a uniform vector. -/
theorem hits_uniform {T : Type} [Fintype T] (S : Scheme w) (db : Db w) (F : List Byte → Res (List Byte)) (d : Nat)
    (ks : Finset Nat) {l : Nat} (t : T → BitVec w) (ε : ℚ) (hε : Spread t ε) :
    avg (fun x : T × (Fin l → BitVec w) => indicator (Hits S db F d ks x.2 (t x.1))) ≤ ks.card * (2 * (2 * d + 1) * ε) := by
  rw [avg_prod]
  apply avg_le
  intro v
  have hε0 : 0 ≤ ε := le_trans (avg_nonneg (fun τ => indicator_nonneg _)) (hε 0)
  by_cases hF : ∃ q a m h, rowMessage S.toBytes v = ok q ∧ F q = ok a ∧ S.ofBytes a = ok m ∧
    answer S db ⟨1, l, List.ofFn v⟩ = ok h
  · obtain ⟨q, a, m, h, h1, h2, h3, h4⟩ := hF
    have key : ∀ τ : T, indicator (Hits S db F d ks v (t τ)) ≤
        ∑ k ∈ ks, indicator (Within (d : Int) (m.entry 0 k - h.entry 0 k - t τ) ∨
          Within (d : Int) (m.entry 0 k - h.entry 0 k + t τ)) := by
      intro τ
      refine le_trans (indicator_mono ?_) (indicator_exists ks (fun k =>
        Within (d : Int) (m.entry 0 k - h.entry 0 k - t τ) ∨ Within (d : Int) (m.entry 0 k - h.entry 0 k + t τ)))
      rintro ⟨q', a', m', h', e1, e2, e3, e4, hk⟩
      rw [h1, ok.injEq] at e1
      subst e1
      rw [h2, ok.injEq] at e2
      subst e2
      rw [h3, ok.injEq] at e3
      subst e3
      rw [h4, ok.injEq] at e4
      subst e4
      exact hk
    refine le_trans (avg_mono key) ?_
    rw [avg_sum]
    refine le_trans (Finset.sum_le_card_nsmul _ _ _ (fun k _ => near_chance t ε hε d _)) ?_
    rw [nsmul_eq_mul]
  · rw [show (fun τ : T => indicator (Hits S db F d ks v (t τ))) = fun _ => (0 : ℚ) from by
      funext τ
      exact indicator_false (fun ⟨q, a, m, h, h1, h2, h3, h4, _⟩ => hF ⟨q, a, m, h, h1, h2, h3, h4⟩)]
    unfold avg
    simp only [sum_const_zero, zero_div]
    positivity

/-- The server finds the multiplier with a probability of at most the advantage of a test for the LWE problem, plus the
chance of guessing it. -/
theorem hits_bound {Ω T : Type} [Fintype Ω] [Fintype T] (S : Scheme w) (db : Db w) (F : List Byte → Res (List Byte)) (d : Nat)
    (ks : Finset Nat) {l : Nat} (v : Ω → Fin l → BitVec w) (t : T → BitVec w) (ε : ℚ) (hε : Spread t ε) (i : Nat) :
    avg (fun x : T × Ω => indicator (Hits S db F d ks (shifted (v x.2) i (t x.1)) (t x.1))) ≤
      lweGap v (hitTest S db F d ks t i) + ks.card * (2 * (2 * d + 1) * ε) := by
  have h := hop v i t (fun u z => indicator (Hits S db F d ks u z))
  have h' := le_of_abs_sub (le_of_eq h)
  have hu := hits_uniform S db F d ks (l := l) t ε hε
  have e : advantage v id (fun u => avg (fun τ => indicator (Hits S db F d ks (shifted u i (t τ)) (t τ)))) =
      lweGap v (hitTest S db F d ks t i) := rfl
  rw [e] at h'
  linarith

end Verif.Lwe
