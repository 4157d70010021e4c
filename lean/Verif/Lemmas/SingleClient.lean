import Verif.Spec.SingleClient
import Verif.Lemmas.SingleAnswer

/-! # Lemmas on the single-server clients with arbitrary answers -/

namespace Verif.Lwe
open Res Verif.Matrix Verif.Utils Verif.Lwe.Spec Finset

/-- A loop whose first `m` iterations go through ends with what iteration `m` gives if this is no state. -/
theorem loop_first {σ : Type} {n m : Nat} {body : Nat → σ → Res σ} {s : σ} (hm : m < n) (Inv : Nat → σ → Prop) (h0 : Inv 0 s)
    (hok : ∀ i t, i < m → Inv i t → ∃ t', body i t = ok t' ∧ Inv (i + 1) t') :
    ∃ t, Inv m t ∧ (∀ e, body m t = err e → forLoop n body s = err e) ∧
      (∀ e, body m t = crash e → forLoop n body s = crash e) := by
  obtain ⟨t, ht, hI⟩ := forLoop_inv (n := m) (body := body) (s := s) Inv h0 hok
  refine ⟨t, hI, ?_⟩
  obtain ⟨k, rfl⟩ : ∃ k, n = m + 1 + k := ⟨n - (m + 1), by omega⟩
  have hs : forLoop (m + 1) body s = body m t := by rw [forLoop_succ, ht, ok_bind]
  clear hm
  induction k with
  | zero =>
    rw [Nat.add_zero, hs]
    exact ⟨fun e he => he, fun e he => he⟩
  | succ k ih =>
    rw [show m + 1 + (k + 1) = (m + 1 + k) + 1 by omega, forLoop_succ]
    refine ⟨fun e he => by rw [ih.1 e he, err_bind], fun e he => by rw [ih.2 e he, crash_bind]⟩

/-- Subtracting from a matrix that may have fewer entries than announced. -/
theorem sub_within {w : Nat} (a b : Mat w) (hc : a.cols = b.cols) (hr : a.rows = b.rows)
    (hl : a.data.length ≤ b.data.length) :
    ∃ d, a.sub b = ok d ∧ d.cols = a.cols ∧ d.data.length = a.data.length ∧
      ∀ p, p < a.data.length → d.data.getD p 0 = a.data.getD p 0 - b.data.getD p 0 := by
  obtain ⟨t, ht, -⟩ : ∃ t, forLoop a.data.length (fun i d => do
      let x ← idx d i
      let y ← idx b.data i
      setAt d i (x - y)) a.data = ok t ∧ t.length = a.data.length := by
    refine forLoop_inv (n := a.data.length) (s := a.data) (body := fun i d => do
      let x ← idx d i
      let y ← idx b.data i
      setAt d i (x - y)) (fun n t => t.length = a.data.length) rfl ?_
    rintro n t hn h1
    refine ⟨t.set n (t.getD n 0 - b.data.getD n 0), ?_, by simpa using h1⟩
    rw [idx_getD 0 (by omega), ok_bind, idx_getD 0 (by omega), ok_bind, setAt_of_lt (by omega)]
  have hs : a.sub b = ok ⟨a.rows, a.cols, t⟩ := by
    unfold Mat.sub
    rw [if_neg (by simp [hc, hr]), ht]
    rfl
  obtain ⟨-, -, -, -, h5, h6⟩ := sub_ok a b _ hs
  exact ⟨_, hs, rfl, h5, h6⟩

/-- Subtracting from a matrix with more entries panics. -/
theorem sub_overlong {w : Nat} (a b : Mat w) (hl : b.data.length < a.data.length) : (a.sub b).isCrash := by
  unfold Mat.sub
  split
  · trivial
  rw [isCrash_bind]
  left
  obtain ⟨t, ht, -, h2⟩ := loop_first (n := a.data.length) (s := a.data) (body := fun i d => do
      let x ← idx d i
      let y ← idx b.data i
      setAt d i (x - y)) hl (fun n t => t.length = a.data.length) rfl (by
    rintro n t hn h1
    refine ⟨t.set n (t.getD n 0 - b.data.getD n 0), ?_, by simpa using h1⟩
    rw [idx_getD 0 (by omega), ok_bind, idx_getD 0 (by omega), ok_bind, setAt_of_lt (by omega)])
  have := h2 "index out of range" (by
    rw [idx_getD 0 (by omega), ok_bind]
    unfold idx
    rw [List.getElem?_eq_none (le_refl _), crash_bind])
  rw [this]
  trivial

/-- Reconstruction from any matrix, given the product of secret and digest. -/
theorem reconstruct_table {w : Nat} (S : Scheme w) (p : Params) (st : State w) (A E : Mat w)
    (hmul : S.mul st.secret st.digest = ok E) (hE1 : E.rows = 1) (hE2 : E.cols = p.m) (hE3 : E.data.length = p.m)
    (hj : st.j < p.m) (v : Nat → BitVec w) (hv : ∀ k, v k = A.data.getD k 0 - E.data.getD k 0) :
    (¬ (A.rows = 1 ∧ A.cols = p.m ∧ A.data.length ≤ p.m) → (reconstruct S p st A).isCrash) ∧
    (A.rows = 1 → A.cols = p.m → A.data.length ≤ p.m →
      ((∃ k, k < A.data.length ∧ ¬ (S.inRange p.b (v k) = true ∨ S.inRange p.b (v k - st.t) = true)) →
        (reconstruct S p st A).isErr) ∧
      ((∀ k, k < A.data.length → S.inRange p.b (v k) = true ∨ S.inRange p.b (v k - st.t) = true) →
        (A.data.length < p.m → (reconstruct S p st A).isCrash) ∧
        (A.data.length = p.m → reconstruct S p st A = ok (if S.inRange p.b (v st.j) = true then 0 else 1)))) := by
  have hrec : reconstruct S p st A = (A.sub E >>= fun d =>
      forLoop p.m (fun i outs => decide1 S p.b st.t d i outs) (List.replicate p.m 0) >>= fun outs => idx outs st.j) := by
    unfold reconstruct
    rw [hmul, ok_bind]
  rw [hrec]
  refine ⟨fun h => ?_, fun h1 h2 h3 => ?_⟩
  · rw [isCrash_bind]
    left
    by_cases hl : E.data.length < A.data.length
    · exact sub_overlong A E hl
    · unfold Mat.sub
      rw [if_pos]
      · trivial
      · by_contra hc
        push Not at hc
        exact h ⟨by rw [hc.2, hE1], by rw [hc.1, hE2], by omega⟩
  · obtain ⟨d, hd, -, hdl, hdv⟩ := sub_within A E (by rw [h2, hE2]) (by rw [h1, hE1]) (by omega)
    rw [hd, ok_bind]
    have hdv' : ∀ k, k < A.data.length → d.data.getD k 0 = v k := fun k hk => by rw [hdv k hk, hv]
    have step : ∀ i outs, i < A.data.length → i < p.m → outs.length = p.m →
        (S.inRange p.b (v i) = true ∨ S.inRange p.b (v i - st.t) = true) →
        ∃ outs', decide1 S p.b st.t d i outs = ok outs' ∧ outs'.length = p.m := by
      intro i outs hi hip ho hc
      unfold decide1
      rw [get_of_lt d i (by omega), ok_bind, hdv' i hi]
      rcases hc with hc | hc
      · rw [if_pos hc, setAt_of_lt (by omega)]
        exact ⟨_, rfl, by simpa using ho⟩
      · by_cases hc' : S.inRange p.b (v i) = true
        · rw [if_pos hc', setAt_of_lt (by omega)]
          exact ⟨_, rfl, by simpa using ho⟩
        · rw [if_neg hc', if_pos hc, setAt_of_lt (by omega)]
          exact ⟨_, rfl, by simpa using ho⟩
    refine ⟨fun hbad => ?_, fun hgood => ⟨fun hlt => ?_, fun heq => ?_⟩⟩
    · classical
      have hm := Nat.find_spec hbad
      have hmin := fun k (hk : k < Nat.find hbad) => Nat.find_min hbad hk
      generalize Nat.find hbad = m at hm hmin
      obtain ⟨t, ht, he, -⟩ := loop_first (n := p.m) (m := m) (s := List.replicate p.m (0 : U32))
        (body := fun i outs => decide1 S p.b st.t d i outs) (by omega) (fun _ outs => outs.length = p.m) (by simp) (by
          intro i outs hi ho
          refine step i outs (by omega) (by omega) ho ?_
          by_contra hc
          exact hmin i hi ⟨by omega, hc⟩)
      have := he "REJECT" (by
        unfold decide1
        rw [get_of_lt d m (by omega), ok_bind, hdv' m hm.1]
        push Not at hm
        rw [if_neg (by simpa using hm.2.1), if_neg (by simpa using hm.2.2)])
      rw [this, err_bind]
      trivial
    · obtain ⟨t, ht, -, he⟩ := loop_first (n := p.m) (m := A.data.length) (s := List.replicate p.m (0 : U32))
        (body := fun i outs => decide1 S p.b st.t d i outs) hlt (fun _ outs => outs.length = p.m) (by simp)
        (fun i outs hi ho => step i outs hi (by omega) ho (hgood i hi))
      have := he "index out of range" (by
        unfold decide1 Mat.get idx
        rw [Nat.mul_zero, Nat.zero_add, List.getElem?_eq_none (by omega), crash_bind])
      rw [this, crash_bind]
      trivial
    · obtain ⟨outs, ho, hol, hov⟩ := decide_spec S p.b st.t d p.m (by omega) (fun k hk => by
        rw [hdv' k (by omega)]; exact hgood k (by omega))
      rw [ho, ok_bind, idx_getD 0 (by omega), hov _ hj, hdv' _ (by omega)]
      rfl

theorem ofInt_eq_iff {w : Nat} (a b : Int) : BitVec.ofInt w a = BitVec.ofInt w b ↔ (2 ^ w : Int) ∣ a - b := by
  rw [Int.dvd_iff_emod_eq_zero, ← Int.emod_eq_emod_iff_emod_sub_eq_zero]
  have hp : (0 : Int) < 2 ^ w := by positivity
  constructor
  · intro h
    have h' := congrArg BitVec.toNat h
    rw [BitVec.toNat_ofInt, BitVec.toNat_ofInt] at h'
    have h1 := Int.emod_nonneg a (ne_of_gt hp)
    have h2 := Int.emod_nonneg b (ne_of_gt hp)
    push_cast at h'
    omega
  · intro h
    apply BitVec.eq_of_toNat_eq
    rw [BitVec.toNat_ofInt, BitVec.toNat_ofInt]
    push_cast
    rw [h]

theorem ofInt_sum {w : Nat} (n : Nat) (x y : Nat → BitVec w) :
    ∑ k ∈ range n, mulOp (x k) (y k) = BitVec.ofInt w (∑ k ∈ range n, ((x k).toNat : Int) * (y k).toNat) := by
  induction n with
  | zero => simp
  | succ n ih =>
    rw [sum_range_succ, sum_range_succ, ih, BitVec.ofInt_add, BitVec.ofInt_mul]
    congr 1
    unfold mulOp
    rw [BitVec.ofInt_natCast, BitVec.ofInt_natCast, BitVec.ofNat_toNat, BitVec.ofNat_toNat, BitVec.setWidth_eq,
      BitVec.setWidth_eq]

end Verif.Lwe
