import Verif.Spec.Local
import Verif.Lemmas.Layout
import Verif.Lemmas.Deploy
import Verif.Props.Amplify

/-! # Lemmas on the single-machine experiments -/

namespace Verif.Local
open Res Verif.Client Verif.Matrix Verif.Lwe Verif.Local.Spec Finset

/-! ### Layout -/

theorem side_spec (n : Nat) : n ≤ side n * side n ∧ (0 < n → (side n - 1) * (side n - 1) < n) := by
  unfold side
  split
  · subst n; simp
  · have h1 := Nat.sqrt_le (n - 1)
    have h2 := Nat.lt_succ_sqrt (n - 1)
    rw [Nat.succ_eq_add_one] at h2
    rw [Nat.add_sub_cancel]
    omega

theorem side_unique {n c d : Nat} (h1 : n ≤ c * c) (h2 : (c - 1) * (c - 1) < n) (h3 : n ≤ d * d)
    (h4 : (d - 1) * (d - 1) < n) : c = d := by
  have aux : ∀ {c d : Nat}, n ≤ c * c → (d - 1) * (d - 1) < n → d ≤ c := by
    intro c d h1 h4
    by_contra hc
    have := Nat.mul_le_mul (show c ≤ d - 1 by omega) (show c ≤ d - 1 by omega)
    omega
  exact Nat.le_antisymm (aux h3 h2) (aux h1 h4)

theorem layout_eq {n : Nat} (h : n ≤ 2 ^ 52) : Layout.calculateNumRowsAndColumns n true = (side n, side n) := by
  obtain ⟨c, h1, -, h3, h4⟩ := Layout.calculate_matrix h
  rw [h1]
  rcases Nat.eq_zero_or_pos n with rfl | hn
  · have : Layout.calculateNumRowsAndColumns 0 true = (0, 0) := by decide
    rw [this] at h1
    exact h1.symm
  · obtain ⟨s1, s2⟩ := side_spec n
    have := side_unique h3 (h4 hn) s1 (s2 hn)
    rw [this]

theorem side_pos {n : Nat} (h : 0 < n) : 0 < side n := by
  unfold side
  rw [if_neg (by omega)]
  omega

/-- A bound on the length is a bound on the side. -/
theorem side_le {n c : Nat} (h : n ≤ c * c) : side n ≤ c := by
  rcases Nat.eq_zero_or_pos n with rfl | hn
  · unfold side; simp
  · by_contra hc
    have h2 := (side_spec n).2 hn
    have := Nat.mul_le_mul (show c ≤ side n - 1 by omega) (show c ≤ side n - 1 by omega)
    omega

/-! ### Shapes -/

theorem mulGo_shape {w v : Nat} {op : BitVec w → BitVec v → BitVec w} {a : Mat w} {b : Mat v} {c : Mat w}
    (h : mulGo op a b = ok c) : c.rows = a.rows ∧ c.cols = b.cols := by
  unfold mulGo at h
  split at h
  · cases h
  · simp only [bind_eq_ok] at h
    obtain ⟨_, _, h⟩ := h
    obtain ⟨_, _, h⟩ := h
    obtain ⟨_, _, h⟩ := h
    obtain ⟨_, _, h⟩ := h
    cases h
    exact ⟨rfl, rfl⟩

theorem mul128_shape {a b c : Mat 128} (h : mul128 a b = ok c) : c.rows = a.rows ∧ c.cols = b.cols := by
  unfold mul128 at h
  split at h
  · cases h
  · simp only [bind_eq_ok] at h
    obtain ⟨_, _, _, _, _, _, _, _, _, _, _, _, h⟩ := h
    cases h
    exact ⟨rfl, rfl⟩

theorem binaryMul128_shape {a c : Mat 128} {b : Mat 8} (h : binaryMul128 a b = ok c) :
    c.rows = a.rows ∧ c.cols = b.cols := by
  unfold binaryMul128 at h
  split at h
  · cases h
  · simp only [bind_eq_ok] at h
    obtain ⟨_, _, _, _, _, _, _, _, _, _, h⟩ := h
    cases h
    exact ⟨rfl, rfl⟩

theorem add_shape {w : Nat} {a b c : Mat w} (h : a.add b = ok c) : c.rows = a.rows ∧ c.cols = a.cols := by
  unfold Mat.add at h
  split at h
  · cases h
  · obtain ⟨d, -, h⟩ := bind_eq_ok.mp h
    cases h
    exact ⟨rfl, rfl⟩

/-- The products of a scheme have the shapes of products. -/
structure Shapes {w : Nat} (S : Scheme w) : Prop where
  mul : ∀ {a b c : Mat w}, S.mul a b = ok c → c.rows = a.rows ∧ c.cols = b.cols
  binMul : ∀ {a : Mat w} {b : Mat 8} {c : Mat w}, S.binMul a b = ok c → c.rows = a.rows ∧ c.cols = b.cols

theorem shapes32 : Shapes lwe32 := ⟨fun h => mulGo_shape h, fun h => mulGo_shape h⟩

theorem shapes128 : Shapes lwe128 := ⟨fun h => mul128_shape h, fun h => binaryMul128_shape h⟩

theorem query_shape {w : Nat} {S : Scheme w} (hS : Shapes S) {aesctr : List Byte → Nat → Byte} {p : Params} {digest : Mat w}
    {c : Coins} {i j : Nat} {st : State w} {q : Mat w} (h : query S aesctr p digest c i j = ok (st, q)) :
    q.rows = 1 ∧ q.cols = p.l := by
  unfold query at h
  simp only [bind_eq_ok] at h
  obtain ⟨t, -, q1, h1, e, -, msg, -, q2, h2, q3, h3, h⟩ := h
  simp only [ok.injEq, Prod.mk.injEq] at h
  obtain ⟨-, rfl⟩ := h
  have a1 := hS.mul h1
  have a2 := add_shape h2
  have a3 := add_shape h3
  rw [a3.1, a3.2, a2.1, a2.2, a1.1, a1.2]
  exact ⟨rfl, rfl⟩

theorem create_shape {w : Nat} {S : Scheme w} (hS : Shapes S) {aesctr : List Byte → Nat → Byte} {n : Nat} {data : List Byte}
    {R C : Nat} {db : Db w} (h : createRandomBinary S aesctr n data R C = ok db) :
    db.numRows = R ∧ db.numColumns = C ∧ db.matrix.rows = R ∧ db.matrix.cols = C ∧ db.digest.rows = n ∧
      db.digest.cols = C := by
  unfold createRandomBinary at h
  obtain ⟨m, hm, h⟩ := bind_eq_ok.mp h
  obtain ⟨g, hg, h⟩ := bind_eq_ok.mp h
  cases h
  unfold fillBits at hm
  obtain ⟨d, -, hm⟩ := bind_eq_ok.mp hm
  cases hm
  have := hS.binMul hg
  exact ⟨rfl, rfl, rfl, rfl, this.1, this.2⟩

theorem mapM_forall {α β : Type _} {f : α → Res β} : ∀ {l : List α} {r : List β}, l.mapM f = ok r →
    r.length = l.length ∧ ∀ b ∈ r, ∃ a ∈ l, f a = ok b
  | [], r, h => by
    rw [List.mapM_nil] at h
    cases h
    simp
  | a :: l, r, h => by
    rw [List.mapM_cons] at h
    obtain ⟨b, hb, h⟩ := bind_eq_ok.mp h
    obtain ⟨bs, hbs, h⟩ := bind_eq_ok.mp h
    cases h
    obtain ⟨i1, i2⟩ := mapM_forall hbs
    refine ⟨by simp [i1], fun x hx => ?_⟩
    rcases List.mem_cons.mp hx with rfl | hx
    · exact ⟨a, by simp, hb⟩
    · obtain ⟨a', h1, h2⟩ := i2 x hx
      exact ⟨a', by simp [h1], h2⟩

/-! ### Noise -/

theorem sum_range_getD (f : Int → Nat) : ∀ l : List Int, ∑ r ∈ range l.length, f (l.getD r 0) = (l.map f).sum
  | [] => by simp
  | x :: l => by
    rw [List.length_cons, Finset.sum_range_succ', List.map_cons, List.sum_cons, ← sum_range_getD f l]
    simp [Nat.add_comm]

/-- The accumulated noise of a column is at most the sum of the absolute values. -/
theorem columnNoise_le {nz : Int → Int} (m : Mat 8) (hm : m.Binary) {rows : Nat} {noise : List Int}
    (hl : noise.length = rows) (k : Nat) :
    |columnNoise (fun r => nz (noise.getD r 0)) m rows k| ≤ ((noise.map (fun g => (nz g).natAbs)).sum : Nat) := by
  unfold columnNoise
  refine (Finset.abs_sum_le_sum_abs _ _).trans ?_
  rw [← sum_range_getD (fun g => (nz g).natAbs) noise, hl]
  push_cast
  refine Finset.sum_le_sum fun r _ => ?_
  rw [abs_mul]
  have : |(storedBit m r k : Int)| ≤ 1 := by
    unfold storedBit
    rcases entry_binary hm r k with h | h <;> rw [h] <;> decide
  calc |nz (noise.getD r 0)| * |(storedBit m r k : Int)| ≤ |nz (noise.getD r 0)| * 1 :=
        mul_le_mul_of_nonneg_left this (abs_nonneg _)
    _ = |nz (noise.getD r 0)| := mul_one _

theorem noise128_sum (l : List Int) : (l.map (fun g => (noise128 g).natAbs)).sum ≤ (l.map Int.natAbs).sum + l.length := by
  induction l with
  | nil => simp
  | cons x l ih =>
    simp only [List.map_cons, List.sum_cons, List.length_cons]
    have : (noise128 x).natAbs ≤ x.natAbs + 1 := by
      unfold noise128
      split <;> omega
    omega

theorem params_b (R C : Nat) (h : 84 * R < 2 ^ 32) : (paramsWithDatabaseSize R C).b.toNat = 84 * R := by
  show (computeB R).toNat = _
  unfold computeB
  rw [BitVec.toNat_ofNat]
  omega

theorem params128_b (R C : Nat) (h : 84 * R < 2 ^ 32) : (paramsWithDatabaseSize128 R C).b.toNat = 84 * R := by
  show (computeB R).toNat = _
  unfold computeB
  rw [BitVec.toNat_ofNat]
  omega

theorem forLoop_at {σ : Type _} {n : Nat} {body : Nat → σ → Res σ} {s t : σ} (h : forLoop n body s = ok t) (d : Nat)
    (hd : d < n) : ∃ u u', body d u = ok u' := by
  induction n generalizing t with
  | zero => omega
  | succ n ih =>
    rw [forLoop_succ, bind_eq_ok] at h
    obtain ⟨u, hu, hb⟩ := h
    by_cases he : d = n
    · subst he
      exact ⟨u, t, hb⟩
    · exact ih hu (by omega)

theorem draw_ok (f : Nat → Nat) {n : Nat} (h : 0 < n) : draw f n = ok (f n) := by
  unfold draw
  rw [if_neg (by omega)]

end Verif.Local
