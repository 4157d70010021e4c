import Verif.Spec.Monitor
import Mathlib.Tactic.Linarith
import Mathlib.Tactic.Ring
import Mathlib.Tactic.NormNum
import Mathlib.Tactic.FieldSimp
import Mathlib.Algebra.Order.Floor.Ring
import Mathlib.Data.Rat.Floor
import Mathlib.Data.Set.Finite.Lattice
import Mathlib.Order.Interval.Set.Infinite
import Mathlib.Data.Int.Interval
import Mathlib.Order.Preorder.Finite

/-! # Lemmas about rounding and the monitor -/

namespace Verif.Monitor
open Verif Spec

theorem double_zero : Double 0 := ⟨0, 0, by norm_num, Or.inl (by norm_num)⟩

theorem double_int {q : Int} (h : |q| < 2 ^ 53) : Double q := ⟨q, 0, h, Or.inl (by simp)⟩

theorem double_div {q : Int} {e : Nat} (h : |q| < 2 ^ 53) (he : e ≤ 1074) : Double (q / 2 ^ e) := ⟨q, e, h, Or.inr ⟨he, rfl⟩⟩

/-- Every double is an integral multiple of the smallest one. -/
theorem Spec.Double.multiple {x : ℚ} (h : Double x) : ∃ k : Int, x = k / 2 ^ 1074 := by
  obtain ⟨q, e, -, h | ⟨he, h⟩⟩ := h
  · exact ⟨q * 2 ^ e * 2 ^ 1074, by rw [h]; simp only [Int.cast_mul, Int.cast_pow, Int.cast_ofNat]; rw [mul_div_assoc, div_self (by positivity), mul_one]⟩
  · refine ⟨q * 2 ^ (1074 - e), ?_⟩
    rw [h, div_eq_div_iff (by positivity) (by positivity)]
    push_cast
    rw [mul_assoc, ← pow_add, Nat.sub_add_cancel he]

/-- There is a way of rounding to a nearest double. -/
theorem nearest_exists : ∃ fl, Nearest fl := by
  have key : ∀ x : ℚ, ∃ r, Double r ∧ ∀ y, Double y → |x - r| ≤ |x - y| := by
    intro x
    let S : Set ℚ := {y | Double y ∧ |x - y| ≤ |x|}
    have hfin : S.Finite := by
      have hsub : S ⊆ (fun k : Int => (k : ℚ) / 2 ^ 1074) '' Set.Icc (-⌈2 * |x| * 2 ^ 1074⌉) ⌈2 * |x| * 2 ^ 1074⌉ := by
        rintro y ⟨hy, hb⟩
        obtain ⟨k, rfl⟩ := hy.multiple
        have h2 : |(k : ℚ) / 2 ^ 1074| ≤ 2 * |x| := by
          have : |(k : ℚ) / 2 ^ 1074| ≤ |x| + |x - (k : ℚ) / 2 ^ 1074| := by
            have := abs_sub x (x - (k : ℚ) / 2 ^ 1074)
            simpa using this
          linarith
        have h3 : |(k : ℚ)| ≤ 2 * |x| * 2 ^ 1074 := by
          rw [abs_div, abs_of_pos (by positivity : (0 : ℚ) < 2 ^ 1074), div_le_iff₀ (by positivity)] at h2
          exact h2
        have h4 : |(k : ℚ)| ≤ (⌈2 * |x| * 2 ^ 1074⌉ : ℚ) := h3.trans (Int.le_ceil _)
        refine ⟨k, ?_, rfl⟩
        have := abs_le.1 h4
        exact ⟨by exact_mod_cast this.1, by exact_mod_cast this.2⟩
      exact ((Set.finite_Icc _ _).image _).subset hsub
    have hne : S.Nonempty := ⟨0, double_zero, by simp⟩
    obtain ⟨r, hr, hmin⟩ := hfin.exists_minimalFor (fun y => |x - y|) S hne
    refine ⟨r, hr.1, fun y hy => ?_⟩
    rcases le_total |x - r| |x - y| with h | h
    · exact h
    · exact hmin ⟨hy, h.trans hr.2⟩ h
  choose fl h using key
  exact ⟨fl, h⟩

variable {fl : ℚ → ℚ}

theorem Spec.Nearest.exact (hf : Nearest fl) {x : ℚ} (h : Double x) : fl x = x := by
  have := (hf x).2 x h
  simp only [sub_self, abs_zero] at this
  have := abs_eq_zero.1 (le_antisymm this (abs_nonneg _))
  linarith

theorem Spec.Nearest.mono (hf : Nearest fl) {x y : ℚ} (h : x ≤ y) : fl x ≤ fl y := by
  rcases h.lt_or_eq with h | rfl
  · by_contra hc
    have hc := not_le.1 hc
    have h1 := (hf x).2 _ (hf y).1
    have h2 := (hf y).2 _ (hf x).1
    rcases abs_cases (x - fl x) with a | a <;> rcases abs_cases (x - fl y) with b | b <;>
      rcases abs_cases (y - fl y) with c | c <;> rcases abs_cases (y - fl x) with d | d <;> linarith
  · exact le_refl _

/-- Numbers below `2^(53-k)` are rounded by at most half of `2^-k`. -/
theorem Spec.Nearest.near (hf : Nearest fl) {x : ℚ} {k : Nat} (hk : k ≤ 52) (h : |x| < 2 ^ (52 - k)) :
    |x - fl x| ≤ 1 / 2 ^ (k + 1) := by
  have hr := (hf x).2 ((round (x * 2 ^ k) : Int) / 2 ^ k) (double_div ?_ (by omega))
  · refine hr.trans ?_
    have := abs_sub_round (x * 2 ^ k)
    have e : x - (round (x * 2 ^ k) : ℚ) / 2 ^ k = (x * 2 ^ k - round (x * 2 ^ k)) / 2 ^ k := by
      field_simp
    rw [e, abs_div, abs_of_pos (by positivity : (0 : ℚ) < 2 ^ k), div_le_div_iff₀ (by positivity) (by positivity), pow_succ]
    have : (0 : ℚ) < 2 ^ k := by positivity
    nlinarith
  · have h1 := abs_sub_round (x * 2 ^ k)
    have h2 : |x * 2 ^ k| < 2 ^ 52 := by
      rw [abs_mul, abs_of_pos (by positivity : (0 : ℚ) < 2 ^ k)]
      calc |x| * 2 ^ k < 2 ^ (52 - k) * 2 ^ k := by
            exact mul_lt_mul_of_pos_right h (by positivity)
        _ = 2 ^ 52 := by rw [← pow_add, Nat.sub_add_cancel hk]
    have h3 : |(round (x * 2 ^ k) : ℚ)| < 2 ^ 53 := by
      have h4 := abs_sub (x * 2 ^ k) (x * 2 ^ k - (round (x * 2 ^ k) : ℚ))
      simp only [sub_sub_cancel] at h4
      have : (2 : ℚ) ^ 53 = 2 ^ 52 + 2 ^ 52 := by norm_num
      have : (1 : ℚ) < 2 ^ 52 := by norm_num
      linarith
    exact_mod_cast h3

/-- Conversion and multiplication of the seconds are exact. -/
theorem iiToMS_eq (hf : Nearest fl) {s u : Int} (hs : 0 ≤ s) (hs' : s < 2 ^ 43) (hu : 0 ≤ u) (hu' : u < 1000000) :
    iiToMS fl s u = fl (s * 1000 + fl (u / 1000)) := by
  unfold iiToMS
  rw [hf.exact (double_int (q := s) (by rw [abs_of_nonneg hs]; omega)),
    hf.exact (double_int (q := u) (by rw [abs_of_nonneg hu]; omega))]
  have h : Double ((s : ℚ) * 1000) := by
    have := double_int (q := s * 1000) (by rw [abs_of_nonneg (by omega)]; omega)
    simpa using this
  rw [hf.exact h]

theorem iiToMS_mono (hf : Nearest fl) {s u s' u' : Int} (hs : 0 ≤ s) (hs' : s' < 2 ^ 43) (hu : 0 ≤ u ∧ u < 1000000)
    (hu' : 0 ≤ u' ∧ u' < 1000000) (h : s * 1000000 + u ≤ s' * 1000000 + u') : iiToMS fl s u ≤ iiToMS fl s' u' := by
  rw [iiToMS_eq hf hs (by omega) hu.1 hu.2, iiToMS_eq hf (by omega) hs' hu'.1 hu'.2]
  refine hf.mono ?_
  rcases (show s = s' ∧ u ≤ u' ∨ s + 1 ≤ s' by omega) with ⟨rfl, h1⟩ | h1
  · have : fl (u / 1000) ≤ fl (u' / 1000) := hf.mono (by
      have : (u : ℚ) ≤ u' := by exact_mod_cast h1
      linarith)
    linarith
  · have a : fl (u / 1000) ≤ 1000 := by
      have h0 : fl ((1000 : Int) : ℚ) = ((1000 : Int) : ℚ) := hf.exact (double_int (by norm_num))
      have := hf.mono (x := u / 1000) (y := ((1000 : Int) : ℚ)) (by
        have : (u : ℚ) < 1000000 := by exact_mod_cast hu.2
        push_cast
        linarith)
      rw [h0] at this
      exact_mod_cast this
    have b : 0 ≤ fl (u' / 1000) := by
      have := hf.mono (x := 0) (y := u' / 1000) (by
        have : (0 : ℚ) ≤ u' := by exact_mod_cast hu'.1
        linarith)
      rwa [hf.exact double_zero] at this
    have c : (s : ℚ) + 1 ≤ s' := by exact_mod_cast h1
    linarith

theorem iiToMS_near (hf : Nearest fl) {s u : Int} (hs : 0 ≤ s) (hu : 0 ≤ u ∧ u < 1000000)
    (h : s * 1000000 + u < 2 ^ 32 * 1000) :
    |((s * 1000000 + u : Int) : ℚ) / 1000 - iiToMS fl s u| ≤ 1 / 2 ^ 20 + 1 / 2 ^ 40 := by
  rw [iiToMS_eq hf hs (by omega) hu.1 hu.2]
  have u0 : (0 : ℚ) ≤ u := by exact_mod_cast hu.1
  have u1 : (u : ℚ) < 1000000 := by exact_mod_cast hu.2
  have s0 : (0 : ℚ) ≤ s := by exact_mod_cast hs
  have h' : (s : ℚ) * 1000000 + u < 2 ^ 32 * 1000 := by exact_mod_cast h
  have a := hf.near (x := u / 1000) (k := 42) (by omega) (by
    rw [abs_of_nonneg (by positivity)]
    norm_num
    linarith)
  have a' := abs_le.1 a
  have b := hf.near (x := s * 1000 + fl (u / 1000)) (k := 19) (by omega) (by
    norm_num at a' h' ⊢
    rw [abs_lt]
    constructor <;> linarith)
  have b' := abs_le.1 b
  rw [abs_le]
  push_cast
  norm_num at a' b' ⊢
  constructor <;> linarith

/-- What the monitor takes as the CPU time used so far. -/
def reading (fl : ℚ → ℚ) (r : Rusage) : ℚ := fl (iiToMS fl r.stimeSec r.stimeUsec + iiToMS fl r.utimeSec r.utimeUsec)

theorem reading_mono (hf : Nearest fl) {a b : Rusage} (ha : Sound a) (hb : Sound b) (hs : sys a ≤ sys b)
    (hu : user a ≤ user b) (h1 : b.stimeSec < 2 ^ 43) (h2 : b.utimeSec < 2 ^ 43) : reading fl a ≤ reading fl b :=
  hf.mono (add_le_add (iiToMS_mono hf ha.s0 h1 ha.s hb.s hs) (iiToMS_mono hf ha.u0 h2 ha.u hb.u hu))

theorem reading_near (hf : Nearest fl) {a : Rusage} (ha : Sound a) (h : sys a + user a < 2 ^ 32 * 1000) :
    |((sys a + user a : Int) : ℚ) / 1000 - reading fl a| ≤ 3 / 2 ^ 20 + 1 / 2 ^ 39 := by
  have ⟨s0, u0, s, u⟩ := ha
  have hs0 : 0 ≤ sys a := by unfold sys; omega
  have hu0 : 0 ≤ user a := by unfold user; omega
  have x : |((sys a : Int) : ℚ) / 1000 - iiToMS fl a.stimeSec a.stimeUsec| ≤ _ :=
    iiToMS_near hf s0 s (by change sys a < _; omega)
  have y : |((user a : Int) : ℚ) / 1000 - iiToMS fl a.utimeSec a.utimeUsec| ≤ _ :=
    iiToMS_near hf u0 u (by change user a < _; omega)
  rw [abs_le] at x y
  have h' : (sys a : ℚ) + user a < 2 ^ 32 * 1000 := by exact_mod_cast h
  have hs' : (0 : ℚ) ≤ sys a := by exact_mod_cast hs0
  have hu' : (0 : ℚ) ≤ user a := by exact_mod_cast hu0
  have b := hf.near (x := iiToMS fl a.stimeSec a.stimeUsec + iiToMS fl a.utimeSec a.utimeUsec) (k := 19) (by omega) (by
    norm_num at x y h' ⊢
    rw [abs_lt]
    constructor <;> linarith [x.1, x.2, y.1, y.2])
  have b' := abs_le.1 b
  unfold reading
  rw [abs_le]
  push_cast
  norm_num at x y b' ⊢
  constructor <;> linarith [x.1, x.2, y.1, y.2, b'.1, b'.2]

/-- What the call number `i` returns if the measurement was started by call number `j`. -/
def returned (fl : ℚ → ℚ) (r : Nat → Rusage) (j i : Nat) : Call → Option ℚ
  | .reset => none
  | .record | .recordAndReset => some (fl (reading fl (r i) - reading fl (r j)))
  | .getCpuTime => some (reading fl (r j))

theorem call_eq {c : Option Rusage} {a : Rusage} (h : c = some a) (m : Meter) (x : Call) :
    ∃ v, call fl c m x = .ok (if restarts x then ⟨reading fl a⟩ else m, v) ∧
      ∀ (r : Nat → Rusage) j i, r i = a → m.cpuTime = reading fl (r j) → v = returned fl r j i x := by
  subst h
  cases x with
  | reset => exact ⟨none, rfl, fun _ _ _ _ _ => rfl⟩
  | record =>
    refine ⟨some (fl (reading fl a - m.cpuTime)), rfl, fun r j i ha hm => ?_⟩
    rw [hm, ← ha]
    rfl
  | recordAndReset =>
    refine ⟨some (fl (reading fl a - m.cpuTime)), rfl, fun r j i ha hm => ?_⟩
    rw [hm, ← ha]
    rfl
  | getCpuTime => exact ⟨some m.cpuTime, rfl, fun r j i _ hm => by rw [hm]; rfl⟩

theorem calls_spec {clock : Nat → Option Rusage} {r : Nat → Rusage} (hc : ∀ k, clock k = some (r k)) (cs : List Call) :
    ∀ (k j : Nat) (m : Meter), m.cpuTime = reading fl (r j) → ∃ vs, calls fl clock k m cs = .ok vs ∧ vs.length = cs.length ∧
      ∀ i c, cs[i]? = some c → ∃ j', vs[i]? = some (returned fl r j' (k + i) c) ∧
        ((j' = j ∧ ∀ l < i, ∀ c, cs[l]? = some c → restarts c = false) ∨
          ∃ l < i, j' = k + l ∧ (∃ c, cs[l]? = some c ∧ restarts c) ∧
            ∀ l', l < l' → l' < i → ∀ c, cs[l']? = some c → restarts c = false) := by
  induction cs with
  | nil => exact fun k j m hm => ⟨[], rfl, rfl, fun i c h => by simp at h⟩
  | cons x cs ih =>
    intro k j m hm
    obtain ⟨v, hv, hret⟩ := call_eq (fl := fl) (hc k) m x
    let j1 := if restarts x then k else j
    obtain ⟨vs, h1, h2, h3⟩ := ih (k + 1) j1 (if restarts x then ⟨reading fl (r k)⟩ else m) (by
      by_cases hx : restarts x
      · simp only [j1, hx, if_true]
      · simp only [j1, hx]
        simpa using hm)
    refine ⟨v :: vs, ?_, by simp [h2], ?_⟩
    · simp only [calls, hv, Res.ok_bind, h1]
    · intro i c hi
      cases i with
      | zero =>
        simp only [List.getElem?_cons_zero, Option.some.injEq] at hi
        subst hi
        refine ⟨j, ?_, Or.inl ⟨rfl, fun l hl => absurd hl (by omega)⟩⟩
        simp only [List.getElem?_cons_zero, Option.some.injEq]
        exact hret r j k rfl hm
      | succ i =>
        simp only [List.getElem?_cons_succ] at hi
        obtain ⟨j', ha, hb⟩ := h3 i c hi
        refine ⟨j', by rw [List.getElem?_cons_succ, ha]; congr 2; omega, ?_⟩
        rcases hb with ⟨hj, hno⟩ | ⟨l, hl, hj, hre, hno⟩
        · by_cases hx : restarts x
          · refine Or.inr ⟨0, by omega, by simp [hj, j1, hx], ⟨x, rfl, hx⟩, fun l' h0 hl' y hy => ?_⟩
            obtain ⟨l', rfl⟩ := Nat.exists_eq_add_of_lt h0
            rw [show 0 + l' + 1 = l' + 1 by omega, List.getElem?_cons_succ] at hy
            exact hno l' (by omega) y hy
          · refine Or.inl ⟨by simp [hj, j1, hx], fun l hl y hy => ?_⟩
            cases l with
            | zero =>
              simp only [List.getElem?_cons_zero, Option.some.injEq] at hy
              subst hy
              simpa using hx
            | succ l => exact hno l (by omega) y (by simpa using hy)
        · refine Or.inr ⟨l + 1, by omega, by omega, by simpa using hre, fun l' h0 hl' y hy => ?_⟩
          cases l' with
          | zero => omega
          | succ l' => exact hno l' (by omega) (by omega) y (by simpa using hy)

theorem Spec.StartedAt.unique {cs : List Call} {i j j' : Nat} (h : StartedAt cs i j) (h' : StartedAt cs i j') : j = j' := by
  have key : ∀ {j j' : Nat}, StartedAt cs i j → StartedAt cs i j' → ¬ j < j' := by
    intro j j' h h' hlt
    rcases h'.2.1 with h0 | ⟨c, hc, hr⟩
    · omega
    · have := h.2.2 j' c hlt h'.1 hc
      rw [this] at hr
      cases hr
  have := key h h'
  have := key h' h
  omega

/-- The results of a session. -/
theorem session_spec {clock : Nat → Option Rusage} {r : Nat → Rusage} (hc : ∀ k, clock k = some (r k)) (cs : List Call) :
    ∃ vs, session fl clock cs = .ok vs ∧ vs.length = cs.length ∧
      ∀ i j c, 0 < i → cs[i - 1]? = some c → StartedAt cs i j → vs[i - 1]? = some (returned fl r j i c) := by
  obtain ⟨vs, h1, h2, h3⟩ := calls_spec (fl := fl) hc cs 1 0 ⟨reading fl (r 0)⟩ rfl
  refine ⟨vs, ?_, h2, ?_⟩
  · simp only [session, newMonitor, hc, getCPUTime, Res.ok_bind]
    exact h1
  · intro i j c hi hci hst
    obtain ⟨j', ha, hb⟩ := h3 (i - 1) c hci
    rw [ha, show 1 + (i - 1) = i by omega]
    have : StartedAt cs i j' := by
      rcases hb with ⟨rfl, hno⟩ | ⟨l, hl, rfl, hre, hno⟩
      · exact ⟨hi, Or.inl rfl, fun k c h0 hk hc => hno (k - 1) (by omega) c hc⟩
      · exact ⟨by omega, Or.inr (by rwa [show 1 + l - 1 = l by omega]),
          fun k c h0 hk hc => hno (k - 1) (by omega) (by omega) c hc⟩
    rw [hst.unique this]

end Verif.Monitor
