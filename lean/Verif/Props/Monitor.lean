import Verif.Lemmas.Monitor

/-! # C82: the CPU costs that experiments report -/

namespace Verif.Monitor
open Verif Spec

/-- C82: whatever sequence of calls a program makes on its monitor, every recorded cost is not negative and is the CPU time, user
and system, that the process has used since the measurement was last started, to within ten nanoseconds; that is for processes
that use less than 2^32 milliseconds (49 days) of CPU time. -/
def C82_Statement : Prop :=
  ∀ (fl : ℚ → ℚ), Nearest fl → ∀ (clock : Nat → Option Rusage) (r : Nat → Rusage), Clock clock r →
    ∀ cs : List Call, (∀ k ≤ cs.length, sys (r k) + user (r k) < 2 ^ 32 * 1000) →
      ∃ vs, session fl clock cs = .ok vs ∧ vs.length = cs.length ∧
        ∀ i j c, 0 < i → cs[i - 1]? = some c → StartedAt cs i j → (c = .record ∨ c = .recordAndReset) →
          ∃ v, vs[i - 1]? = some (some v) ∧ 0 ≤ v ∧ |v - cost (r j) (r i)| ≤ 1 / 100000

theorem returned_of {fl : ℚ → ℚ} {r : Nat → Rusage} {i j : Nat} {c : Call} (hc : c = .record ∨ c = .recordAndReset) :
    returned fl r j i c = some (fl (reading fl (r i) - reading fl (r j))) := by
  rcases hc with rfl | rfl <;> rfl

/-- The difference of two readings is the exact cost up to ten nanoseconds. -/
theorem difference_near {fl : ℚ → ℚ} (hf : Nearest fl) {a b : Rusage} (ha : Sound a) (hb : Sound b)
    (h1 : sys a + user a < 2 ^ 32 * 1000) (h2 : sys b + user b < 2 ^ 32 * 1000) :
    |fl (reading fl b - reading fl a) - cost a b| ≤ 1 / 100000 := by
  have ⟨a1, a2, a3, a4⟩ := ha
  have ⟨b1, b2, b3, b4⟩ := hb
  have x := abs_le.1 (reading_near hf ha h1)
  have y := abs_le.1 (reading_near hf hb h2)
  have xa : 0 ≤ sys a + user a := by unfold sys user; omega
  have xb : 0 ≤ sys b + user b := by unfold sys user; omega
  have p1 : ((sys a + user a : Int) : ℚ) < 2 ^ 32 * 1000 := by exact_mod_cast h1
  have p2 : ((sys b + user b : Int) : ℚ) < 2 ^ 32 * 1000 := by exact_mod_cast h2
  have p3 : (0 : ℚ) ≤ ((sys a + user a : Int) : ℚ) := by exact_mod_cast xa
  have p4 : (0 : ℚ) ≤ ((sys b + user b : Int) : ℚ) := by exact_mod_cast xb
  have z := abs_le.1 (hf.near (x := reading fl b - reading fl a) (k := 19) (by omega) (by
    rw [abs_lt]
    norm_num at x y p1 p2 p3 p4 ⊢
    constructor <;> linarith [x.1, x.2, y.1, y.2]))
  unfold cost
  rw [abs_le]
  push_cast at *
  norm_num at x y z p1 p2 p3 p4 ⊢
  constructor <;> linarith [x.1, x.2, y.1, y.2, z.1, z.2]

theorem C82_holds : C82_Statement := by
  intro fl hf clock r hr cs hb
  obtain ⟨vs, h1, h2, h3⟩ := session_spec (fl := fl) (fun k => (hr k).1) cs
  refine ⟨vs, h1, h2, ?_⟩
  intro i j c hi hc hst hrec
  have hic : i ≤ cs.length := by
    have := (List.getElem?_eq_some_iff.1 hc).1
    omega
  have hji := hst.1
  refine ⟨_, by rw [h3 i j c hi hc hst, returned_of hrec], ?_, ?_⟩
  · have hm := (hr j).2.2 i hji.le
    have hs := (hr i).2.1
    have hbi := hb i hic
    have ⟨s1, s2, s3, s4⟩ := hs
    have := reading_mono hf (hr j).2.1 hs hm.1 hm.2 (by unfold sys user at hbi; omega) (by unfold sys user at hbi; omega)
    have h0 := hf.mono (x := 0) (y := reading fl (r i) - reading fl (r j)) (by linarith)
    rwa [hf.exact double_zero] at h0
  · exact difference_near hf (hr j).2.1 (hr i).2.1 (hb j (by omega)) (hb i hic)

/-- Costs are not negative even for processes that run much longer, as long as each of the two times is less than 2^43 seconds. -/
theorem C82_not_negative {fl : ℚ → ℚ} (hf : Nearest fl) {clock : Nat → Option Rusage} {r : Nat → Rusage} (hr : Clock clock r)
    (cs : List Call) (hb : ∀ k ≤ cs.length, (r k).stimeSec < 2 ^ 43 ∧ (r k).utimeSec < 2 ^ 43) {vs : List (Option ℚ)}
    (h : session fl clock cs = .ok vs) {i j : Nat} (hi : 0 < i) {c : Call} (hc : cs[i - 1]? = some c)
    (hst : StartedAt cs i j) {v : ℚ} (hv : vs[i - 1]? = some (some v)) : 0 ≤ v := by
  obtain ⟨vs', h1, h2, h3⟩ := session_spec (fl := fl) (fun k => (hr k).1) cs
  rw [h] at h1
  cases h1
  have hic : i ≤ cs.length := by
    have := (List.getElem?_eq_some_iff.1 hc).1
    omega
  rw [h3 i j c hi hc hst, Option.some.injEq] at hv
  have hm := (hr j).2.2 i hst.1.le
  have rm := reading_mono hf (hr j).2.1 (hr i).2.1 hm.1 hm.2 (hb i hic).1 (hb i hic).2
  have nn : ∀ s u : Int, 0 ≤ s → s < 2 ^ 43 → (0 ≤ u ∧ u < 1000000) → 0 ≤ iiToMS fl s u := by
    intro s u h1 h2 h3
    have := iiToMS_mono hf (s := 0) (u := 0) le_rfl h2 ⟨le_rfl, by omega⟩ h3 (by omega)
    have e : iiToMS fl 0 0 = 0 := by
      rw [iiToMS_eq hf le_rfl (by norm_num) le_rfl (by norm_num)]
      simp [hf.exact double_zero]
    linarith
  cases c with
  | reset => cases hv
  | getCpuTime =>
    cases hv
    have ⟨s1, s2, s3, s4⟩ := (hr j).2.1
    have hbj := hb j (by have := hst.1; omega)
    have := hf.mono (add_nonneg (nn _ _ s1 hbj.1 s3) (nn _ _ s2 hbj.2 s4))
    rwa [hf.exact double_zero] at this
  | record =>
    cases hv
    have h0 := hf.mono (x := 0) (y := reading fl (r i) - reading fl (r j)) (by linarith)
    rwa [hf.exact double_zero] at h0
  | recordAndReset =>
    cases hv
    have h0 := hf.mono (x := 0) (y := reading fl (r i) - reading fl (r j)) (by linarith)
    rwa [hf.exact double_zero] at h0

/-- Rounding a recorded cost to microseconds gives the exact number of microseconds the kernel has counted. -/
theorem C82_microseconds {fl : ℚ → ℚ} (hf : Nearest fl) {clock : Nat → Option Rusage} {r : Nat → Rusage} (hr : Clock clock r)
    (cs : List Call) (hb : ∀ k ≤ cs.length, sys (r k) + user (r k) < 2 ^ 32 * 1000) {vs : List (Option ℚ)}
    (h : session fl clock cs = .ok vs) {i j : Nat} (hi : 0 < i) {c : Call} (hc : cs[i - 1]? = some c)
    (hst : StartedAt cs i j) (hrec : c = .record ∨ c = .recordAndReset) :
    ∃ v, vs[i - 1]? = some (some v) ∧
      round (v * 1000) = sys (r i) + user (r i) - (sys (r j) + user (r j)) := by
  obtain ⟨vs', h1, -, h3⟩ := C82_holds fl hf clock r hr cs hb
  rw [h] at h1
  cases h1
  obtain ⟨v, hv, -, hd⟩ := h3 i j c hi hc hst hrec
  refine ⟨v, hv, ?_⟩
  rw [round_eq, Int.floor_eq_iff]
  unfold cost at hd
  have hd := abs_le.1 hd
  norm_num at hd ⊢
  constructor <;> linarith [hd.1, hd.2]

/-- Phases measured one after the other: if the program only calls `RecordAndReset`, the costs of the phases add up to the cost
of the whole, to within ten nanoseconds for each phase. -/
theorem C82_phases {fl : ℚ → ℚ} (hf : Nearest fl) {clock : Nat → Option Rusage} {r : Nat → Rusage} (hr : Clock clock r)
    (n : Nat) (hb : ∀ k ≤ n, sys (r k) + user (r k) < 2 ^ 32 * 1000) :
    ∃ vs : List ℚ, session fl clock (List.replicate n .recordAndReset) = .ok (vs.map some) ∧ vs.length = n ∧
      |vs.sum - cost (r 0) (r n)| ≤ n / 100000 := by
  obtain ⟨ws, h1, h2, h3⟩ := session_spec (fl := fl) (fun k => (hr k).1) (List.replicate n .recordAndReset)
  rw [List.length_replicate] at h2
  have hval : ∀ i < n, ws[i]? = some (some (fl (reading fl (r (i + 1)) - reading fl (r i)))) := by
    intro i hi
    have := h3 (i + 1) i .recordAndReset (by omega) (by simp [hi]) ⟨by omega, ?_, fun k c h0 hk => by omega⟩
    · simpa [returned] using this
    · rcases Nat.eq_zero_or_pos i with rfl | h0
      · exact Or.inl rfl
      · exact Or.inr ⟨.recordAndReset, List.getElem?_replicate_of_lt (by omega), rfl⟩
  let f : Nat → ℚ := fun i => fl (reading fl (r (i + 1)) - reading fl (r i))
  have hws : ws = ((List.range n).map f).map some := by
    apply List.ext_getElem?
    intro i
    by_cases hi : i < n
    · rw [hval i hi]
      simp [hi, f]
    · rw [List.getElem?_eq_none (by omega), List.getElem?_eq_none (by simp; omega)]
  refine ⟨(List.range n).map f, by rw [h1, hws], by simp, ?_⟩
  have key : ∀ m ≤ n, |((List.range m).map f).sum - cost (r 0) (r m)| ≤ m / 100000 := by
    intro m
    induction m with
    | zero => intro _; simp [cost]
    | succ m ih =>
      intro hm
      have a := abs_le.1 (ih (by omega))
      have b := abs_le.1 (difference_near hf (hr m).2.1 (hr (m + 1)).2.1 (hb m (by omega)) (hb (m + 1) hm))
      have e : cost (r 0) (r (m + 1)) = cost (r 0) (r m) + cost (r m) (r (m + 1)) := by
        unfold cost
        push_cast
        ring
      rw [List.range_succ, List.map_append, List.sum_append, e, abs_le]
      simp only [List.map_cons, List.map_nil, List.sum_cons, List.sum_nil, add_zero, f] at *
      push_cast
      constructor <;> linarith [a.1, a.2, b.1, b.2]
  exact key n le_rfl

/-- If the kernel refuses to tell the times, the program ends. -/
theorem C82_no_clock (fl : ℚ → ℚ) (clock : Nat → Option Rusage) (cs : List Call) (h : clock 0 = none) :
    (session fl clock cs).isCrash := by
  simp [session, newMonitor, getCPUTime, h, Res.isCrash]

/-! ## Concrete cases -/

/-- A process that uses 1.5 s of user time and 0.25 s of system time between any two readings. -/
def exampleClock (k : Nat) : Rusage :=
  { stimeSec := k * 250000 / 1000000, stimeUsec := k * 250000 % 1000000
    utimeSec := k * 1500000 / 1000000, utimeUsec := k * 1500000 % 1000000 }

theorem exampleClock_ok : Clock (fun k => some (exampleClock k)) exampleClock := by
  intro k
  refine ⟨rfl, ⟨?_, ?_, ?_, ?_⟩, ?_⟩
  all_goals simp only [exampleClock, sys, user]
  all_goals omega

/-- The hypotheses of C82 can be met: there is a rounding to nearest, the clock above is sound, and the third call of the session
measures from the first. -/
example : (∃ fl, Nearest fl) ∧ Clock (fun k => some (exampleClock k)) exampleClock ∧
    (∀ k ≤ 3, sys (exampleClock k) + user (exampleClock k) < 2 ^ 32 * 1000) ∧
    StartedAt [.reset, .record, .recordAndReset] 3 1 ∧ cost (exampleClock 1) (exampleClock 3) = 3500 := by
  refine ⟨nearest_exists, exampleClock_ok, fun k hk => ?_, ⟨by omega, Or.inr ⟨.reset, rfl, rfl⟩, ?_⟩, ?_⟩
  · simp only [exampleClock, sys, user]
    omega
  · intro k c h1 h2 h3
    obtain rfl : k = 2 := by omega
    simp at h3
    subst h3
    rfl
  · norm_num [cost, sys, user, exampleClock]

/-- Long-running processes as in `C82_not_negative`. -/
example : ∀ k ≤ 5, (exampleClock k).stimeSec < 2 ^ 43 ∧ (exampleClock k).utimeSec < 2 ^ 43 := by
  intro k hk
  simp only [exampleClock]
  omega

/-- A kernel that does not answer. -/
example : ∃ clock : Nat → Option Rusage, clock 0 = none := ⟨fun _ => none, rfl⟩

end Verif.Monitor
