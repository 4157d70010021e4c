import Verif.Model.Parallel
import Verif.Lemmas.Dh

/-! # Every schedule of the goroutines gives the sequential result (C42) -/

namespace Verif.Parallel
open Res

variable {β : Type _} {work : Nat → Res β} {n : Nat} {s s' : State β}

/-- The invariant of the reachable states. -/
structure Inv (work : Nat → Res β) (n : Nat) (s : State β) : Prop where
  length : s.workers.length = n
  acc_le : s.acc.length ≤ n
  received : ∀ i (h : i < s.acc.length), work i = ok s.acc[i]
  taken : ∀ i, i < s.acc.length → s.workers[i]? = some .taken
  waiting : ∀ i, s.acc.length ≤ i → i < n →
    s.workers[i]? = some .running ∨ ∃ b, work i = ok b ∧ s.workers[i]? = some (.sent b)
  crash : s.crashed = true → ∃ i, i < n ∧ ¬ ∃ b, work i = ok b

theorem inv_start : Inv work n (start n) where
  length := by simp [start]
  acc_le := by simp [start]
  received := by intro i h; simp [start] at h
  taken := by intro i h; simp [start] at h
  waiting := by intro i _ h; left; simp [start, h]
  crash := by intro h; simp [start] at h

theorem inv_step (h : Inv work n s) (st : Step work s s') : Inv work n s' := by
  cases st with
  | finish i b hc hr hw =>
    have hi : i < n := by
      rw [← h.length]
      exact (List.getElem?_eq_some_iff.mp hr).1
    have hia : s.acc.length ≤ i := by
      by_contra hlt
      rw [h.taken i (by omega)] at hr
      cases hr
    refine ⟨by simp [h.length], h.acc_le, h.received, ?_, ?_, h.crash⟩
    · intro k hk
      have hk' : k < s.acc.length := hk
      rw [List.getElem?_set_ne (by omega)]
      exact h.taken k hk
    · intro k hk hkn
      by_cases hki : i = k
      · subst hki
        right
        exact ⟨b, hw, by rw [List.getElem?_set_self (by rw [h.length]; exact hi)]⟩
      · simp only [List.getElem?_set_ne hki]
        exact h.waiting k hk hkn
  | panics i hc hr hw =>
    have hi : i < n := by
      rw [← h.length]
      exact (List.getElem?_eq_some_iff.mp hr).1
    exact ⟨h.length, h.acc_le, h.received, h.taken, h.waiting, fun _ => ⟨i, hi, hw⟩⟩
  | receive b hc hr =>
    have hi : s.acc.length < n := by
      rw [← h.length]
      exact (List.getElem?_eq_some_iff.mp hr).1
    refine ⟨by simp [h.length], by simp; omega, ?_, ?_, ?_, h.crash⟩
    · intro k hk
      by_cases hka : k < s.acc.length
      · simp only [List.getElem_append_left hka]
        exact h.received k hka
      · have : k = s.acc.length := by simp at hk; omega
        subst this
        simp only [List.getElem_concat_length]
        rcases h.waiting s.acc.length (le_refl _) hi with hw | ⟨b', hw, hb'⟩
        · rw [hw] at hr; cases hr
        · rw [hb'] at hr; cases hr; exact hw
    · intro k hk
      by_cases hka : s.acc.length = k
      · subst hka
        exact List.getElem?_set_self (by rw [h.length]; exact hi)
      · have : k < s.acc.length := by simp at hk; omega
        simp only [List.getElem?_set_ne hka]
        exact h.taken k this
    · intro k hk hkn
      have hk' : s.acc.length + 1 ≤ k := by simpa using hk
      simp only [List.getElem?_set_ne (show s.acc.length ≠ k by omega)]
      exact h.waiting k (by omega) hkn

theorem inv_reach (h : Reach work n s) : Inv work n s := by
  induction h with
  | start => exact inv_start
  | step s s' _ st ih => exact inv_step ih st

/-- Values are received in the order of the goroutines, whatever the order in which these finish. -/
theorem C42_received_in_order (h : Reach work n s) (i : Nat) (hi : i < s.acc.length) : work i = ok s.acc[i] :=
  (inv_reach h).received i hi

/-- When the main routine has received everything it holds what the sequential program computes. -/
theorem C42_schedule_final (h : Reach work n s) (hf : s.acc.length = n) : gather n work = ok s.acc := by
  subst hf
  by_cases h0 : s.acc = []
  · rw [h0]; rfl
  · have hne : Nonempty β := ⟨s.acc[0]'(List.length_pos_iff.mpr h0)⟩
    have := Verif.Dh.gather_ok (n := s.acc.length) (work := work)
      (v := fun i => if h : i < s.acc.length then s.acc[i] else Classical.choice hne) (by
        intro i hi
        rw [dif_pos hi]
        exact (inv_reach h).received i hi)
    rw [this]
    congr 1
    apply List.ext_getElem (by simp)
    intro i h1 h2
    simp [h2]

/-- No deadlock: as long as a value is missing and the program has not panicked, a step is possible. -/
theorem C42_schedule_progress (h : Reach work n s) (hc : s.crashed = false) (hf : s.acc.length < n) :
    ∃ s', Step work s s' := by
  rcases (inv_reach h).waiting s.acc.length (le_refl _) hf with hr | ⟨b, -, hr⟩
  · by_cases hw : ∃ b, work s.acc.length = ok b
    · obtain ⟨b, hb⟩ := hw
      exact ⟨_, Step.finish s _ b hc hr hb⟩
    · exact ⟨_, Step.panics s _ hc hr hw⟩
  · exact ⟨_, Step.receive s b hc hr⟩

/-- Steps a goroutine still takes part in. -/
def cost : Worker β → Nat
  | .running => 2
  | .sent _ => 1
  | .taken => 0

/-- Bound on the number of steps left. -/
def measure (s : State β) : Nat := (s.workers.map cost).sum + if s.crashed then 0 else 1

theorem sum_set (l : List (Worker β)) {i : Nat} {w : Worker β} (v : Worker β) (h : l[i]? = some w)
    (hlt : cost v < cost w) : ((l.set i v).map cost).sum < (l.map cost).sum := by
  induction l generalizing i with
  | nil => simp at h
  | cons a l ih =>
    cases i with
    | zero =>
      simp only [List.getElem?_cons_zero, Option.some.injEq] at h
      subst h
      simp [hlt]
    | succ i =>
      simp only [List.getElem?_cons_succ] at h
      simp only [List.set_cons_succ, List.map_cons, List.sum_cons]
      have := ih h
      omega

theorem measure_step (st : Step work s s') : measure s' < measure s := by
  cases st with
  | finish i b hc hr hw =>
    have := sum_set s.workers (v := .sent b) hr (by simp [cost])
    simp only [measure]
    omega
  | panics i hc hr hw =>
    simp [measure, hc]
  | receive b hc hr =>
    have := sum_set s.workers (v := .taken) hr (by simp [cost])
    simp only [measure]
    omega

/-- Every run ends: it has at most two steps for each goroutine and one more. -/
theorem C42_schedule_terminates (f : Nat → State β) (k : Nat) (h0 : f 0 = start n)
    (hs : ∀ i, i < k → Step work (f i) (f (i + 1))) : k ≤ 2 * n + 1 := by
  have key : ∀ m, m ≤ k → m + measure (f m) ≤ 2 * n + 1 := by
    intro m
    induction m with
    | zero =>
      intro _
      rw [h0]
      simp [measure, start, cost]
      omega
    | succ m ih =>
      intro hm
      have := ih (by omega)
      have := measure_step (hs m (by omega))
      omega
  have := key k (le_refl _)
  omega

/-- How every run ends: with the sequential result if all goroutines succeed and with a panic otherwise. -/
theorem C42_schedule_outcome (h : Reach work n s) (hstuck : ¬ ∃ s', Step work s s') :
    ((∀ i, i < n → ∃ b, work i = ok b) → s.crashed = false ∧ gather n work = ok s.acc) ∧
    ((∃ i, i < n ∧ ¬ ∃ b, work i = ok b) → s.crashed = true) := by
  have hi := inv_reach h
  constructor
  · intro hall
    have hc : s.crashed = false := by
      by_contra hc
      obtain ⟨i, h1, h2⟩ := hi.crash (by simpa using hc)
      exact h2 (hall i h1)
    refine ⟨hc, C42_schedule_final h ?_⟩
    by_contra hne
    have := hi.acc_le
    exact hstuck (C42_schedule_progress h hc (by omega))
  · rintro ⟨i, h1, h2⟩
    by_contra hc
    have hle := hi.acc_le
    have : s.acc.length = n := by
      by_contra hne
      exact hstuck (C42_schedule_progress h (by simpa using hc) (by omega))
    exact h2 ⟨_, hi.received i (by omega)⟩

/-- Three goroutines, the last finishing first: a reachable state in which one value has been received. -/
example : ∃ s, Reach (fun i => ok (10 * i)) 3 s ∧ s.acc = [0] := by
  refine ⟨_, .step _ _ (.step _ _ (.step _ _ .start (.finish _ 2 20 rfl rfl rfl)) (.finish _ 0 0 rfl rfl rfl))
    (.receive _ 0 rfl rfl), rfl⟩

end Verif.Parallel
