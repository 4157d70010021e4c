import Verif.Spec.Stop
import Mathlib.Logic.Relation

/-! # Facts about the life of an experiment server -/

namespace Verif.Stop
open Res

variable {work : List Byte → Res (List Byte)} {s s' : State}

theorem alive_iff : alive s = true ↔ s.crashed = false ∧ s.pc ≠ .exited ∧ ∀ m, s.pc ≠ .fatal m := by
  unfold alive
  cases hc : s.crashed <;> cases hp : s.pc <;> simp

theorem listening_iff : listening s = true ↔
    s.crashed = false ∧ (s.pc = .waiting ∨ s.pc = .draining ∨ s.pc = .drained) := by
  unfold listening alive
  cases hc : s.crashed <;> cases hp : s.pc <;> simp

/-- How many handlers have returned. -/
def served (l : List Handler) : Nat := l.countP (· = .returned)

theorem served_append (l : List Handler) : served (l ++ [.sending]) = served l := by
  simp [served, List.countP_append]

theorem served_set {l : List Handler} {i : Nat} (h : l[i]? = some .sending) :
    served (l.set i .returned) = served l + 1 := by
  induction l generalizing i with
  | nil => simp at h
  | cons a l ih =>
    cases i with
    | zero =>
      simp only [List.getElem?_cons_zero, Option.some.injEq] at h
      subst h
      simp [served]
    | succ i =>
      have := ih (by simpa using h)
      simp only [served, List.set_cons_succ, List.countP_cons] at this ⊢
      omega

theorem served_le (l : List Handler) : served l ≤ l.length := List.countP_le_length

theorem served_lt {l : List Handler} {h : Handler} (hm : h ∈ l) (hs : h ≠ .returned) : served l < l.length := by
  rcases Nat.lt_or_ge (served l) l.length with h1 | h1
  · exact h1
  · exact absurd (of_decide_eq_true (List.countP_eq_length.mp (Nat.le_antisymm (served_le l) h1) h hm)) hs

/-- One for a signal that the main goroutine has taken. -/
def taken : Pc → Nat
  | .waiting => 0
  | .fatal _ => 0
  | _ => 1

/-- What holds of every reachable state. -/
structure Inv (work : List Byte → Res (List Byte)) (s : State) : Prop where
  /-- What has been put into the channel has been taken out or is there. -/
  count : (if s.signal then 1 else 0) + taken s.pc ≤ s.signals + served s.requests
  /-- And nothing asked for gets lost, unless there is something in the channel. -/
  kept : s.signal = false → s.pc = .waiting → s.signals = 0 ∧ served s.requests = 0
  /-- Results are the results of the calls' own queries. -/
  own : ∀ c ∈ s.calls, ∀ r, c.result = some r → r = work c.query ∧ ¬ r.isCrash
  /-- After `GracefulStop` every call has returned, or its client has given up. -/
  done : s.pc = .drained ∨ s.pc = .shutting ∨ s.pc = .exited → ∀ c ∈ s.calls, c.result ≠ none ∨ c.cancelled = true
  /-- After `Shutdown` every handler has returned. -/
  shut : s.pc = .exited → ∀ h ∈ s.requests, h = .returned
  /-- A panic is one of the calls. -/
  panic : s.crashed = true → ∃ c ∈ s.calls, (work c.query).isCrash

theorem inv_start : Inv work start where
  count := by simp [start, taken, served]
  kept := by simp [start, served]
  own := by simp [start]
  done := by simp [start]
  shut := by simp [start]
  panic := by simp [start]

theorem inv_env (h : Inv work s) (st : Env s s') : Inv work s' := by
  cases st with
  | call q ha hp =>
    refine ⟨h.count, h.kept, ?_, ?_, h.shut, ?_⟩
    · intro c hc r hr
      rcases List.mem_append.mp hc with hc | hc
      · exact h.own c hc r hr
      · simp only [List.mem_singleton] at hc; subst hc; cases hr
    · intro hd; simp only [hp] at hd; simp at hd
    · intro hc
      obtain ⟨c, h1, h2⟩ := h.panic hc
      exact ⟨c, List.mem_append_left _ h1, h2⟩
  | cancel i c ha hc =>
    refine ⟨h.count, h.kept, ?_, ?_, h.shut, ?_⟩
    · intro d hd r hr
      rcases List.mem_or_eq_of_mem_set hd with hd | hd
      · exact h.own d hd r hr
      · subst hd; exact h.own c (List.mem_of_getElem? hc) r hr
    · intro hd d hm
      rcases List.mem_or_eq_of_mem_set hm with hm | hm
      · exact h.done hd d hm
      · subst hm; exact Or.inr rfl
    · intro hcr
      rw [alive_iff] at ha
      exact absurd hcr (by simp [ha.1])
  | signal ha =>
    refine ⟨?_, by simp, h.own, h.done, h.shut, h.panic⟩
    have := h.count
    have : taken s.pc ≤ 1 := by cases s.pc <;> simp [taken]
    simp only [if_true]
    split at * <;> omega
  | request hl =>
    rw [listening_iff] at hl
    refine ⟨by simpa [served_append] using h.count, by simpa [served_append] using h.kept, h.own, h.done, ?_, h.panic⟩
    intro he
    simp only at he
    rw [he] at hl
    simp at hl
  | serveFails m ha hn => exact ⟨h.count, h.kept, h.own, h.done, h.shut, h.panic⟩

theorem inv_sys (h : Inv work s) (st : Sys work s s') : Inv work s' := by
  cases st with
  | answer i c ha hc hr hw =>
    refine ⟨h.count, h.kept, ?_, ?_, h.shut, ?_⟩
    · intro d hd r hr
      rcases List.mem_or_eq_of_mem_set hd with hd | hd
      · exact h.own d hd r hr
      · subst hd
        simp only [Option.some.injEq] at hr
        subst hr
        exact ⟨rfl, hw⟩
    · intro hd d hm
      rcases List.mem_or_eq_of_mem_set hm with hm | hm
      · exact h.done hd d hm
      · subst hm; exact Or.inl (by simp)
    · intro hcr
      rw [alive_iff] at ha
      exact absurd hcr (by simp [ha.1])
  | panics i c ha hc hr hw =>
    exact ⟨h.count, h.kept, h.own, h.done, h.shut, fun _ => ⟨c, List.mem_of_getElem? hc, hw⟩⟩
  | deliver i ha hi hs =>
    refine ⟨?_, by simp, h.own, h.done, ?_, h.panic⟩
    · have := h.count
      simp only [hs] at this
      simp only [if_true, served_set hi]
      simp at this
      omega
    · intro he g hg
      rcases List.mem_or_eq_of_mem_set hg with hg | hg
      · exact h.shut he g hg
      · exact hg
  | takeError m ha hp he =>
    refine ⟨?_, by simp, h.own, by simp, by simp, h.panic⟩
    have := h.count
    rw [hp] at this
    simpa [taken] using this
  | takeSignal ha hp hs =>
    refine ⟨?_, by simp, h.own, by simp, by simp, h.panic⟩
    have := h.count
    rw [hp, hs] at this
    simpa [taken] using this
  | drain ha hp hd =>
    refine ⟨?_, by simp, h.own, fun _ => hd, by simp, h.panic⟩
    have := h.count
    rw [hp] at this
    simpa [taken] using this
  | shut ha hp =>
    refine ⟨?_, by simp, h.own, fun _ => h.done (Or.inl hp), by simp, h.panic⟩
    have := h.count
    rw [hp] at this
    simpa [taken] using this
  | exit ha hp hr =>
    refine ⟨?_, by simp, h.own, fun _ => h.done (Or.inr (Or.inl hp)), fun _ => hr, h.panic⟩
    have := h.count
    rw [hp] at this
    simpa [taken] using this

theorem inv_reach (h : Reach work s) : Inv work s := by
  induction h with
  | start => exact inv_start
  | env s s' _ st ih => exact inv_env ih st
  | sys s s' _ st ih => exact inv_sys ih st

theorem reach_steps (h : Reach work s) (hs : Relation.ReflTransGen (Spec.Step work) s s') : Reach work s' := by
  induction hs with
  | refl => exact h
  | tail _ st ih =>
    rcases st with st | st
    · exact .env _ _ ih st
    · exact .sys _ _ ih st

/-- What is left to do. -/
def measure (s : State) : Nat :=
  s.calls.countP (fun c => c.result.isNone) + s.requests.countP (· = .sending) + (if s.crashed then 0 else 1) +
    (match s.pc with
    | .waiting => 4
    | .draining => 3
    | .drained => 2
    | .shutting => 1
    | _ => 0)

theorem countP_set_lt {α : Type} {p : α → Bool} {l : List α} {i : Nat} {a b : α} (h : l[i]? = some a)
    (ha : p a = true) (hb : p b = false) : (l.set i b).countP p + 1 = l.countP p := by
  induction l generalizing i with
  | nil => simp at h
  | cons c l ih =>
    cases i with
    | zero =>
      simp only [List.getElem?_cons_zero, Option.some.injEq] at h
      subst h
      simp [ha, hb]
    | succ i =>
      have := ih (by simpa using h)
      simp only [List.set_cons_succ, List.countP_cons]
      omega

theorem measure_sys (st : Sys work s s') : measure s' < measure s := by
  cases st with
  | answer i c ha hc hr hw =>
    have := countP_set_lt (p := fun c : Call => c.result.isNone) (b := { c with result := some (work c.query) }) hc
      (by simp [hr]) (by simp)
    simp only [measure]
    omega
  | panics i c ha hc hr hw =>
    rw [alive_iff] at ha
    simp [measure, ha.1]
  | deliver i ha hi hs =>
    have := countP_set_lt (p := fun h : Handler => decide (h = .sending)) (b := .returned) hi (by simp) (by simp)
    simp only [measure]
    omega
  | takeError m ha hp he => simp [measure, hp]
  | takeSignal ha hp hs => simp [measure, hp]
  | drain ha hp hd => simp [measure, hp]
  | shut ha hp => simp [measure, hp]
  | exit ha hp hr => simp [measure, hp]

end Verif.Stop
