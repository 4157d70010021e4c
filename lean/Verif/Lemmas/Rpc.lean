import Verif.Model.Rpc

/-! # The invariant of the query handling -/

set_option linter.unusedSimpArgs false
namespace Verif.Rpc
open Res

variable {work : List Byte → Res (List Byte)} {s s' : State}

/-- The answer or error of the call is in its channel, and nothing else. -/
def Delivered (work : List Byte → Res (List Byte)) (c : Call) : Prop :=
  (∃ a, work c.query = ok a ∧ c.answerCh = some a ∧ c.errorCh = none) ∨
  (∃ e, work c.query = err e ∧ c.errorCh = some e ∧ c.answerCh = none)

/-- What a return value says about the call. -/
def ReplyOk (work : List Byte → Res (List Byte)) (answered : List Nat) (i : Nat) (c : Call) : Reply → Prop
  | .answer a => work c.query = ok a ∧ i ∈ answered
  | .error e => work c.query = err e ∧ i ∈ answered
  | .deadline => c.cancelled = true

/-- The state of a call in terms of the history. -/
def CallOk (work : List Byte → Res (List Byte)) (sent answered : List Nat) (i : Nat) (c : Call) : Prop :=
  match c.status with
  | .sending => i ∉ sent ∧ c.answerCh = none ∧ c.errorCh = none
  | .waiting => i ∈ sent ∧ (i ∉ answered → c.answerCh = none ∧ c.errorCh = none) ∧
      (i ∈ answered → Delivered work c)
  | .returned r => i ∈ sent ∧ (i ∉ answered → c.answerCh = none ∧ c.errorCh = none) ∧
      ReplyOk work answered i c r

/-- The call the worker is answering. -/
def inWork : Worker → List Nat
  | .busy i => [i]
  | _ => []

structure Inv (work : List Byte → Res (List Byte)) (s : State) : Prop where
  history : s.sent = s.answered ++ inWork s.worker ++ s.queue
  nodup : s.sent.Nodup
  known : ∀ i ∈ s.sent, i < s.calls.length
  calls : ∀ i c, s.calls[i]? = some c → CallOk work s.sent s.answered i c
  room : s.queue.length ≤ capacity
  stopped : s.worker = .stopped → s.closed = true ∧ s.queue = []
  crash : s.crashed = true →
    (s.closed = true ∧ ∃ (i : Nat) (c : Call), s.calls[i]? = some c ∧ c.status = .sending) ∨
    (∃ (i : Nat) (c : Call) (e : String), i ∈ s.sent ∧ s.calls[i]? = some c ∧ work c.query = crash e)

theorem getElem?_set_cases {α : Type _} {l : List α} {i j : Nat} {x c : α} (h : (l.set i x)[j]? = some c) :
    (j = i ∧ c = x) ∨ (j ≠ i ∧ l[j]? = some c) := by
  by_cases hij : i = j
  · subst hij
    by_cases hl : i < l.length
    · rw [List.getElem?_set_self hl] at h
      left
      exact ⟨rfl, by simpa using h.symm⟩
    · rw [List.getElem?_eq_none (by simp; omega)] at h
      cases h
  · right
    rw [List.getElem?_set_ne hij] at h
    exact ⟨Ne.symm hij, h⟩

theorem inv_start : Inv work start where
  history := rfl
  nodup := by simp [start]
  known := by simp [start]
  calls := by simp [start]
  room := by simp [start]
  stopped := by intro h; simp [start] at h
  crash := by intro h; simp [start] at h

theorem inv_env (h : Inv work s) (st : Env s s') : Inv work s' := by
  cases st with
  | arrive q hc =>
    refine ⟨h.history, h.nodup, ?_, ?_, h.room, h.stopped, ?_⟩
    · intro i hi
      have := h.known i hi
      simp only [List.length_append]
      omega
    · intro i c hic
      rcases Nat.lt_or_ge i s.calls.length with hl | hl
      · simp only [List.getElem?_append_left hl] at hic
        exact h.calls i c hic
      · simp only [List.getElem?_append_right hl] at hic
        have h0 : i - s.calls.length = 0 ∧ c = newCall q := by
          rcases Nat.eq_zero_or_pos (i - s.calls.length) with h0 | h0
          · rw [h0] at hic
            exact ⟨h0, by simpa using hic.symm⟩
          · rw [List.getElem?_eq_none (by rw [List.length_singleton]; omega)] at hic
            cases hic
        obtain ⟨h0, rfl⟩ := h0
        refine ⟨?_, rfl, rfl⟩
        intro hs
        have := h.known i hs
        omega
    · intro hcr
      simp only at hcr
      rw [hc] at hcr
      cases hcr
  | cancel i c hc hic =>
    refine ⟨h.history, h.nodup, ?_, ?_, h.room, h.stopped, ?_⟩
    · intro j hj
      simpa using h.known j hj
    · intro j d hjd
      rcases getElem?_set_cases hjd with ⟨rfl, rfl⟩ | ⟨_, hjd⟩
      · have hb := h.calls j c hic
        unfold CallOk at hb ⊢
        dsimp only
        generalize c.status = t at *
        cases t with
        | sending => exact hb
        | waiting => exact hb
        | returned r =>
          refine ⟨hb.1, hb.2.1, ?_⟩
          have := hb.2.2
          cases r with
          | answer a => exact this
          | error e => exact this
          | deadline => rfl
      · exact h.calls j d hjd
    · intro hcr
      simp only at hcr
      rw [hc] at hcr
      cases hcr
  | close hc hcl =>
    refine ⟨h.history, h.nodup, h.known, h.calls, h.room, fun hs => ⟨rfl, (h.stopped hs).2⟩, ?_⟩
    intro hcr
    simp only at hcr
    rw [hc] at hcr
    cases hcr

/-- Calls not concerned by a step keep their part of the invariant. -/
theorem callOk_mono {sent answered sent' answered' : List Nat} {i : Nat} {c : Call}
    (h : CallOk work sent answered i c) (h1 : i ∈ sent' ↔ i ∈ sent) (h2 : i ∈ answered' ↔ i ∈ answered) :
    CallOk work sent' answered' i c := by
  unfold CallOk at h ⊢
  generalize c.status = t at *
  cases t with
  | sending => simpa only [h1] using h
  | waiting => simpa only [h1, h2] using h
  | returned r =>
    refine ⟨h1.mpr h.1, fun hn => h.2.1 (fun hm => hn (h2.mpr hm)), ?_⟩
    have := h.2.2
    cases r with
    | answer a => exact ⟨this.1, h2.mpr this.2⟩
    | error e => exact ⟨this.1, h2.mpr this.2⟩
    | deadline => exact this

theorem inv_busy (h : Inv work s) {i : Nat} (hw : s.worker = .busy i) : i ∈ s.sent ∧ i ∉ s.answered ∧ i ∉ s.queue := by
  have hh := h.history
  rw [hw] at hh
  have hn := h.nodup
  rw [hh] at hn
  simp only [inWork] at hn hh
  rw [List.append_assoc, List.nodup_append] at hn
  refine ⟨by rw [hh]; simp, fun hm => hn.2.2 i hm i (by simp) rfl, ?_⟩
  have := hn.2.1
  simp only [List.singleton_append, List.nodup_cons] at this
  exact this.1

theorem inv_sys (h : Inv work s) (st : Sys work s s') : Inv work s' := by
  cases st with
  | send i c hc hic hst hcl hq =>
    have hci := h.calls i c hic
    unfold CallOk at hci
    rw [hst] at hci
    obtain ⟨hns, ha, he⟩ := hci
    have hna : i ∉ s.answered := fun hm => hns (by rw [h.history]; simp [hm])
    refine ⟨?_, ?_, ?_, ?_, ?_, ?_, ?_⟩
    · simp only [h.history, List.append_assoc]
    · rw [List.nodup_append]
      refine ⟨h.nodup, by simp, ?_⟩
      intro a ha b hb
      simp only [List.mem_singleton] at hb
      subst hb
      exact fun hab => hns (hab ▸ ha)
    · intro j hj
      simp only [List.length_set]
      rcases List.mem_append.mp hj with hj | hj
      · exact h.known j hj
      · simp only [List.mem_singleton] at hj
        subst hj
        exact (List.getElem?_eq_some_iff.mp hic).1
    · intro j d hjd
      rcases getElem?_set_cases hjd with ⟨rfl, rfl⟩ | ⟨hne, hjd⟩
      · unfold CallOk
        exact ⟨by simp, fun _ => ⟨ha, he⟩, fun hm => absurd hm hna⟩
      · exact callOk_mono (h.calls j d hjd) (by simp [hne]) Iff.rfl
    · simp only [List.length_append, List.length_singleton]
      omega
    · intro hs
      have := (h.stopped hs).1
      rw [hcl] at this
      cases this
    · intro hcr
      simp only at hcr
      rw [hc] at hcr
      cases hcr
  | sendClosed i c hc hic hst hcl =>
    exact ⟨h.history, h.nodup, h.known, h.calls, h.room, h.stopped, fun _ => Or.inl ⟨hcl, i, c, hic, hst⟩⟩
  | take i rest hc hw hq =>
    refine ⟨?_, h.nodup, h.known, h.calls, ?_, ?_, ?_⟩
    · have := h.history
      rw [hw, hq] at this
      simpa [inWork] using this
    · have := h.room
      rw [hq] at this
      simp only [List.length_cons] at this
      simp only
      omega
    · intro hs
      cases hs
    · intro hcr
      simp only at hcr
      rw [hc] at hcr
      cases hcr
  | exit hc hw hq hcl =>
    refine ⟨?_, h.nodup, h.known, h.calls, h.room, fun _ => ⟨hcl, hq⟩, ?_⟩
    · have := h.history
      rw [hw] at this
      exact this
    · intro hcr
      simp only at hcr
      rw [hc] at hcr
      cases hcr
  | answer i c a hc hw hic hwk hch =>
    obtain ⟨hs, hna, -⟩ := inv_busy h hw
    refine ⟨?_, h.nodup, ?_, ?_, h.room, ?_, ?_⟩
    · have := h.history
      rw [hw] at this
      simpa [inWork] using this
    · intro j hj
      simpa using h.known j hj
    · intro j d hjd
      rcases getElem?_set_cases hjd with ⟨rfl, rfl⟩ | ⟨hne, hjd⟩
      · have hci := h.calls j c hic
        unfold CallOk at hci ⊢
        dsimp only
        generalize c.status = t at *
        cases t with
        | sending => exact absurd hs hci.1
        | waiting =>
          exact ⟨hs, fun hn => absurd (by simp) hn, fun _ => Or.inl ⟨a, hwk, rfl, (hci.2.1 hna).2⟩⟩
        | returned r =>
          refine ⟨hs, fun hn => absurd (by simp) hn, ?_⟩
          have := hci.2.2
          cases r with
          | answer a => exact absurd this.2 hna
          | error e => exact absurd this.2 hna
          | deadline => exact this
      · exact callOk_mono (h.calls j d hjd) Iff.rfl (by simp [hne])
    · intro hst
      cases hst
    · intro hcr
      simp only at hcr
      rw [hc] at hcr
      cases hcr
  | fail i c e hc hw hic hwk hch =>
    obtain ⟨hs, hna, -⟩ := inv_busy h hw
    refine ⟨?_, h.nodup, ?_, ?_, h.room, ?_, ?_⟩
    · have := h.history
      rw [hw] at this
      simpa [inWork] using this
    · intro j hj
      simpa using h.known j hj
    · intro j d hjd
      rcases getElem?_set_cases hjd with ⟨rfl, rfl⟩ | ⟨hne, hjd⟩
      · have hci := h.calls j c hic
        unfold CallOk at hci ⊢
        dsimp only
        generalize c.status = t at *
        cases t with
        | sending => exact absurd hs hci.1
        | waiting =>
          exact ⟨hs, fun hn => absurd (by simp) hn, fun _ => Or.inr ⟨e, hwk, rfl, (hci.2.1 hna).1⟩⟩
        | returned r =>
          refine ⟨hs, fun hn => absurd (by simp) hn, ?_⟩
          have := hci.2.2
          cases r with
          | answer a => exact absurd this.2 hna
          | error e => exact absurd this.2 hna
          | deadline => exact this
      · exact callOk_mono (h.calls j d hjd) Iff.rfl (by simp [hne])
    · intro hst
      cases hst
    · intro hcr
      simp only at hcr
      rw [hc] at hcr
      cases hcr
  | panics i c e hc hw hic hwk =>
    exact ⟨h.history, h.nodup, h.known, h.calls, h.room, h.stopped,
      fun _ => Or.inr ⟨i, c, e, (inv_busy h hw).1, hic, hwk⟩⟩
  | recvAnswer i c a hc hic hst hch =>
    refine ⟨h.history, h.nodup, ?_, ?_, h.room, h.stopped, ?_⟩
    · intro j hj
      simpa using h.known j hj
    · intro j d hjd
      rcases getElem?_set_cases hjd with ⟨rfl, rfl⟩ | ⟨hne, hjd⟩
      · have hci := h.calls j c hic
        unfold CallOk at hci
        rw [hst] at hci
        obtain ⟨h1, h2, h3⟩ := hci
        have hin : j ∈ s.answered := by
          by_contra hn
          rw [(h2 hn).1] at hch
          cases hch
        refine ⟨h1, fun hn => absurd hin hn, ?_⟩
        rcases h3 hin with ⟨a', h4, h5, -⟩ | ⟨e, -, -, h5⟩
        · rw [hch] at h5
          cases h5
          exact ⟨h4, hin⟩
        · rw [hch] at h5
          cases h5
      · exact h.calls j d hjd
    · intro hcr
      simp only at hcr
      rw [hc] at hcr
      cases hcr
  | recvError i c e hc hic hst hch =>
    refine ⟨h.history, h.nodup, ?_, ?_, h.room, h.stopped, ?_⟩
    · intro j hj
      simpa using h.known j hj
    · intro j d hjd
      rcases getElem?_set_cases hjd with ⟨rfl, rfl⟩ | ⟨hne, hjd⟩
      · have hci := h.calls j c hic
        unfold CallOk at hci
        rw [hst] at hci
        obtain ⟨h1, h2, h3⟩ := hci
        have hin : j ∈ s.answered := by
          by_contra hn
          rw [(h2 hn).2] at hch
          cases hch
        refine ⟨h1, fun hn => absurd hin hn, ?_⟩
        rcases h3 hin with ⟨a', -, -, h5⟩ | ⟨e', h4, h5, -⟩
        · rw [hch] at h5
          cases h5
        · rw [hch] at h5
          cases h5
          exact ⟨h4, hin⟩
      · exact h.calls j d hjd
    · intro hcr
      simp only at hcr
      rw [hc] at hcr
      cases hcr
  | recvDone i c hc hic hst hcd =>
    refine ⟨h.history, h.nodup, ?_, ?_, h.room, h.stopped, ?_⟩
    · intro j hj
      simpa using h.known j hj
    · intro j d hjd
      rcases getElem?_set_cases hjd with ⟨rfl, rfl⟩ | ⟨hne, hjd⟩
      · have hci := h.calls j c hic
        unfold CallOk at hci
        rw [hst] at hci
        exact ⟨hci.1, hci.2.1, hcd⟩
      · exact h.calls j d hjd
    · intro hcr
      simp only at hcr
      rw [hc] at hcr
      cases hcr

theorem inv_reach (h : Reach work s) : Inv work s := by
  induction h with
  | start => exact inv_start
  | env s s' _ st ih => exact inv_env ih st
  | sys s s' _ st ih => exact inv_sys ih st

/-! ### A bound on the number of steps -/

def callCost (c : Call) : Nat :=
  match c.status with
  | .sending => 4
  | .waiting => 1
  | .returned _ => 0

def workerCost : Worker → Nat
  | .idle => 1
  | .busy _ => 2
  | .stopped => 0

def measure (s : State) : Nat :=
  (s.calls.map callCost).sum + 2 * s.queue.length + workerCost s.worker + if s.crashed then 0 else 1

theorem sum_set {l : List Call} {i : Nat} {c : Call} (d : Call) (h : l[i]? = some c) :
    ((l.set i d).map callCost).sum + callCost c = (l.map callCost).sum + callCost d := by
  induction l generalizing i with
  | nil => simp at h
  | cons a l ih =>
    cases i with
    | zero =>
      simp only [List.getElem?_cons_zero, Option.some.injEq] at h
      subst h
      simp only [List.set_cons_zero, List.map_cons, List.sum_cons]
      omega
    | succ i =>
      simp only [List.getElem?_cons_succ] at h
      simp only [List.set_cons_succ, List.map_cons, List.sum_cons]
      have := ih h
      omega

theorem measure_sys (st : Sys work s s') : measure s' < measure s := by
  cases st with
  | send i c hc hic hst hcl hq =>
    have := sum_set { c with status := Status.waiting } hic
    simp only [measure, List.length_append, List.length_singleton, callCost, hst] at this ⊢
    omega
  | sendClosed i c hc hic hst hcl => simp [measure, hc]
  | take i rest hc hw hq =>
    simp only [measure, hw, hq, workerCost, List.length_cons]
    omega
  | exit hc hw hq hcl =>
    simp only [measure, hw, hq, workerCost, List.length_cons]
    omega
  | answer i c a hc hw hic hwk hch =>
    have := sum_set { c with answerCh := some a } hic
    simp only [measure, hw, workerCost, callCost] at this ⊢
    omega
  | fail i c a hc hw hic hwk hch =>
    have := sum_set { c with errorCh := some a } hic
    simp only [measure, hw, workerCost, callCost] at this ⊢
    omega
  | panics i c e hc hw hic hwk => simp [measure, hc]
  | recvAnswer i c a hc hic hst hch =>
    have := sum_set { c with status := .returned (.answer a), answerCh := none } hic
    simp only [measure, callCost, hst] at this ⊢
    omega
  | recvError i c a hc hic hst hch =>
    have := sum_set { c with status := .returned (.error a), errorCh := none } hic
    simp only [measure, callCost, hst] at this ⊢
    omega
  | recvDone i c hc hic hst hch =>
    have := sum_set { c with status := .returned .deadline } hic
    simp only [measure, callCost, hst] at this ⊢
    omega

end Verif.Rpc
