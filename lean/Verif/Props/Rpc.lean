import Verif.Lemmas.Rpc
import Mathlib.Logic.Relation

/-! # Concurrent queries and shutdown of the server (C44, C45) -/

set_option linter.unusedSimpArgs false
set_option linter.unnecessarySeqFocus false
namespace Verif.Rpc
open Res

variable {work : List Byte → Res (List Byte)} {s s' : State}

/-! ### C44: every call gets the answer to its own query -/

/-- C44: a call that returns an answer returns the answer to the query it carried; the same for errors; and it gives
up only if its context ended. -/
theorem C44_reply_to_own_query (h : Reach work s) (i : Nat) (c : Call) (hc : s.calls[i]? = some c) (r : Reply)
    (hr : c.status = .returned r) :
    match r with
    | .answer a => work c.query = ok a
    | .error e => work c.query = err e
    | .deadline => c.cancelled = true := by
  have := (inv_reach h).calls i c hc
  unfold CallOk at this
  rw [hr] at this
  have := this.2.2
  cases r with
  | answer a => exact this.1
  | error e => exact this.1
  | deadline => exact this

/-- C44: the queries are answered in the order in which they entered the channel, each at most once, and none is lost:
those not yet answered are in the worker or in the channel. -/
theorem C44_in_order_once (h : Reach work s) :
    s.sent.Nodup ∧ s.answered <+: s.sent ∧ s.sent.length = s.answered.length + s.queue.length +
      (match s.worker with | .busy _ => 1 | _ => 0) ∧
    ∀ i c, s.calls[i]? = some c → (i ∈ s.sent ↔ c.status ≠ .sending) := by
  have hi := inv_reach h
  refine ⟨hi.nodup, ⟨inWork s.worker ++ s.queue, by rw [hi.history, List.append_assoc]⟩, ?_, ?_⟩
  · rw [hi.history]
    cases s.worker <;> simp [inWork] <;> omega
  · intro i c hc
    have := hi.calls i c hc
    unfold CallOk at this
    generalize c.status = t at *
    cases t with
    | sending => simp [this.1]
    | waiting => simp [this.1]
    | returned r => simp [this.1]

/-- C44: the worker is never blocked by a call, cancelled or not: as long as it has a query it can finish it. -/
theorem C44_worker_never_blocked (h : Reach work s) (hc : s.crashed = false) (i : Nat) (hw : s.worker = .busy i) :
    ∃ s', Sys work s s' ∧ (s'.worker = .idle ∧ s'.answered = s.answered ++ [i] ∨
      s'.crashed = true ∧ ∃ c : Call, s.calls[i]? = some c ∧ (work c.query).isCrash) := by
  have hi := inv_reach h
  obtain ⟨h1, h2, -⟩ := inv_busy hi hw
  have hl := hi.known i h1
  have hic : s.calls[i]? = some s.calls[i] := List.getElem?_eq_getElem hl
  have hok := hi.calls i _ hic
  have hch : s.calls[i].answerCh = none ∧ s.calls[i].errorCh = none := by
    unfold CallOk at hok
    generalize s.calls[i].status = t at *
    cases t with
    | sending => exact hok.2
    | waiting => exact hok.2.1 h2
    | returned r => exact hok.2.1 h2
  cases hwk : work s.calls[i].query with
  | ok a => exact ⟨_, Sys.answer s i _ a hc hw hic hwk hch.1, Or.inl ⟨rfl, rfl⟩⟩
  | err e => exact ⟨_, Sys.fail s i _ e hc hw hic hwk hch.2, Or.inl ⟨rfl, rfl⟩⟩
  | crash e => exact ⟨_, Sys.panics s i _ e hc hw hic hwk, Or.inr ⟨rfl, _, hic, by rw [hwk]; simp⟩⟩

/-- C44: the server cannot go on for ever without new calls: four steps for each call and a constant. -/
theorem C44_terminates (f : Nat → State) (k : Nat) (h0 : Reach work (f 0))
    (hs : ∀ i, i < k → Sys work (f i) (f (i + 1))) : k ≤ 4 * (f 0).calls.length + 23 := by
  have key : ∀ m, m ≤ k → m + measure (f m) ≤ measure (f 0) := by
    intro m
    induction m with
    | zero => intro _; omega
    | succ m ih =>
      intro hm
      have := ih (by omega)
      have := measure_sys (hs m (by omega))
      omega
  have h1 := key k (le_refl _)
  have hroom := (inv_reach h0).room
  have hsum : ∀ l : List Call, (l.map callCost).sum ≤ 4 * l.length := by
    intro l
    induction l with
    | nil => simp
    | cons c l ih =>
      have : callCost c ≤ 4 := by unfold callCost; split <;> omega
      simp only [List.map_cons, List.sum_cons, List.length_cons]
      omega
  have h2 : measure (f 0) ≤ 4 * (f 0).calls.length + 23 := by
    have h3 := hsum (f 0).calls
    have h4 : workerCost (f 0).worker ≤ 2 := by cases (f 0).worker <;> simp [workerCost]
    have h5 : (if (f 0).crashed then 0 else 1) ≤ 1 := by split <;> omega
    unfold measure capacity at *
    omega
  omega

/-- C44: when the server has come to rest every call has returned, as long as it is not shut down and has not crashed;
calls that were not cancelled got the answer or the error. -/
theorem C44_all_return (h : Reach work s) (hc : s.crashed = false) (hcl : s.closed = false)
    (hrest : ¬ ∃ s', Sys work s s') (i : Nat) (c : Call)
    (hic : s.calls[i]? = some c) :
    (∃ a, work c.query = ok a ∧ c.status = .returned (.answer a)) ∨
    (∃ e, work c.query = err e ∧ c.status = .returned (.error e)) ∨
    (c.cancelled = true ∧ c.status = .returned .deadline) := by
  have hi := inv_reach h
  have hidle : s.worker = .idle := by
    cases hw : s.worker with
    | idle => rfl
    | busy j =>
      obtain ⟨s', h1, -⟩ := C44_worker_never_blocked h hc j hw
      exact absurd ⟨s', h1⟩ hrest
    | stopped =>
      have := (hi.stopped hw).1
      rw [hcl] at this
      cases this
  have hq : s.queue = [] := by
    cases hq : s.queue with
    | nil => rfl
    | cons j rest => exact absurd ⟨_, Sys.take s j rest hc hidle hq⟩ hrest
  have hsa : s.sent = s.answered := by
    have := hi.history
    rw [hidle, hq] at this
    simpa [inWork] using this
  have hok := hi.calls i c hic
  cases hst : c.status with
  | sending =>
    exact absurd ⟨_, Sys.send s i c hc hic hst hcl (by rw [hq]; simp [capacity])⟩ hrest
  | waiting =>
    unfold CallOk at hok
    rw [hst] at hok
    rcases hok.2.2 (hsa ▸ hok.1) with ⟨a, -, h2, -⟩ | ⟨e, -, h2, -⟩
    · exact absurd ⟨_, Sys.recvAnswer s i c a hc hic hst h2⟩ hrest
    · exact absurd ⟨_, Sys.recvError s i c e hc hic hst h2⟩ hrest
  | returned r =>
    have := C44_reply_to_own_query h i c hic r hst
    cases r with
    | answer a => exact Or.inl ⟨a, this, rfl⟩
    | error e => exact Or.inr (Or.inl ⟨e, this, rfl⟩)
    | deadline => exact Or.inr (Or.inr ⟨this, rfl⟩)

/-- One step of the server or of its environment. -/
def Step (work : List Byte → Res (List Byte)) (s s' : State) : Prop := Env s s' ∨ Sys work s s'

theorem reach_steps (h : Reach work s) (hs : Relation.ReflTransGen (Step work) s s') : Reach work s' := by
  induction hs with
  | refl => exact h
  | tail _ st ih =>
    rcases st with st | st
    · exact .env _ _ ih st
    · exact .sys _ _ ih st

theorem sys_closed (st : Sys work s s') : s'.closed = s.closed := by cases st <;> rfl

/-- Left alone, the server comes to rest. -/
theorem comes_to_rest (s : State) : ∃ s', Relation.ReflTransGen (Step work) s s' ∧ s'.closed = s.closed ∧
    ¬ ∃ s'', Sys work s' s'' := by
  induction hm : measure s using Nat.strong_induction_on generalizing s with
  | _ m ih =>
    by_cases h : ∃ s'', Sys work s s''
    · obtain ⟨s1, h1⟩ := h
      obtain ⟨s', h2, h3, h4⟩ := ih (measure s1) (by rw [← hm]; exact measure_sys h1) s1 rfl
      exact ⟨s', .head (Or.inr h1) h2, by rw [h3, sys_closed h1], h4⟩
    · exact ⟨s, .refl, rfl, h⟩

/-- A query on which the answering function crashes can be sent by any client at any time before shutdown, and ends the
process, for all the other calls too: from every reachable state of a server that is up a crash is reachable. -/
theorem C44_crashing_query_kills (q : List Byte) (hq : (work q).isCrash) (h : Reach work s) (hcl : s.closed = false) :
    ∃ s', Relation.ReflTransGen (Step work) s s' ∧ s'.crashed = true ∧ s'.closed = false := by
  obtain ⟨e, he⟩ : ∃ e, work q = crash e := by
    cases hw : work q with
    | ok a => rw [hw] at hq; simp at hq
    | err e => rw [hw] at hq; simp at hq
    | crash e => exact ⟨e, rfl⟩
  obtain ⟨s1, h1, h2, h3⟩ := comes_to_rest (work := work) s
  rw [hcl] at h2
  have hr := reach_steps h h1
  have hi := inv_reach hr
  by_cases hc : s1.crashed = true
  · exact ⟨s1, h1, hc, h2⟩
  have hc : s1.crashed = false := by simpa using hc
  have hidle : s1.worker = .idle := by
    cases hw : s1.worker with
    | idle => rfl
    | busy j =>
      obtain ⟨s', h4, -⟩ := C44_worker_never_blocked hr hc j hw
      exact absurd ⟨s', h4⟩ h3
    | stopped =>
      have := (hi.stopped hw).1
      rw [h2] at this
      cases this
  have hque : s1.queue = [] := by
    cases hq : s1.queue with
    | nil => rfl
    | cons j rest => exact absurd ⟨_, Sys.take s1 j rest hc hidle hq⟩ h3
  have g1 := h1.tail (Or.inl (Env.arrive s1 q hc))
  have hnew : (s1.calls ++ [newCall q])[s1.calls.length]? = some (newCall q) := by simp
  have g2 := g1.tail (Or.inr (Sys.send _ s1.calls.length (newCall q) hc hnew rfl h2 (by simp [hque, capacity])))
  have g3 := g2.tail (Or.inr (Sys.take _ s1.calls.length [] hc hidle (by simp [hque])))
  have g4 := g3.tail (Or.inr (Sys.panics _ s1.calls.length { newCall q with status := .waiting } e hc rfl
    (List.getElem?_set_self (by simp)) he))
  exact ⟨_, g4, rfl, h2⟩

/-- Two calls, answered in the order of sending, the first returning last. -/
example : ∃ s, Reach (fun q => ok (q ++ [7])) s ∧ s.answered = [1, 0] ∧
    (s.calls.map Call.status) = [.returned (.answer [1, 7]), .returned (.answer [2, 7])] := by
  have h1 := Reach.env _ _ (Reach.start (work := fun q => ok (q ++ [7]))) (.arrive start [1] rfl)
  have h2 := Reach.env _ _ h1 (.arrive _ [2] rfl)
  have h3 := Reach.sys _ _ h2 (.send _ 1 (newCall [2]) rfl rfl rfl rfl (by simp [start, capacity]))
  have h4 := Reach.sys _ _ h3 (.take _ 1 [] rfl rfl rfl)
  have h5 := Reach.sys _ _ h4 (.send _ 0 (newCall [1]) rfl rfl rfl rfl (by simp [start, capacity]))
  have h6 := Reach.sys _ _ h5 (.answer _ 1 ⟨[2], .waiting, false, none, none⟩ [2, 7] rfl rfl rfl rfl rfl)
  have h7 := Reach.sys _ _ h6 (.take _ 0 [] rfl rfl rfl)
  have h8 := Reach.sys _ _ h7 (.answer _ 0 ⟨[1], .waiting, false, none, none⟩ [1, 7] rfl rfl rfl rfl rfl)
  have h9 := Reach.sys _ _ h8 (.recvAnswer _ 1 ⟨[2], .waiting, false, some [2, 7], none⟩ [2, 7] rfl rfl rfl rfl)
  have h10 := Reach.sys _ _ h9 (.recvAnswer _ 0 ⟨[1], .waiting, false, some [1, 7], none⟩ [1, 7] rfl rfl rfl rfl)
  exact ⟨_, h10, rfl, rfl⟩

/-- A state at rest, to which `C44_all_return` applies. -/
example : ¬ ∃ s', Sys (fun q => ok q) ⟨[⟨[1], .returned (.answer [1]), false, none, none⟩], [], .idle, false, false, [0], [0]⟩ s' := by
  rintro ⟨s', st⟩
  have key : ∀ {i : Nat} {c : Call}, ([⟨[1], .returned (.answer [1]), false, none, none⟩] : List Call)[i]? = some c →
      c.status = .returned (.answer [1]) := by
    intro i c hc
    rcases i with _ | i
    · simp only [List.getElem?_cons_zero, Option.some.injEq] at hc; rw [← hc]
    · simp at hc
  cases st with
  | send i c hc hic hst hcl hq => rw [key hic] at hst; cases hst
  | sendClosed i c hc hic hst hcl => cases hcl
  | take i rest hc hw hq => cases hq
  | exit hc hw hq hcl => cases hcl
  | answer i c a hc hw hic hwk hch => cases hw
  | fail i c e hc hw hic hwk hch => cases hw
  | panics i c e hc hw hic hwk => cases hw
  | recvAnswer i c a hc hic hst hch => rw [key hic] at hst; cases hst
  | recvError i c e hc hic hst hch => rw [key hic] at hst; cases hst
  | recvDone i c hc hic hst hcd => rw [key hic] at hst; cases hst

/-! ### C45: shutdown -/

/-- C45 as claimed: a server whose answering function does not crash never crashes. -/
def C45_Statement : Prop :=
  ∀ work : List Byte → Res (List Byte), (∀ q, ¬ (work q).isCrash) → ∀ s, Reach work s → s.crashed = false

/-- C45 as claimed is false: a call that is about to hand in its query when the channel is closed crashes the
process. -/
theorem C45_refuted : ¬ C45_Statement := by
  intro h
  have h1 := Reach.env _ _ (Reach.start (work := fun q => ok q)) (.arrive start [1] rfl)
  have h2 := Reach.env _ _ h1 (.close _ rfl rfl)
  have h3 := Reach.sys _ _ h2 (.sendClosed _ 0 (newCall [1]) rfl rfl rfl rfl)
  have := h _ (fun q => by simp) _ h3
  simp at this

/-- C45 restricted: calls that handed in their query before the channel was closed do not crash the server. Missing
from the full claim: calls that had not, for which it is false. -/
theorem C45_only_late_calls_partial (h : Reach work s) (hwk : ∀ q, ¬ (work q).isCrash) (hc : s.crashed = true) :
    s.closed = true ∧ ∃ (i : Nat) (c : Call), s.calls[i]? = some c ∧ c.status = .sending := by
  rcases (inv_reach h).crash hc with h1 | ⟨i, c, e, -, -, h2⟩
  · exact h1
  · exact absurd (by rw [h2]; simp) (hwk c.query)

/-- C45 restricted: after closing, if no call is late, the server comes to rest with the worker stopped, everything
answered, and every call returned. -/
theorem C45_drains_partial (h : Reach work s) (hwk : ∀ q, ¬ (work q).isCrash) (hcl : s.closed = true)
    (hlate : ∀ c ∈ s.calls, c.status ≠ .sending) (hrest : ¬ ∃ s', Sys work s s') :
    s.crashed = false ∧ s.worker = .stopped ∧ s.answered = s.sent ∧ ∀ c ∈ s.calls, ∃ r, c.status = .returned r := by
  have hi := inv_reach h
  have hc : s.crashed = false := by
    by_contra hc
    obtain ⟨-, i, c, h1, h2⟩ := C45_only_late_calls_partial h hwk (by simpa using hc)
    exact hlate c (List.mem_of_getElem? h1) h2
  have hw : s.worker = .stopped ∧ s.queue = [] := by
    cases hw : s.worker with
    | idle =>
      cases hq : s.queue with
      | nil => exact absurd ⟨_, Sys.exit s hc hw hq hcl⟩ hrest
      | cons j rest => exact absurd ⟨_, Sys.take s j rest hc hw hq⟩ hrest
    | busy j =>
      obtain ⟨s', h1, -⟩ := C44_worker_never_blocked h hc j hw
      exact absurd ⟨s', h1⟩ hrest
    | stopped => exact ⟨rfl, (hi.stopped hw).2⟩
  have hsa : s.answered = s.sent := by
    have := hi.history
    rw [hw.1, hw.2] at this
    simpa [inWork] using this.symm
  refine ⟨hc, hw.1, hsa, ?_⟩
  intro c hcm
  obtain ⟨i, hic⟩ := List.mem_iff_getElem?.mp hcm
  have hok := hi.calls i c hic
  cases hst : c.status with
  | sending => exact absurd hst (hlate c hcm)
  | waiting =>
    unfold CallOk at hok
    rw [hst] at hok
    rcases hok.2.2 (hsa ▸ hok.1) with ⟨a, -, h2, -⟩ | ⟨e, -, h2, -⟩
    · exact absurd ⟨_, Sys.recvAnswer s i c a hc hic hst h2⟩ hrest
    · exact absurd ⟨_, Sys.recvError s i c e hc hic hst h2⟩ hrest
  | returned r => exact ⟨r, rfl⟩

/-- A late call cannot escape: whatever happens, it stays where it is until the process has crashed, and the server
cannot come to rest otherwise. -/
theorem C45_late_call_is_fatal (hcl : s.closed = true) (i : Nat) (c : Call) (hic : s.calls[i]? = some c)
    (hst : c.status = .sending) :
    (∀ s', Env s s' ∨ Sys work s s' →
      s'.closed = true ∧ ∃ c' : Call, s'.calls[i]? = some c' ∧ c'.status = .sending) ∧
    ((¬ ∃ s', Sys work s s') → s.crashed = true) := by
  constructor
  · have keep : ∀ (j : Nat) (d d' : Call), s.calls[j]? = some d → (d.status = .sending → d'.status = .sending) →
        ∃ c' : Call, (s.calls.set j d')[i]? = some c' ∧ c'.status = .sending := by
      intro j d d' hjd hd
      by_cases hij : j = i
      · subst hij
        rw [hic] at hjd
        cases hjd
        exact ⟨d', by rw [List.getElem?_set_self (List.getElem?_eq_some_iff.mp hic).1], hd hst⟩
      · exact ⟨c, by rw [List.getElem?_set_ne hij]; exact hic, hst⟩
    rintro s' (st | st)
    · cases st with
      | arrive q hc =>
        refine ⟨hcl, c, ?_, hst⟩
        simp only
        rw [List.getElem?_append_left (List.getElem?_eq_some_iff.mp hic).1]
        exact hic
      | cancel j d hc hjd => exact ⟨hcl, keep j d _ hjd (fun h => h)⟩
      | close hc hcl' => exact ⟨rfl, c, hic, hst⟩
    · cases st with
      | send j d hc hjd hst' hcl' hq => rw [hcl] at hcl'; cases hcl'
      | sendClosed j d hc hjd hst' hcl' => exact ⟨hcl, c, hic, hst⟩
      | take j rest hc hw hq => exact ⟨hcl, c, hic, hst⟩
      | exit hc hw hq hcl' => exact ⟨hcl, c, hic, hst⟩
      | answer j d a hc hw hjd hwk hch => exact ⟨hcl, keep j d _ hjd (fun h => h)⟩
      | fail j d e hc hw hjd hwk hch => exact ⟨hcl, keep j d _ hjd (fun h => h)⟩
      | panics j d e hc hw hjd hwk => exact ⟨hcl, c, hic, hst⟩
      | recvAnswer j d a hc hjd hst' hch =>
        exact ⟨hcl, keep j d _ hjd (fun h => by rw [h] at hst'; cases hst')⟩
      | recvError j d e hc hjd hst' hch =>
        exact ⟨hcl, keep j d _ hjd (fun h => by rw [h] at hst'; cases hst')⟩
      | recvDone j d hc hjd hst' hcd =>
        exact ⟨hcl, keep j d _ hjd (fun h => by rw [h] at hst'; cases hst')⟩
  · intro hrest
    by_contra hc
    exact hrest ⟨_, Sys.sendClosed s i c (by simpa using hc) hic hst hcl⟩

/-- A state with a late call: eleven calls while the worker is busy would do; here the call has just arrived. -/
example : ∃ s, Reach (fun q => ok q) s ∧ s.closed = true ∧ s.crashed = false ∧
    ∃ c : Call, s.calls[0]? = some c ∧ c.status = .sending := by
  have h1 := Reach.env _ _ (Reach.start (work := fun q => ok q)) (.arrive start [1] rfl)
  have h2 := Reach.env _ _ h1 (.close _ rfl rfl)
  exact ⟨_, h2, rfl, rfl, newCall [1], rfl, rfl⟩

end Verif.Rpc
