import Verif.Spec.Life
import Verif.Props.Rpc

/-! # The invariant of the server process -/

namespace Verif.Life
open Res

variable {work : List Byte → Res (List Byte)} {s s' : State}

theorem sdNotify_sent (k : Socket) (u : Bool) (st : String) : (sdNotify k u st).2.2 = [] ∨ (sdNotify k u st).2.2 = [st] := by
  unfold sdNotify
  repeat' split
  all_goals simp

/-- `stopWorker` has been called. -/
def Closing : Pc → Prop
  | .closed => True
  | .draining => True
  | .drained => True
  | .exited => True
  | _ => False

/-- What the service manager may have been told. -/
def ToldOk : Pc → List String → Prop
  | .starting, l => l = []
  | .exited, l => ∃ a b : List String, l = a ++ b ∧ (a = [] ∨ a = [ready]) ∧ (b = [] ∨ b = [stopping])
  | _, l => l = [] ∨ l = [ready]

structure Inv (work : List Byte → Res (List Byte)) (s : State) : Prop where
  rpc : Rpc.Reach work s.rpc
  closed : s.rpc.closed = true ↔ Closing s.pc
  returned : s.pc = .drained ∨ s.pc = .exited → ∀ c ∈ s.rpc.calls, ∃ r, c.status = .returned r
  told : ToldOk s.pc s.told

theorem alive_iff : alive s = true ↔ s.rpc.crashed = false ∧ s.pc ≠ .exited ∧ ∀ m, s.pc ≠ .fatal m := by
  unfold alive
  cases s.pc <;> simp

theorem accepting_iff : accepting s = true ↔ s.rpc.crashed = false ∧
    (s.pc = .starting ∨ s.pc = .waiting ∨ s.pc = .signalled ∨ s.pc = .closed) := by
  unfold accepting alive
  cases s.pc <;> simp

theorem inv_start : Inv work start where
  rpc := .start
  closed := by simp [start, Rpc.start, Closing]
  returned := by simp [start]
  told := rfl

theorem inv_env (h : Inv work s) (st : Env s s') : Inv work s' := by
  cases st with
  | arrive q ha =>
    rw [accepting_iff] at ha
    refine ⟨.env _ _ h.rpc (.arrive _ q ha.1), h.closed, ?_, h.told⟩
    intro hp
    have hp : s.pc = .drained ∨ s.pc = .exited := hp
    obtain ⟨-, ha⟩ := ha
    rcases hp with hp | hp <;> simp [hp] at ha
  | cancel i c ha hc =>
    rw [alive_iff] at ha
    refine ⟨.env _ _ h.rpc (.cancel _ i c ha.1 hc), h.closed, ?_, h.told⟩
    intro hp d hd
    have := h.returned hp
    rcases List.mem_or_eq_of_mem_set hd with hd | hd
    · exact this d hd
    · subst hd
      exact this c (List.mem_of_getElem? hc)
  | signal ha => exact ⟨h.rpc, h.closed, h.returned, h.told⟩
  | serveFails m ha hn => exact ⟨h.rpc, h.closed, h.returned, h.told⟩

theorem returned_rpc {r : Rpc.State} {t : Rpc.State} (h : ∀ c ∈ t.calls, ∃ r, c.status = .returned r)
    (st : Rpc.Sys work t r) : ∀ c ∈ r.calls, ∃ r, c.status = .returned r := by
  have key : ∀ {i : Nat} {c : Rpc.Call}, t.calls[i]? = some c → ∃ r, c.status = .returned r :=
    fun hc => h _ (List.mem_of_getElem? hc)
  have keep : ∀ {i : Nat} {c d : Rpc.Call}, t.calls[i]? = some c → d.status = c.status →
      ∀ e ∈ t.calls.set i d, ∃ r, e.status = .returned r := by
    intro i c d hc hd e he
    rcases List.mem_or_eq_of_mem_set he with he | he
    · exact h e he
    · subst he
      rw [hd]
      exact key hc
  cases st with
  | send i c hc hic hst hcl hq => obtain ⟨r, hr⟩ := key hic; rw [hst] at hr; cases hr
  | sendClosed i c hc hic hst hcl => exact h
  | take i rest hc hw hq => exact h
  | exit hc hw hq hcl => exact h
  | answer i c a hc hw hic hwk hch => exact keep hic rfl
  | fail i c e hc hw hic hwk hch => exact keep hic rfl
  | panics i c e hc hw hic hwk => exact h
  | recvAnswer i c a hc hic hst hch => obtain ⟨r, hr⟩ := key hic; rw [hst] at hr; cases hr
  | recvError i c e hc hic hst hch => obtain ⟨r, hr⟩ := key hic; rw [hst] at hr; cases hr
  | recvDone i c hc hic hst hcd => obtain ⟨r, hr⟩ := key hic; rw [hst] at hr; cases hr

theorem inv_sys (h : Inv work s) (st : Sys work s s') : Inv work s' := by
  obtain ⟨h1, h2, h3, h4⟩ := h
  cases st with
  | rpc r ha st =>
    exact ⟨.sys _ _ h1 st, by rw [← h2]; simp only [Rpc.sys_closed st], fun hp => returned_rpc (h3 hp) st, h4⟩
  | ready k b ha hp hk =>
    rw [hp] at h2 h4
    refine ⟨h1, h2, by simp, ?_⟩
    have h4 : s.told = [] := h4
    have := sdNotify_sent k false ready
    simpa [ToldOk, h4] using this
  | readyFails k m ha hp hk =>
    rw [hp] at h2 h4
    refine ⟨h1, h2, by simp, ?_⟩
    have h4 : s.told = [] := h4
    have := sdNotify_sent k false ready
    simpa [ToldOk, h4] using this
  | takeError m ha hp he =>
    rw [hp] at h2 h4
    exact ⟨h1, h2, by simp, h4⟩
  | takeSignal ha hp hs =>
    rw [hp] at h2 h4
    exact ⟨h1, h2, by simp, h4⟩
  | close ha hp =>
    rw [hp] at h2 h4
    rw [alive_iff] at ha
    have hcl : s.rpc.closed = false := by
      simpa [Closing] using h2
    exact ⟨.env _ _ h1 (.close _ ha.1 hcl), by simp [Closing], by simp, h4⟩
  | refuse ha hp =>
    rw [hp] at h2 h4
    exact ⟨h1, h2, by simp, h4⟩
  | drain ha hp hr =>
    rw [hp] at h2 h4
    exact ⟨h1, h2, fun _ => hr, h4⟩
  | exit k ha hp =>
    have h5 := h3 (Or.inl hp)
    rw [hp] at h2 h4
    exact ⟨h1, h2, fun _ => h5, s.told, _, rfl, h4, sdNotify_sent k false stopping⟩

theorem inv_reach (h : Reach work s) : Inv work s := by
  induction h with
  | start => exact inv_start
  | env s s' _ st ih => exact inv_env ih st
  | sys s s' _ st ih => exact inv_sys ih st

/-- A channel that is closed is emptied and every call returns, or the process crashes. -/
theorem returned_of_rest {t : Rpc.State} (h : Rpc.Reach work t) (hcl : t.closed = true) (hc : t.crashed = false)
    (hrest : ¬ ∃ t', Rpc.Sys work t t') : ∀ c ∈ t.calls, ∃ r, c.status = .returned r := by
  have hi := Rpc.inv_reach h
  have hw : t.worker = .stopped ∧ t.queue = [] := by
    cases hw : t.worker with
    | idle =>
      cases hq : t.queue with
      | nil => exact absurd ⟨_, Rpc.Sys.exit t hc hw hq hcl⟩ hrest
      | cons j rest => exact absurd ⟨_, Rpc.Sys.take t j rest hc hw hq⟩ hrest
    | busy j =>
      obtain ⟨s', h1, -⟩ := Rpc.C44_worker_never_blocked h hc j hw
      exact absurd ⟨s', h1⟩ hrest
    | stopped => exact ⟨rfl, (hi.stopped hw).2⟩
  have hsa : t.answered = t.sent := by
    have := hi.history
    rw [hw.1, hw.2] at this
    simpa [Rpc.inWork] using this.symm
  intro c hcm
  obtain ⟨i, hic⟩ := List.mem_iff_getElem?.mp hcm
  have hok := hi.calls i c hic
  cases hst : c.status with
  | sending => exact absurd ⟨_, Rpc.Sys.sendClosed t i c hc hic hst hcl⟩ hrest
  | waiting =>
    unfold Rpc.CallOk at hok
    rw [hst] at hok
    rcases hok.2.2 (hsa ▸ hok.1) with ⟨a, -, h2, -⟩ | ⟨e, -, h2, -⟩
    · exact absurd ⟨_, Rpc.Sys.recvAnswer t i c a hc hic hst h2⟩ hrest
    · exact absurd ⟨_, Rpc.Sys.recvError t i c e hc hic hst h2⟩ hrest
  | returned r => exact ⟨r, rfl⟩

theorem settled_of_returned {t : Rpc.State} (h : Rpc.Reach work t)
    {c : Rpc.Call} (hcm : c ∈ t.calls) {r : Rpc.Reply} (hst : c.status = .returned r) : Spec.Settled work c := by
  obtain ⟨i, hic⟩ := List.mem_iff_getElem?.mp hcm
  have := Rpc.C44_reply_to_own_query h i c hic r hst
  cases r with
  | answer a => exact Or.inl ⟨a, this, hst⟩
  | error e => exact Or.inr (Or.inl ⟨e, this, hst⟩)
  | deadline => exact Or.inr (Or.inr ⟨this, hst⟩)

/-- Steps left to the main goroutine. -/
def rank : Pc → Nat
  | .starting => 6
  | .waiting => 5
  | .signalled => 4
  | .closed => 3
  | .draining => 2
  | .drained => 1
  | .exited => 0
  | .fatal _ => 0

theorem measure_sys (st : Sys work s s') : Rpc.measure s'.rpc + rank s'.pc < Rpc.measure s.rpc + rank s.pc := by
  cases st with
  | rpc r ha st =>
    have := Rpc.measure_sys st
    simp only
    omega
  | ready k b ha hp hk => simp [hp, rank]
  | readyFails k m ha hp hk => simp [hp, rank]
  | takeError m ha hp he => simp [hp, rank]
  | takeSignal ha hp hs => simp [hp, rank]
  | close ha hp => simp [hp, rank, Rpc.measure]
  | refuse ha hp => simp [hp, rank]
  | drain ha hp hr => simp [hp, rank]
  | exit k ha hp => simp [hp, rank]

end Verif.Life
